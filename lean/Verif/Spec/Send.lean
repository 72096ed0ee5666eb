import Verif.Model.Out
/-!
# Specification: sending messages through a buffer of limited size

A program writes messages one behind the other into a fixed buffer with an output archive (`out::operator()`, zpp_bits.h:1925-1928). When a message
does not fit, it hands over the bytes in front of that message (`processed_data` or `position`, 1935-1954), sets the position to the beginning of
the buffer (`reset`, 1956-1959), and writes the message again. In the end it hands over what is left.
-/

namespace Zpp.Spec

/-- The sending program: the chunks it hands over. `none`: an error other than `result_out_of_range`, or a second error for the same message. -/
def sendAll (d : Nat) (c : Cfg) (noFit : Bool) : List (List (Ty × Val)) → OutSt → Option (List (List UInt8))
  | [], st => some [st.data.take st.pos]
  | m :: ms, st =>
    match outCall d c noFit m st with
    | (.ok, st') => sendAll d c noFit ms st'
    | (.err .resultOutOfRange, st') =>
      match outCall d c noFit m ⟨st'.data, 0⟩ with
      | (.ok, st'') => (sendAll d c noFit ms st'').map (st'.data.take st.pos :: ·)
      | _ => none
    | _ => none

/-- Packing without a buffer: each message goes behind the ones before as long as a chunk has no more than `room` bytes. `cur` is the chunk being
filled. -/
def pack (room : Nat) : List (List UInt8) → List UInt8 → List (List UInt8)
  | [], cur => [cur]
  | b :: bs, cur => if cur.length + b.length ≤ room then pack room bs (cur ++ b) else cur :: pack room bs b

end Zpp.Spec
