import Verif.Spec.Input
import Verif.Spec.Archive
import Verif.Model.Out
/-!
# Specification: writing again with a larger buffer; relays
-/

namespace Zpp.Spec

/-- A program without growing buffers writes objects of unknown size: it writes into a buffer, and as long as the answer is `result_out_of_range` it makes the
buffer larger (`2n + 1` bytes instead of `n`) and starts again at its begin. `keep`: the larger buffer keeps the bytes (`resize`), otherwise it is new. At most
`n + 1` times. The result is the part of the buffer written. -/
def retry (d : Nat) (c : Cfg) (noFit keep : Bool) (items : List (Ty × Val)) : Nat → List UInt8 → Option (List UInt8)
  | n, buf =>
    match outCall d c noFit items ⟨buf, 0⟩ with
    | (.ok, st) => some (st.data.take st.pos)
    | (.err .resultOutOfRange, st) =>
      match n with
      | 0 => none
      | n + 1 => retry d c noFit keep items n (if keep then st.data ++ List.replicate (buf.length + 1) 0 else List.replicate (2 * buf.length + 1) 0)
    | _ => none

/-- One relay: it reads a message with one set of options and writes what it has read, with other options, into a new buffer. -/
def relayHop (dests : List (Ty × Val)) (data : List UInt8) (ri : Nat × Cfg) (ro : Nat × Cfg × Bool) : Option (List UInt8) :=
  match decMany ri.1 ri.2 data dests 0 with
  | ⟨.ok, vs, _⟩ =>
    match outCall ro.1 ro.2.1 ro.2.2 ((dests.map Prod.fst).zip vs) ⟨[], 0⟩ with
    | (.ok, st) => some (st.data.take st.pos)
    | _ => none
  | _ => none

/-- A message goes through relays; relay `i` reads with the options with which relay `i - 1` wrote. -/
def relayAll (dests : List (Ty × Val)) : List UInt8 → Nat × Cfg → List (Nat × Cfg × Bool) → Option (List UInt8 × Nat × Cfg)
  | data, last, [] => some (data, last)
  | data, last, r :: rs => (relayHop dests data last r).bind fun data' => relayAll dests data' (r.1, r.2.1) rs

/-- What is required of the options at one relay: the objects can be written and read with them, and there is memory for the message. -/
structure HopOk (items : List (Ty × Val)) (d : Nat) (c : Cfg) : Prop where
  grows : c.g.resizable = true
  sup : Supported c items
  read : Readable c items
  stack : StackOk d items
  room : ∃ b, wireItems (fmtOf c) items = some b ∧ b.length < 2 ^ 63 ∧ LimitRoom c.g b.length ∧ MemRoom c.g b.length

end Zpp.Spec
