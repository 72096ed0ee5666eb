import Verif.Model.In
/-!
# Specification: receiving messages in pieces

A program receives bytes in pieces, as from a socket, and reads messages from them with an input archive (`in::operator()`,
zpp_bits.h:2532-2535, and `position`, 2542-2550). After each piece it tries to read the next message. When the archive reports `result_out_of_range` it sets
the position back to where the message began and waits for the next piece. From time to time it discards the bytes it has read.
-/

namespace Zpp.Spec

/-- The receiving program: the bytes it holds, the position of the archive, the destinations of the messages to come, the
messages received. -/
structure Receiver where
  data : List UInt8
  pos : Nat
  wanted : List (List (Ty × Val))
  got : List (List Val)

/-- Destinations after a call: each holds what the call left in it. -/
def leftIn (dests : List (Ty × Val)) (vs : List Val) : List (Ty × Val) := (dests.map Prod.fst).zip vs

/-- Read messages until one is not complete. `none`: an error other than `result_out_of_range`, or worse. -/
def drain (d : Nat) (c : Cfg) (data : List UInt8) : List (List (Ty × Val)) → Nat → Option (Receiver)
  | [], p => some ⟨data, p, [], []⟩
  | dests :: rest, p =>
    match decMany d c data dests p with
    | ⟨.ok, vs, p'⟩ => (drain d c data rest p').map fun r => { r with got := vs :: r.got }
    | ⟨.err .resultOutOfRange, vs, _⟩ => some ⟨data, p, leftIn dests vs :: rest, []⟩
    | _ => none

/-- A piece arrives. `discard`: the bytes in front of the position are dropped before. -/
def Receiver.arrive (d : Nat) (c : Cfg) (discard : Bool) (piece : List UInt8) (r : Receiver) : Option Receiver :=
  let r := if discard then { r with data := r.data.drop r.pos, pos := 0 } else r
  (drain d c (r.data ++ piece) r.wanted r.pos).map fun r' => { r' with got := r.got ++ r'.got }

/-- Pieces arrive one after the other. -/
def receive (d : Nat) (c : Cfg) : List (Bool × List UInt8) → Receiver → Option Receiver
  | [], r => some r
  | (discard, piece) :: rest, r => (r.arrive d c discard piece).bind (receive d c rest)

/-- How many of the messages with the given encodings are complete when `n` bytes have arrived. -/
def complete : List (List UInt8) → Nat → Nat
  | [], _ => 0
  | b :: bs, n => if b.length ≤ n then complete bs (n - b.length) + 1 else 0

end Zpp.Spec
