import Verif.Model.Duplex
/-!
# Specification: threads with archives over parts of one memory

Each thread has an input and an output archive over its own part of the memory (`std::span`, `in_out`, zpp_bits.h:3155-3162) and makes calls on them. A scheduler
decides whose call is next. Calls are taken as a whole: a schedule that switches threads within calls is not modelled.
-/

namespace Zpp.Spec

/-- A thread: the part of the memory its archives are over, their options and positions, the calls to be made, and what the calls made so far returned. -/
structure Thread where
  off : Nat
  len : Nat
  d : Nat
  c : Cfg
  noFit : Bool
  wpos : Nat
  rpos : Nat
  todo : List Op
  done : List (Status × List Val)

/-- What the archives of a thread are over. -/
def Thread.view (mem : List UInt8) (t : Thread) : Duplex := ⟨(mem.drop t.off).take t.len, t.wpos, t.rpos⟩

/-- The next call of a thread, on its part of the memory. -/
def Thread.turn (mem : List UInt8) (t : Thread) : List UInt8 × Thread :=
  match t.todo with
  | [] => (mem, t)
  | op :: ops =>
    let r := (t.view mem).step t.d t.c t.noFit op
    (mem.take t.off ++ r.2.data ++ mem.drop (t.off + t.len), { t with wpos := r.2.wpos, rpos := r.2.rpos, todo := ops, done := t.done ++ [r.1] })

/-- A schedule: which thread is next. -/
def runSchedule : List Nat → List UInt8 → (Nat → Thread) → List UInt8 × (Nat → Thread)
  | [], mem, ts => (mem, ts)
  | j :: js, mem, ts =>
    let r := (ts j).turn mem
    runSchedule js r.1 fun i => if i = j then r.2 else ts i

/-- The calls include a call of the output archive. -/
def hasWrite : List Op → Bool
  | [] => false
  | .write _ :: _ => true
  | .read _ :: ops => hasWrite ops

/-- Two threads do not share any bytes. -/
def NoShare (a b : Thread) : Prop := a.off + a.len ≤ b.off ∨ b.off + b.len ≤ a.off

end Zpp.Spec
