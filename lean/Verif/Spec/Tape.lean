import Verif.Spec.Queue
/-!
# Specification: output as a tape
-/

namespace Zpp.Spec

/-- What a program does with an output archive: write objects in a call, or go to another position (`position()`, `reset`). -/
inductive TapeOp
  | write (items : List (Ty × Val))
  | seek (p : Nat)

/-- A program run on an output archive; it ends at the first failing call. -/
def archiveRun (d : Nat) (c : Cfg) (noFit : Bool) : List TapeOp → OutSt → Status × OutSt
  | [], st => (.ok, st)
  | .write items :: ops, st =>
    match outCall d c noFit items st with
    | (.ok, st') => archiveRun d c noFit ops st'
    | r => r
  | .seek p :: ops, st => archiveRun d c noFit ops { st with pos := p }

/-- A tape of bytes with a head. -/
structure Tape where
  cells : List UInt8
  head : Nat

/-- Writing bytes at the head replaces the cells there, adding new ones at the end if needed. -/
def Tape.put (t : Tape) (bs : List UInt8) : Tape :=
  ⟨t.cells.take t.head ++ bs ++ t.cells.drop (t.head + bs.length), t.head + bs.length⟩

/-- The program run on a tape: writing objects puts their encodings, the head may go anywhere on the tape. `room` is the number
of cells there may be. -/
inductive TapeRun (f : Fmt) (room : Nat) : Tape → List TapeOp → Tape → Prop
  | done (t : Tape) : TapeRun f room t [] t
  | write {t t' : Tape} {items : List (Ty × Val)} {bs : List UInt8} {ops : List TapeOp} :
    wireItems f items = some bs → t.head + bs.length ≤ room → TapeRun f room (t.put bs) ops t' →
      TapeRun f room t (.write items :: ops) t'
  | seek {t t' : Tape} {p : Nat} {ops : List TapeOp} :
    p ≤ t.cells.length → TapeRun f room { t with head := p } ops t' → TapeRun f room t (.seek p :: ops) t'

/-- The objects written by a program. -/
def tapeItems : List TapeOp → List (Ty × Val)
  | [] => []
  | .write items :: ops => items ++ tapeItems ops
  | .seek _ :: ops => tapeItems ops

end Zpp.Spec
