import Verif.Spec.Input
import Verif.Spec.Archive
import Verif.Model.Out
/-!
# Specification: objects identified by their bytes

A program keeps results of a function in a table, under the bytes to which the arguments are written by an output archive.
-/

namespace Zpp.Spec

/-- One request: write the arguments into a new buffer, look the bytes up, compute the result only if they are not in the table. `none`: writing failed. The
flag says whether the function was called. -/
def memoStep {α : Type} (d : Nat) (c : Cfg) (noFit : Bool) (f : List Val → α) (table : List (List UInt8 × α)) (args : List (Ty × Val)) :
    Option (α × Bool × List (List UInt8 × α)) :=
  match outCall d c noFit args ⟨[], 0⟩ with
  | (.ok, st) =>
    match table.find? (fun e => e.1 == st.data.take st.pos) with
    | some e => some (e.2, false, table)
    | none => some (f (args.map Prod.snd), true, (st.data.take st.pos, f (args.map Prod.snd)) :: table)
  | _ => none

/-- A sequence of requests: the results, and whether the function was called. -/
def memoRun {α : Type} (d : Nat) (c : Cfg) (noFit : Bool) (f : List Val → α) : List (List UInt8 × α) → List (List (Ty × Val)) → List (Option (α × Bool))
  | _, [] => []
  | table, args :: more =>
    match memoStep d c noFit f table args with
    | some (y, called, table') => some (y, called) :: memoRun d c noFit f table' more
    | none => [none]

/-- What it should do: the results are those of the function, which is called for arguments not seen before. -/
def memoIdeal {α : Type} (f : List Val → α) : List (List Val) → List (List Val) → List (Option (α × Bool))
  | _, [] => []
  | seen, x :: xs => some (f x, decide (x ∉ seen)) :: memoIdeal f (x :: seen) xs

/-- Arguments that can be used: of the types `tys`, can be written and read, and there is memory for the bytes. -/
structure MemoOk (d : Nat) (c : Cfg) (tys : List Ty) (args : List (Ty × Val)) : Prop where
  types : args.map Prod.fst = tys
  sup : Supported c args
  read : Readable c args
  stack : StackOk d args
  room : ∃ b, wireItems (fmtOf c) args = some b ∧ b.length < 2 ^ 63 ∧ LimitRoom c.g b.length ∧ MemRoom c.g b.length

end Zpp.Spec
