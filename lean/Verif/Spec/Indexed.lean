import Verif.Spec.Input
import Verif.Spec.Archive
import Verif.Model.Out
/-!
# Specification: a file with an index

A program writes records one behind the other, noting `position()` before each. Behind the records it writes the list of these positions, and behind that the
position of the list. A reader sets its position to eight bytes in front of the end, reads the position of the list, goes there, reads the list, and goes to the
record it wants.
-/

namespace Zpp.Spec

/-- Type of a position (`std::uint64_t`). -/
abbrev posTy : Ty := .scalar .int 8

/-- Type of the list of positions (`sized<std::vector<std::uint64_t>, std::uint64_t>`). -/
abbrev indexTy : Ty := .seq .vector (some (.fixed 8)) posTy

/-- Write the records, noting the position before each. `none`: a call failed. -/
def putRecords (d : Nat) (c : Cfg) (noFit : Bool) : List (List (Ty × Val)) → OutSt → Option (OutSt × List Nat)
  | [], st => some (st, [])
  | r :: rs, st =>
    match outCall d c noFit r st with
    | (.ok, st') => (putRecords d c noFit rs st').map fun x => (x.1, st.pos :: x.2)
    | _ => none

/-- Write the file. -/
def putFile (d : Nat) (c : Cfg) (noFit : Bool) (recs : List (List (Ty × Val))) : Option (List UInt8) :=
  (putRecords d c noFit recs ⟨[], 0⟩).bind fun x =>
    match outCall d c noFit [(indexTy, .list (x.2.map Val.num))] x.1 with
    | (.ok, st1) =>
      match outCall d c noFit [(posTy, .num x.1.pos)] st1 with
      | (.ok, st2) => some (st2.data.take st2.pos)
      | _ => none
    | _ => none

/-- The number read. -/
def numOf : List Val → Nat
  | [.num x] => x
  | _ => 0

/-- The elements of the list read. -/
def elemsOf : List Val → List Val
  | [.list vs] => vs
  | _ => []

/-- Go to position `p` and read. `check`: positions behind the end are refused first; the archive itself does not check them. -/
def seekRead (check : Bool) (d : Nat) (c : Cfg) (file : List UInt8) (dests : List (Ty × Val)) (p : Nat) : Status × List Val :=
  if check = true ∧ file.length < p then (.err .resultOutOfRange, [])
  else
    let r := decMany d c file dests p
    (r.s, r.vs)

/-- Read record `i` alone, into `dests`. -/
def getRecord (check : Bool) (d : Nat) (c : Cfg) (file : List UInt8) (i : Nat) (dests : List (Ty × Val)) : Status × List Val :=
  if file.length < 8 then (.err .resultOutOfRange, [])
  else
    match seekRead check d c file [(posTy, .num 0)] (file.length - 8) with
    | (.ok, vs) =>
      match seekRead check d c file [(indexTy, .list [])] (numOf vs) with
      | (.ok, ws) =>
        match (elemsOf ws)[i]? with
        | some q => seekRead check d c file dests (numOf [q])
        | none => (.err .resultOutOfRange, [])
      | (s, _) => (s, [])
    | (s, _) => (s, [])

end Zpp.Spec
