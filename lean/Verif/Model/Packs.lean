import Verif.Model.Reflect
import Verif.Model.Static
/-!
# Member reflection with structured binding packs

The branches of `access::number_of_members`, `visit_members` and `visit_members_types` for compilers with structured binding
packs, C++26 (zpp_bits.h:204-230, 1229-1241), and what they mean for message classes.
-/

namespace Zpp

/-- What a compiler with structured binding packs says about a type, in addition to `TypeInfo`: `binds`: `auto && [...members] =
object` is valid; `guarded`: `concepts::inspection_guarded` (zpp_bits.h:934-937). -/
structure PackInfo where
  info : TypeInfo
  binds : Bool
  guarded : Bool

/-- `number_of_members<Type>()` (zpp_bits.h:1174-1241, 1265-1267). `none`: does not compile, since the body of a lambda is not
part of the constraint. -/
def numberOfMembersPacks {α : Type} (t : PackInfo) (members : List α) : Option Int :=
  match t.info with
  | .array n => some n
  | .noClass => some 0
  | .fixedContainer n => some n
  | .tuple n => some n
  | .cls (some n) _ _ _ _ => some n
  | .cls none _ _ _ _ => if t.guarded then some (-1) else if t.binds then some members.length else none

/-- `visit_members(object, visitor)` (zpp_bits.h:209-214): the pack has all members in order, whatever number is declared. -/
def visitMembersPacks {α : Type} (t : PackInfo) (members : List α) : Option (List α) :=
  if t.binds then some members else none

/-- `visit_members_types<Type>(visitor)` (zpp_bits.h:216-226). -/
def visitMembersTypesPacks {α : Type} (t : PackInfo) (memberTypes : List α) : Option (List α) :=
  if t.binds then some memberTypes else none

/-- A message class as its reader sees it: all members are visited to be emptied (zpp_bits.h:4954-4967), but only as many
members as `number_of_members` says are looked at for the number of a record (4993). `declared` is the number in
`protocol<pb{}, N>`. The writer visits all members (4728-4759). -/
def packsReads (declared : Option Nat) (sz : Option SizeTy) (ok : Bool) (maps : List (Nat × Nat)) (nums : List (Option Nat))
    (fs : List Ty) : Ty :=
  .msg sz ok maps (nums.take (declared.getD fs.length)) fs

/-- The class compiles. Numbers are compared for as many members as `number_of_members` says (zpp_bits.h:4559-4570); an index
without member is rejected by `std::get` (4490-4494). Simplified: an explicit number 0 is rejected for all members. -/
def messageCompilesPacks (env : Nat → Ty) (declared : Option Nat) (maps : List (Nat × Nat)) (nums : List (Option Nat))
    (fs : List Ty) : Bool :=
  decide (nums.length = fs.length) && decide (declared.getD fs.length ≤ fs.length) && numbersOk maps nums &&
    uniqueValues (structNumbers maps (nums.take (declared.getD fs.length))) && fs.all (memberCompiles env)

end Zpp
