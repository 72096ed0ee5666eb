import Verif.Spec.Wire
/-!
# Specification: the order of objects

How C++ compares objects of classes whose comparison is by members (`operator<=>(...) = default`): member by member, element by
element, an empty `std::optional` before any other, variants by the index of their alternative first. Numbers are unsigned.
-/

namespace Zpp.Spec

mutual
/-- The first object is less than the second. -/
inductive Before (env : Nat → Ty) : Ty → Val → Val → Prop
  | scalar (k : SKind) (n : Nat) {x y : Nat} : x < y → Before env (.scalar k n) (.num x) (.num y)
  | bool {x y : Nat} : x < y → Before env .bool (.num x) (.num y)
  | struct (ok : Bool) {ts : List Ty} {vs ws : List Val} : BeforeAll env ts vs ws → Before env (.struct ok ts) (.list vs) (.list ws)
  | array (n : Nat) {t : Ty} {vs ws : List Val} : BeforeAll env (List.replicate n t) vs ws → Before env (.array n t) (.list vs) (.list ws)
  | noOptional (dc : Bool) {t : Ty} (w : Val) : Before env (.optional dc t) .none (.some w)
  | optional (dc : Bool) {t : Ty} {v w : Val} : Before env t v w → Before env (.optional dc t) (.some v) (.some w)
  | index (idTy : Ty) (ids : List Val) (dcs : List Bool) (alts : List Ty) {i j : Nat} (v w : Val) : i < j →
      Before env (.variant idTy ids dcs alts) (.alt i v) (.alt j w)
  | alternative (idTy : Ty) (ids : List Val) (dcs : List Bool) {alts : List Ty} {i : Nat} {t : Ty} {v w : Val} : alts[i]? = some t →
      Before env t v w → Before env (.variant idTy ids dcs alts) (.alt i v) (.alt i w)
  | ref (i : Nat) {ok : Bool} {ts : List Ty} {vs ws : List Val} : env i = .struct ok ts → BeforeAll env ts vs ws →
      Before env (.ref i) (.list vs) (.list ws)
/-- Members or elements: the first ones that differ decide. -/
inductive BeforeAll (env : Nat → Ty) : List Ty → List Val → List Val → Prop
  | here {t : Ty} {v w : Val} (ts : List Ty) (vs ws : List Val) : Before env t v w → BeforeAll env (t :: ts) (v :: vs) (w :: ws)
  | later (t : Ty) (v : Val) {ts : List Ty} {vs ws : List Val} : BeforeAll env ts vs ws → BeforeAll env (t :: ts) (v :: vs) (v :: ws)
end

/-- The ids are numbers in ascending order, as the default ids of the alternatives are (their indices). -/
def ascending : List Val → Bool
  | .num x :: .num y :: ids => decide (x < y) && ascending (.num y :: ids)
  | [.num _] => true
  | _ => false

mutual
/-- Types whose encodings sort like their objects: unsigned integers, `bool`, and classes, arrays, optionals and variants of them. -/
def sorts : Ty → Bool
  | .scalar _ _ => true
  | .bool => true
  | .empty => true
  | .struct _ ts => sortsAll ts
  | .array _ t => sorts t
  | .optional _ t => sorts t
  | .variant (.scalar _ _) ids _ alts => ascending ids && sortsAll alts
  | .ref _ => true
  | _ => false
/-- All of the types. -/
def sortsAll : List Ty → Bool
  | [] => true
  | t :: ts => sorts t && sortsAll ts
end

end Zpp.Spec
