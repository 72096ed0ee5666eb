import Verif.Model.Located
/-!
# The places of views
-/

namespace Zpp.Spec
open Zpp

mutual
/-- The places of all views in an object, from left to right. -/
def placesOf : LVal → List Place
  | .view pl => [pl]
  | .list vs => placesAll vs
  | .some v => placesOf v
  | .alt _ v => placesOf v
  | _ => []
/-- The same for lists of objects. -/
def placesAll : List LVal → List Place
  | [] => []
  | v :: vs => placesOf v ++ placesAll vs
end

/-- The place lies in buffer `b`, between the positions `p` and `p'`. -/
def LiesIn (b p p' : Nat) (pl : Place) : Prop := pl.buf = b ∧ p ≤ pl.off ∧ pl.off + pl.len ≤ p'

/-- The places have no byte in common. -/
def Apart (x y : Place) : Prop := x.buf ≠ y.buf ∨ x.off + x.len ≤ y.off ∨ y.off + y.len ≤ x.off

/-- `w` is one of the objects of view type in an object `v` of type `t`: the object itself, or one in an element, member, entry,
content or alternative of it. As in `HasView`, views inside protobuf messages are not counted. -/
inductive ViewObject (env : Nat → Ty) : Ty → LVal → LVal → Prop
  | here {sz t v} : t = .scalar .byte 1 ∨ t = .scalar .chr 1 → ViewObject env (.seq .view sz t) v v
  | elem {k sz t vs v w} : k ≠ .view → v ∈ vs → ViewObject env t v w → ViewObject env (.seq k sz t) (.list vs) w
  | member {ok fs vs t v w} (i : Nat) : fs[i]? = some t → vs[i]? = some v → ViewObject env t v w →
      ViewObject env (.struct ok fs) (.list vs) w
  | array {n t vs v w} : v ∈ vs → ViewObject env t v w → ViewObject env (.array n t) (.list vs) w
  | setElem {mu ha sz key vs v w} : v ∈ vs → ViewObject env key v w → ViewObject env (.assoc mu ha sz key none) (.list vs) w
  | mapElem {mu ha sz key m vs v w} : v ∈ vs → ViewObject env (.struct false [key, m]) v w →
      ViewObject env (.assoc mu ha sz key (some m)) (.list vs) w
  | optional {dc t v w} : ViewObject env t v w → ViewObject env (.optional dc t) (.some v) w
  | optPtr {t v w} : ViewObject env t v w → ViewObject env (.optPtr t) (.some v) w
  | uptr {t v w} : ViewObject env t v w → ViewObject env (.uptr t) (.some v) w
  | alt {idTy ids dcs alts i t v w} : alts[i]? = some t → ViewObject env t v w →
      ViewObject env (.variant idTy ids dcs alts) (.alt i v) w
  | ref {i v w} : ViewObject env (env i) v w → ViewObject env (.ref i) v w

mutual
/-- The type contains no views. -/
def viewFree : Ty → Bool
  | .seq k _ t => k != .view && viewFree t
  | .struct _ fs => viewFreeL fs
  | .array _ t => viewFree t
  | .assoc _ _ _ key none => viewFree key
  | .assoc _ _ _ key (some t) => viewFree key && viewFree t
  | .optional _ t => viewFree t
  | .optPtr t => viewFree t
  | .uptr t => viewFree t
  | .variant _ _ _ alts => viewFreeL alts
  | .msg _ _ _ _ fs => viewFreeL fs
  | _ => true
/-- All types of a list. -/
def viewFreeL : List Ty → Bool
  | [] => true
  | t :: ts => viewFree t && viewFreeL ts
end

/-- What a result looks like. -/
def looks (m : Memory) (r : LResL) : ResL := ⟨r.s, r.vs.map (LVal.look m), r.p⟩

end Zpp.Spec
