import Verif.Spec.Records
/-!
# Specification: destinations that must be prepared

Mutable spans and containers without a size prefix are not resized by a read: the caller makes them large enough, or
exactly as large as the object, beforehand.
-/

namespace Zpp.Spec

mutual
/-- The destination holding `old` is prepared to receive the object `v` of type `t`. `D` bounds the nesting of the new
elements and pointees created on the way (they are what the language makes of `T{}`, see `Initial`). -/
inductive Prepared (c : Cfg) (D : Nat) : Ty → Val → Val → Prop
  /-- Nothing below needs preparation: any previous contents. -/
  | any {t : Ty} {v old : Val} (h : Loadable c t v) : Prepared c D t v old
  /-- A mutable span with a size prefix: at least as many elements as the object has; the first of them are prepared. -/
  | span {sz : Option SizeTy} {t : Ty} {vs os : List Val} (hs : sz.getD c.dsz ≠ .none) (hl : vs.length ≤ os.length)
      (h : PreparedAll c D t vs (os.take vs.length)) : Prepared c D (.seq .span sz t) (.list vs) (.list os)
  /-- A container or span without size prefix: exactly as many elements as the object has. -/
  | unsized {k : SeqKind} {sz : Option SizeTy} {t : Ty} {vs os : List Val} (hk : k ≠ .view) (hs : sz.getD c.dsz = .none)
      (h : PreparedAll c D t vs os) : Prepared c D (.seq k sz t) (.list vs) (.list os)
  /-- A growing container with a size prefix: it is cut, or filled up with new elements, and then every element is prepared. -/
  | seq {k : SeqKind} {sz : Option SizeTy} {t : Ty} {vs os : List Val} {dv : Val} (hk : k = .vector ∨ k = .list)
      (hs : sz.getD c.dsz ≠ .none) (hf : Fits c.g (c.sizeof t) vs.length) (hi : Initial c.env t dv) (hd : 2 * depth dv ≤ D)
      (h : PreparedAll c D t vs (os.take vs.length ++ List.replicate (vs.length - os.length) dv)) :
      Prepared c D (.seq k sz t) (.list vs) (.list os)
  /-- A class: every member is prepared. -/
  | struct {ok : Bool} {fs : List Ty} {vs os : List Val} (h : PreparedF c D fs vs os) :
      Prepared c D (.struct ok fs) (.list vs) (.list os)
  /-- An array: every element is prepared. -/
  | array {n : Nat} {t : Ty} {vs os : List Val} (h : PreparedAll c D t vs os) : Prepared c D (.array n t) (.list vs) (.list os)
  /-- An engaged optional of a default constructible type: the contained object is prepared. -/
  | here {t : Ty} {v o : Val} (h : Prepared c D t v o) : Prepared c D (.optional true t) (.some v) (.some o)
  /-- Any other optional: a new object is prepared. -/
  | optional {dc : Bool} {t : Ty} {v old dv : Val} (ho : dc = false ∨ ∀ o, old ≠ .some o) (hi : Initial c.env t dv)
      (hd : 2 * depth dv ≤ D) (h : Prepared c D t v dv) : Prepared c D (.optional dc t) (.some v) old
  /-- Pointers always receive a new object. -/
  | optPtr {t : Ty} {v old dv : Val} (hi : Initial c.env t dv) (hd : 2 * depth dv ≤ D) (h : Prepared c D t v dv) :
      Prepared c D (.optPtr t) (.some v) old
  | uptr {t : Ty} {v old dv : Val} (hi : Initial c.env t dv) (hd : 2 * depth dv ≤ D) (h : Prepared c D t v dv) :
      Prepared c D (.uptr t) (.some v) old
  /-- A variant that holds the alternative to be read, of a default constructible type: the alternative is prepared. -/
  | alt {idTy : Ty} {ids : List Val} {dcs : List Bool} {alts : List Ty} {i : Nat} {t : Ty} {v o : Val}
      (ht : alts[i]? = some t) (hc : dcs[i]? = some true) (h : Prepared c D t v o) :
      Prepared c D (.variant idTy ids dcs alts) (.alt i v) (.alt i o)
  /-- Any other variant: a new object is prepared. -/
  | variant {idTy : Ty} {ids : List Val} {dcs : List Bool} {alts : List Ty} {i : Nat} {t : Ty} {v old dv : Val}
      (ht : alts[i]? = some t) (ho : dcs[i]? = some false ∨ ∀ o, old ≠ .alt i o) (hi : Initial c.env t dv)
      (hd : 2 * depth dv ≤ D) (h : Prepared c D t v dv) : Prepared c D (.variant idTy ids dcs alts) (.alt i v) old
  /-- A named class: its definition. -/
  | ref {i : Nat} {v old : Val} (h : Prepared c D (c.env i) v old) : Prepared c D (.ref i) v old
/-- Elements: as many as the object has, each prepared. -/
inductive PreparedAll (c : Cfg) (D : Nat) : Ty → List Val → List Val → Prop
  | nil {t : Ty} : PreparedAll c D t [] []
  | cons {t : Ty} {v o : Val} {vs os : List Val} (h : Prepared c D t v o) (hs : PreparedAll c D t vs os) :
      PreparedAll c D t (v :: vs) (o :: os)
/-- Members. -/
inductive PreparedF (c : Cfg) (D : Nat) : List Ty → List Val → List Val → Prop
  | nil : PreparedF c D [] [] []
  | cons {t : Ty} {ts : List Ty} {v o : Val} {vs os : List Val} (h : Prepared c D t v o) (hs : PreparedF c D ts vs os) :
      PreparedF c D (t :: ts) (v :: vs) (o :: os)
end

/-- The destinations `ds` (with the objects they hold) are prepared for the items. -/
def PreparedItems (c : Cfg) (D : Nat) : List (Ty × Val) → List (Ty × Val) → Prop
  | [], [] => True
  | (t, v) :: items, (t', o) :: ds => t' = t ∧ Prepared c D t v o ∧ PreparedItems c D items ds
  | _, _ => False

end Zpp.Spec
