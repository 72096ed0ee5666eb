import Verif.Model.KnownId
import Verif.Spec.Archive
import Verif.Spec.Input
/-!
# Specification: variants with a known id
-/

namespace Zpp.Spec

/-- `Stands a (t, v)`: writing the argument `a` is writing the object `v` of type `t`. An object stands for itself. A
variant with a known id, holding its alternative number `i` with the object `v`, stands for `v`, if `i` is the
alternative with that id. -/
inductive Stands : Arg → Ty × Val → Prop
  | obj (t : Ty) (v : Val) : Stands (.obj t v) (t, v)
  | known {id : Val} {ids : List Val} {dcs : List Bool} {alts : List Ty} {i : Nat} {t : Ty} (v : Val) :
      nodup ids = true → ids[i]? = some id → alts[i]? = some t → Stands (.known id ids dcs alts (.alt i v)) (t, v)

/-- `Reads a w x`: the destination `a`, whatever it holds, is fit to receive what `w` wrote, and afterwards holds the
object `x`. An object is read as its type, giving the object written. A variant written with a known id is read with the
same id, given at compile time (only for default constructible alternatives) or at run time, giving the variant
written. -/
inductive Reads : Arg → Arg → Val → Prop
  | obj {t : Ty} {v old : Val} : Reads (.obj t old) (.obj t v) v
  | known {id : Val} {ids : List Val} {dcs : List Bool} {alts : List Ty} {i : Nat} {v old : Val} :
      ids[i]? = some id → dcs[i]? = some true →
      Reads (.known id ids dcs alts old) (.known id ids dcs alts (.alt i v)) (.alt i v)
  | knownDyn {id : Val} {ids : List Val} {dcs : List Bool} {alts : List Ty} {i : Nat} {v old : Val} {dc : Bool} :
      ids[i]? = some id → dcs[i]? = some dc →
      Reads (.knownDyn id ids dcs alts old) (.known id ids dcs alts (.alt i v)) (.alt i v)

/-- `Reads` for the arguments of a call. -/
inductive ReadsAll : List Arg → List Arg → List Val → Prop
  | nil : ReadsAll [] [] []
  | cons {a w : Arg} {x : Val} {as ws : List Arg} {xs : List Val} : Reads a w x → ReadsAll as ws xs →
      ReadsAll (a :: as) (w :: ws) (x :: xs)

/-- `Stands` for the arguments of a call. -/
inductive StandsAll : List Arg → List (Ty × Val) → Prop
  | nil : StandsAll [] []
  | cons {a : Arg} {x : Ty × Val} {as : List Arg} {xs : List (Ty × Val)} : Stands a x → StandsAll as xs →
      StandsAll (a :: as) (x :: xs)

/-- `From dv a t v`: reading into the destination `a` is reading an object of type `t` that starts out as `v`. An object
is read in place. A variant with a known id is read as the alternative `t` with that id: in place, if it holds it and the
alternative is default constructible, else into the new object `dv t`. -/
inductive From (dv : Ty → Val) : Arg → Ty → Val → Prop
  | obj (t : Ty) (v : Val) : From dv (.obj t v) t v
  | held {id : Val} {ids : List Val} {dcs : List Bool} {alts : List Ty} {i : Nat} {t : Ty} (v : Val) :
      nodup ids = true → ids[i]? = some id → alts[i]? = some t → dcs[i]? = some true →
      From dv (.known id ids dcs alts (.alt i v)) t v
  | other {id : Val} {ids : List Val} {dcs : List Bool} {alts : List Ty} {i : Nat} {t : Ty} (old : Val) :
      nodup ids = true → ids[i]? = some id → alts[i]? = some t → dcs[i]? = some true → (∀ v, old ≠ .alt i v) →
      From dv (.known id ids dcs alts old) t (dv t)
  | heldDyn {id : Val} {ids : List Val} {dcs : List Bool} {alts : List Ty} {i : Nat} {t : Ty} (v : Val) :
      nodup ids = true → ids[i]? = some id → alts[i]? = some t → dcs[i]? = some true →
      From dv (.knownDyn id ids dcs alts (.alt i v)) t v
  | otherDyn {id : Val} {ids : List Val} {dcs : List Bool} {alts : List Ty} {i : Nat} {t : Ty} {dc : Bool} (old : Val) :
      nodup ids = true → ids[i]? = some id → alts[i]? = some t → dcs[i]? = some dc →
      (dc = true → ∀ v, old ≠ .alt i v) → From dv (.knownDyn id ids dcs alts old) t (dv t)

/-- `From` for the arguments of a call. -/
inductive FromAll (dv : Ty → Val) : List Arg → List (Ty × Val) → Prop
  | nil : FromAll dv [] []
  | cons {a : Arg} {t : Ty} {v : Val} {as : List Arg} {xs : List (Ty × Val)} : From dv a t v → FromAll dv as xs →
      FromAll dv (a :: as) ((t, v) :: xs)

/-- What the destination holds after the object `v` was read into it. -/
def holds : Arg → Val → Val
  | .obj _ _, v => v
  | .known id ids _ _ _, v => .alt (ids.idxOf id) v
  | .knownDyn id ids _ _ _, v => .alt (ids.idxOf id) v

end Zpp.Spec
