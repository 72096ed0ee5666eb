import Verif.Spec.Wire
/-!
# Specification: types that stand for each other on the wire

A program may write a `std::vector` and another one read a `std::list`. `Alike f t v t' v'` lists the pairs of objects a user
may expect to be interchangeable: `v` of type `t` written, `v'` of type `t'` read, or the other way round.
-/

namespace Zpp.Spec

mutual
/-- Objects which are interchangeable in the format `f`. -/
inductive Alike (f : Fmt) : Ty → Val → Ty → Val → Prop
  /-- An object and itself. -/
  | refl (t : Ty) (v : Val) : Alike f t v t v
  /-- In both directions. -/
  | symm {t v t' v'} : Alike f t v t' v' → Alike f t' v' t v
  /-- In several steps. -/
  | trans {t v t' v' t'' v''} : Alike f t v t' v' → Alike f t' v' t'' v'' → Alike f t v t'' v''
  /-- Integers, enumerations, characters, floating point numbers of one size and the same representation. -/
  | scalar (k k' : SKind) (n x : Nat) : Alike f (.scalar k n) (.num x) (.scalar k' n) (.num x)
  /-- A `bool` and a byte. -/
  | bool (k : SKind) {x : Nat} : x ≤ 1 → Alike f .bool (.num x) (.scalar k 1) (.num x)
  /-- Varints of different width and the same value. -/
  | varint {n n' x : Nat} : x < 2 ^ (8 * n) → x < 2 ^ (8 * n') → Alike f (.varint n false) (.num x) (.varint n' false) (.num x)
  /-- Sequence containers of any kind with the same size prefix. -/
  | seq (k k' : SeqKind) {sz sz' : Option SizeTy} {t t' : Ty} {vs vs' : List Val} : sz.getD f.dsz = sz'.getD f.dsz →
      AlikeAll f t vs t' vs' → Alike f (.seq k sz t) (.list vs) (.seq k' sz' t') (.list vs')
  /-- A set and a sequence container. -/
  | set (multi hashed : Bool) (k : SeqKind) (sz : Option SizeTy) (key : Ty) (vs : List Val) :
      Alike f (.assoc multi hashed sz key none) (.list vs) (.seq k sz key) (.list vs)
  /-- A map and a sequence container of pairs. -/
  | map (multi hashed ok : Bool) (k : SeqKind) (sz : Option SizeTy) (key m : Ty) (vs : List Val) :
      Alike f (.assoc multi hashed sz key (some m)) (.list vs) (.seq k sz (.struct ok [key, m])) (.list vs)
  /-- Arrays of interchangeable elements. -/
  | array (n : Nat) {t t' : Ty} {vs vs' : List Val} : AlikeAll f t vs t' vs' →
      Alike f (.array n t) (.list vs) (.array n t') (.list vs')
  /-- An array and a sequence container without size prefix. -/
  | unsized (k : SeqKind) (t : Ty) (vs : List Val) : Alike f (.array vs.length t) (.list vs) (.seq k (some .none) t) (.list vs)
  /-- An array and a class with as many members of the element type. -/
  | members (ok : Bool) (n : Nat) (t : Ty) (vs : List Val) :
      Alike f (.array n t) (.list vs) (.struct ok (List.replicate n t)) (.list vs)
  /-- Classes with interchangeable members. -/
  | struct (ok ok' : Bool) {ts ts' : List Ty} {vs vs' : List Val} : AlikeF f ts vs ts' vs' →
      Alike f (.struct ok ts) (.list vs) (.struct ok' ts') (.list vs')
  /-- A class with a member of class type and the class with its members instead. -/
  | flatten (ok ok' ok'' : Bool) {as bs cs : List Ty} {us vs ws : List Val} : as.length = us.length → bs.length = vs.length →
      Alike f (.struct ok (as ++ .struct ok' bs :: cs)) (.list (us ++ .list vs :: ws))
        (.struct ok'' (as ++ bs ++ cs)) (.list (us ++ vs ++ ws))
  /-- A class with one member and the member. -/
  | wrap (ok : Bool) (t : Ty) (v : Val) : Alike f (.struct ok [t]) (.list [v]) t v
  /-- An empty class and a class without members to serialize. -/
  | empty (ok : Bool) : Alike f .empty .unit (.struct ok []) (.list [])
  /-- An owning pointer and the object it points to. -/
  | uptr (t : Ty) (v : Val) : Alike f (.uptr t) (.some v) t v
  /-- Optionals of interchangeable values. -/
  | some (dc dc' : Bool) {t t' : Ty} {v v' : Val} : Alike f t v t' v' →
      Alike f (.optional dc t) (.some v) (.optional dc' t') (.some v')
  /-- Empty optionals. -/
  | none (dc dc' : Bool) (t t' : Ty) : Alike f (.optional dc t) .none (.optional dc' t') .none
  /-- An optional and a pointer which may be null. -/
  | optPtr (dc : Bool) (t : Ty) (v : Val) : Alike f (.optional dc t) v (.optPtr t) v
  /-- An optional with a value, and a `bool` followed by the value. -/
  | flag (dc ok : Bool) (t : Ty) (v : Val) : Alike f (.optional dc t) (.some v) (.struct ok [.bool, t]) (.list [.num 1, v])
  /-- An empty optional and a `bool`. -/
  | noFlag (dc : Bool) (t : Ty) : Alike f (.optional dc t) .none .bool (.num 0)
  /-- Variants with the same id for the alternatives held, which are interchangeable. -/
  | variant {idTy : Ty} {ids ids' : List Val} (dcs dcs' : List Bool) {alts alts' : List Ty} {i i' : Nat} {id : Val} {t t' : Ty} {v v' : Val} :
      ids[i]? = .some id → ids'[i']? = .some id → alts[i]? = .some t → alts'[i']? = .some t' → Alike f t v t' v' →
      Alike f (.variant idTy ids dcs alts) (.alt i v) (.variant idTy ids' dcs' alts') (.alt i' v')
  /-- A variant, and the id followed by the alternative. -/
  | tagged (ok : Bool) {k : SKind} {n : Nat} {ids : List Val} (dcs : List Bool) {alts : List Ty} {i x : Nat} {t : Ty} {v : Val} :
      ids[i]? = .some (.num x) → alts[i]? = .some t →
      Alike f (.variant (.scalar k n) ids dcs alts) (.alt i v) (.struct ok [.scalar k n, t]) (.list [.num x, v])
  /-- A class by name and by its members. -/
  | named {i : Nat} {ok : Bool} {ts : List Ty} (vs : List Val) : f.env i = .struct ok ts →
      Alike f (.ref i) (.list vs) (.struct ok ts) (.list vs)
/-- Elements. -/
inductive AlikeAll (f : Fmt) : Ty → List Val → Ty → List Val → Prop
  | nil (t t' : Ty) : AlikeAll f t [] t' []
  | cons {t t' : Ty} {v v' : Val} {vs vs' : List Val} : Alike f t v t' v' → AlikeAll f t vs t' vs' →
      AlikeAll f t (v :: vs) t' (v' :: vs')
/-- Members. -/
inductive AlikeF (f : Fmt) : List Ty → List Val → List Ty → List Val → Prop
  | nil : AlikeF f [] [] [] []
  | cons {t t' : Ty} {v v' : Val} {ts ts' : List Ty} {vs vs' : List Val} : Alike f t v t' v' → AlikeF f ts vs ts' vs' →
      AlikeF f (t :: ts) (v :: vs) (t' :: ts') (v' :: vs')
end

/-- The items of two calls are interchangeable: as members of a class, so that items may also be grouped differently. -/
def AlikeItems (f : Fmt) (items items' : List (Ty × Val)) : Prop :=
  Alike f (.struct false (items.map Prod.fst)) (.list (items.map Prod.snd))
    (.struct false (items'.map Prod.fst)) (.list (items'.map Prod.snd))

end Zpp.Spec
