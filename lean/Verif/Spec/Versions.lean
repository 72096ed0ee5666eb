import Verif.Spec.Wire
/-!
# Specification: variants that get new alternatives

A program is released again with alternatives added at the end of some of its variants. The relation `Older` says that a type is what
the type of the newer program was before. It is about the plain format; protobuf messages have their own rules (C71).
-/

namespace Zpp.Spec

mutual
/-- `Older old new`: `new` is `old`, with alternatives added to variants in it. Classes by name (`ref`) have a definition in each program. -/
inductive Older : Ty → Ty → Prop
  | scalar (k : SKind) (n : Nat) : Older (.scalar k n) (.scalar k n)
  | bool : Older .bool .bool
  | varint (n : Nat) (zz : Bool) : Older (.varint n zz) (.varint n zz)
  | empty : Older .empty .empty
  | bitset (n : Nat) : Older (.bitset n) (.bitset n)
  | struct (ok ok' : Bool) {ts ts' : List Ty} : OlderAll ts ts' → Older (.struct ok ts) (.struct ok' ts')
  | array (n : Nat) {t t' : Ty} : Older t t' → Older (.array n t) (.array n t')
  | seq (k : SeqKind) (sz : Option SizeTy) {t t' : Ty} : Older t t' → Older (.seq k sz t) (.seq k sz t')
  | set (multi hashed : Bool) (sz : Option SizeTy) {t t' : Ty} : Older t t' →
      Older (.assoc multi hashed sz t none) (.assoc multi hashed sz t' none)
  | map (multi hashed : Bool) (sz : Option SizeTy) {k k' t t' : Ty} : Older k k' → Older t t' →
      Older (.assoc multi hashed sz k (some t)) (.assoc multi hashed sz k' (some t'))
  | optional (dc dc' : Bool) {t t' : Ty} : Older t t' → Older (.optional dc t) (.optional dc' t')
  | optPtr {t t' : Ty} : Older t t' → Older (.optPtr t) (.optPtr t')
  | uptr {t t' : Ty} : Older t t' → Older (.uptr t) (.uptr t')
  /-- The new alternatives `added` have new ids. -/
  | variant (idTy : Ty) {ids newIds : List Val} (dcs dcs' : List Bool) {alts alts' : List Ty} (added : List Ty) : OlderAll alts alts' →
      ids.length = alts.length → (∀ id ∈ newIds, id ∉ ids) →
      Older (.variant idTy ids dcs alts) (.variant idTy (ids ++ newIds) dcs' (alts' ++ added))
  | ref (i : Nat) : Older (.ref i) (.ref i)
/-- Members, one by one. -/
inductive OlderAll : List Ty → List Ty → Prop
  | nil : OlderAll [] []
  | cons {t t' : Ty} {ts ts' : List Ty} : Older t t' → OlderAll ts ts' → OlderAll (t :: ts) (t' :: ts')
end

/-- The same objects, listed with the types of the old and of the new program. -/
inductive OlderItems : List (Ty × Val) → List (Ty × Val) → Prop
  | nil : OlderItems [] []
  | cons {t t' : Ty} (v : Val) {items items' : List (Ty × Val)} : Older t t' → OlderItems items items' →
      OlderItems ((t, v) :: items) ((t', v) :: items')

end Zpp.Spec
