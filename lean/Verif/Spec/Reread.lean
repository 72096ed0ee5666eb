import Verif.Spec.Input
/-!
# Specification: objects found in arbitrary input

What an object read from bytes nobody wrote with this library can and cannot be.
-/

namespace Zpp.Spec

/-- A variant id made of `bool`s has valid `bool`s. -/
def boolId : Ty → Val → Prop
  | .bool, .num x => x ≤ 1
  | .array _ .bool, .list vs => ∀ v ∈ vs, v = .num 0 ∨ v = .num 1
  | _, _ => True

mutual
/-- Every `bool` in the object is `true` or `false`. (The reader copies the byte found in the input, so a `bool` may end
up holding another byte: `D04_bool_not_checked`.) -/
def Bools (env : Nat → Ty) : Ty → Val → Prop
  | .bool, .num x => x ≤ 1
  | .struct _ fs, .list vs => BoolsF env fs vs
  | .array _ t, .list vs => BoolsL env t vs
  | .seq _ _ t, .list vs => BoolsL env t vs
  | .assoc _ _ _ key none, .list vs => BoolsL env key vs
  | .assoc _ _ _ key (some m), .list vs => BoolsL env (.struct false [key, m]) vs
  | .optional _ t, .some v => Bools env t v
  | .optPtr t, .some v => Bools env t v
  | .uptr t, .some v => Bools env t v
  | .variant idTy ids _ alts, .alt i v =>
    (∀ id, ids[i]? = some id → boolId idTy id) ∧ ∀ t, alts[i]? = some t → Bools env t v
  | .ref i, .list vs =>
    match env i with
    | .struct _ fs => BoolsF env fs vs
    | .msg _ _ _ _ fs => BoolsF env fs vs
    | _ => True
  | .msg _ _ _ _ fs, .list vs => BoolsF env fs vs
  | _, _ => True
/-- Members. -/
def BoolsF (env : Nat → Ty) : List Ty → List Val → Prop
  | t :: ts, v :: vs => Bools env t v ∧ BoolsF env ts vs
  | _, _ => True
/-- Elements. -/
def BoolsL (env : Nat → Ty) (t : Ty) : List Val → Prop
  | [] => True
  | v :: vs => Bools env t v ∧ BoolsL env t vs
end

mutual
/-- Types for which every byte of the encoding is determined by the object, so that no two byte strings are read as the
same object: no varints (also as size prefixes), which may be padded; no optional values, whose flag may be any nonzero
byte; no sets and maps, whose elements may come in any order; no bitsets with unused bits. -/
def rigid (dsz : SizeTy) : Ty → Bool
  | .varint _ _ => false
  | .struct _ fs => rigidL dsz fs
  | .array _ t => rigid dsz t
  | .seq _ sz t => sz.getD dsz != .varint && rigid dsz t
  | .assoc _ _ _ _ _ => false
  | .optional _ _ => false
  | .optPtr _ => false
  | .uptr t => rigid dsz t
  | .variant idTy _ _ alts => rigid dsz idTy && rigidL dsz alts
  | .bitset n => n % 8 == 0
  | .msg _ _ _ _ _ => false
  | _ => true
/-- All types of a list. -/
def rigidL (dsz : SizeTy) : List Ty → Bool
  | [] => true
  | t :: ts => rigid dsz t && rigidL dsz ts
end

/-- What the theorems of this file assume of an archive and the types of the destinations: supported types with
encodings that carry their own extent, also in class definitions, and comparators that are strict weak orders. -/
structure Delimited (c : Cfg) (ts : List Ty) : Prop where
  abi : AbiOk c.sizeof
  env : EnvGood c
  envExtent : ∀ i, selfDelimiting c.dsz (c.env i) = true
  keys : ∀ key, WeakOrder (c.keyLt key)
  types : ∀ t ∈ ts, Good c t = true
  extent : ∀ t ∈ ts, selfDelimiting c.dsz t = true

end Zpp.Spec
