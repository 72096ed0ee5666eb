import Verif.Model.Types
/-!
# Specification: what containers hold
-/

namespace Zpp.Spec

/-- The bytes the sequence containers (vectors, strings, lists, deques) of an object hold for their elements, at every depth,
containers of containers included: `size() * sizeof(value_type)` for each. Views and spans hold nothing themselves. The first
argument bounds the nesting that is counted. -/
def storage (so : Ty → Nat) (env : Nat → Ty) : Nat → Ty → Val → Nat
  | 0, _, _ => 0
  | n + 1, t, v =>
    match t, v with
    | .struct _ fs, .list vs => (List.zipWith (storage so env n) fs vs).sum
    | .array _ t, .list vs => (vs.map (storage so env n t)).sum
    | .seq k _ t, .list vs =>
      (if k = .vector ∨ k = .list then vs.length * so t else 0) + (vs.map (storage so env n t)).sum
    | .assoc _ _ _ key none, .list vs => (vs.map (storage so env n key)).sum
    | .assoc _ _ _ key (some m), .list vs => (vs.map (storage so env n (.struct false [key, m]))).sum
    | .optional _ t, .some v => storage so env n t v
    | .optPtr t, .some v => storage so env n t v
    | .uptr t, .some v => storage so env n t v
    | .variant _ _ _ alts, .alt i v =>
      match alts[i]? with
      | some t => storage so env n t v
      | none => 0
    | .msg _ _ _ _ fs, .list vs => (List.zipWith (storage so env n) fs vs).sum
    | .ref i, v => storage so env n (env i) v
    | _, _ => 0

mutual
/-- No sequence container in a type has elements of more than `m` bytes. -/
def elemsLe (so : Ty → Nat) (m : Nat) : Ty → Bool
  | .struct _ fs => elemsLeL so m fs
  | .array _ t => elemsLe so m t
  | .seq _ _ t => decide (so t ≤ m) && elemsLe so m t
  | .assoc _ _ _ key none => elemsLe so m key
  | .assoc _ _ _ key (some v) => elemsLe so m key && elemsLe so m v
  | .optional _ t => elemsLe so m t
  | .optPtr t => elemsLe so m t
  | .uptr t => elemsLe so m t
  | .variant idTy _ _ alts => elemsLe so m idTy && elemsLeL so m alts
  | .msg _ _ _ _ fs => elemsLeL so m fs
  | _ => true
/-- None of the types has. -/
def elemsLeL (so : Ty → Nat) (m : Nat) : List Ty → Bool
  | [] => true
  | t :: ts => elemsLe so m t && elemsLeL so m ts
end

/-- What several objects hold. -/
def storages (so : Ty → Nat) (env : Nat → Ty) (n : Nat) (ts : List Ty) (vs : List Val) : Nat :=
  (List.zipWith (storage so env n) ts vs).sum

end Zpp.Spec
