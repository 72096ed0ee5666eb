import Verif.Spec.Depth
/-!
# Specification: which objects pay for the work of reading them

A type is judged with some facts about the named classes: `pays i` says that objects of class `i` take input, `lead i`
bounds the work class `i` can cause ahead of the input. `dsz` is the default size type of the archive (varint inside
messages), `r` the work for the elements created by one size prefix.
-/

namespace Zpp.Spec

/-- Facts about named classes. -/
structure Prices where
  pays : Nat → Bool
  lead : Nat → Nat

mutual
/-- Every encoding of an object of the type takes at least one byte of input. -/
def takesInput (pr : Prices) (dsz : SizeTy) : Ty → Bool
  | .scalar _ n => decide (0 < n)
  | .bool => true
  | .varint _ _ => true
  | .empty => false
  | .struct _ fs => takesInputAny pr dsz fs
  | .array n t => decide (0 < n) && takesInput pr dsz t
  | .seq _ sz _ => decide (0 < prefixLeast (sz.getD dsz))
  | .assoc _ _ sz _ _ => decide (0 < prefixLeast (sz.getD dsz))
  | .optional _ _ => true
  | .optPtr _ => true
  | .uptr t => takesInput pr dsz t
  | .variant idTy _ _ _ => takesInput pr dsz idTy
  | .bitset n => decide (0 < n)
  | .msg sz _ _ _ _ => decide (0 < prefixLeast (sz.getD dsz))
  | .ref i => pr.pays i
/-- Some member does. -/
def takesInputAny (pr : Prices) (dsz : SizeTy) : List Ty → Bool
  | [] => false
  | t :: ts => takesInput pr dsz t || takesInputAny pr dsz ts
end

mutual
/-- The work an object can cause ahead of the input it takes: the objects visited before the first byte, and those that take
no input at all. -/
def leadWork (pr : Prices) (r : Nat) (dsz : SizeTy) : Ty → Nat
  | .struct _ fs => 1 + leadWorkL pr r dsz fs
  | .array n t => 1 + n * leadWork pr r dsz t
  | .seq _ sz t => 1 + r + (if 0 < prefixLeast (sz.getD dsz) then 0 else leadWork pr r dsz t)
  | .optional _ t => if takesInput pr dsz t then 1 else 1 + leadWork pr r dsz t
  | .optPtr t => if takesInput pr dsz t then 1 else 1 + leadWork pr r dsz t
  | .uptr t => 1 + leadWork pr r dsz t
  | .variant idTy _ _ alts => 1 + leadWork pr r dsz idTy + leadWorkFree pr r dsz alts
  | .msg sz _ _ _ _ => if 0 < prefixLeast (sz.getD dsz) then 1 else 2
  | .ref i => 1 + pr.lead i
  | _ => 1
/-- Of all members. -/
def leadWorkL (pr : Prices) (r : Nat) (dsz : SizeTy) : List Ty → Nat
  | [] => 0
  | t :: ts => leadWork pr r dsz t + leadWorkL pr r dsz ts
/-- Of the alternatives that may take no input. -/
def leadWorkFree (pr : Prices) (r : Nat) (dsz : SizeTy) : List Ty → Nat
  | [] => 0
  | t :: ts => (if takesInput pr dsz t then 0 else leadWork pr r dsz t) + leadWorkFree pr r dsz ts
end

mutual
/-- Everything that input can multiply takes input: elements of containers and entries of sets and maps do, and one byte,
at price `k`, pays for what follows it. -/
def affordable (pr : Prices) (r k : Nat) : SizeTy → Ty → Bool
  | dsz, .struct _ fs => affordableL pr r k dsz fs
  | dsz, .array _ t => affordable pr r k dsz t
  | dsz, .seq _ _ t => takesInput pr dsz t && decide (1 + leadWork pr r dsz t ≤ k) && affordable pr r k dsz t
  | dsz, .assoc _ _ _ key none => takesInput pr dsz key && decide (1 + leadWork pr r dsz key ≤ k) && affordable pr r k dsz key
  | dsz, .assoc _ _ _ key (some m) =>
    (takesInput pr dsz key || takesInput pr dsz m) && decide (1 + leadWork pr r dsz key + leadWork pr r dsz m ≤ k) &&
      affordable pr r k dsz key && affordable pr r k dsz m
  | dsz, .optional _ t => decide (leadWork pr r dsz t ≤ k) && affordable pr r k dsz t
  | dsz, .optPtr t => decide (leadWork pr r dsz t ≤ k) && affordable pr r k dsz t
  | dsz, .uptr t => affordable pr r k dsz t
  | dsz, .variant idTy _ _ alts => takesInput pr dsz idTy && affordable pr r k dsz idTy && affordableAlts pr r k dsz alts
  | _, .msg _ _ _ _ fs => affordableAlts pr r k .varint fs
  | _, _ => true
/-- All members are. -/
def affordableL (pr : Prices) (r k : Nat) : SizeTy → List Ty → Bool
  | _, [] => true
  | dsz, t :: ts => affordable pr r k dsz t && affordableL pr r k dsz ts
/-- All alternatives, or members of a message, are, and are paid by the id or tag. -/
def affordableAlts (pr : Prices) (r k : Nat) : SizeTy → List Ty → Bool
  | _, [] => true
  | dsz, t :: ts => decide (1 + leadWork pr r dsz t ≤ k) && affordable pr r k dsz t && affordableAlts pr r k dsz ts
end

/-- The facts about the classes of an archive are right, in the archive's own format and inside messages. In particular a
class cannot reach itself without taking input. -/
structure PricesOk (pr : Prices) (r k : Nat) (c : Cfg) : Prop where
  pays : ∀ i, pr.pays i = true → takesInput pr c.dsz (c.env i) = true ∧ takesInput pr .varint (c.env i) = true
  lead : ∀ i, leadWork pr r c.dsz (c.env i) ≤ pr.lead i ∧ leadWork pr r .varint (c.env i) ≤ pr.lead i
  rest : ∀ i, affordable pr r k c.dsz (c.env i) = true ∧ affordable pr r k .varint (c.env i) = true

/-- The objects found in an object down to level `k`: the object itself, its members, elements, entries, the value of an
optional or pointer, the id and the value of a variant. What is copied as one block of bytes counts as one object, and so do
views and messages (whose members need not be in the input). -/
def objectsIn : Nat → Cfg → Ty → Val → Nat
  | 0, _, _, _ => 0
  | k + 1, c, t, v =>
    match t, v with
    | .struct ok fs, .list vs => if asBytes c (.struct ok fs) then 1 else 1 + ((fs.zip vs).map fun x => objectsIn k c x.1 x.2).sum
    | .array _ t', .list vs => if asBytes c t' then 1 else 1 + (vs.map (objectsIn k c t')).sum
    | .seq .view _ _, _ => 1
    | .seq kind _ t', .list vs => if kind ≠ .list ∧ asBytes c t' then 1 else 1 + (vs.map (objectsIn k c t')).sum
    | .assoc _ _ _ key none, .list vs => 1 + (vs.map (objectsIn k c key)).sum
    | .assoc _ _ _ key (some m), .list vs =>
      1 + (vs.map fun e => (([key, m].zip e.elems).map fun x => objectsIn k c x.1 x.2).sum).sum
    | .optional _ t', .some v => 1 + objectsIn k c t' v
    | .optPtr t', .some v => 1 + objectsIn k c t' v
    | .uptr t', .some v => 1 + objectsIn k c t' v
    | .variant _ _ _ alts, .alt i v => 2 + (alts[i]?).elim 0 (fun t' => objectsIn k c t' v)
    | .ref i, v => 1 + objectsIn k c (c.env i) v
    | _, _ => 1

end Zpp.Spec
