import Verif.Model.Graph
/-!
# Specification: objects that point to each other

`struct node { T value; std::vector<std::shared_ptr<node>> next; };`
-/

namespace Zpp.Spec

/-- The class `node` as a type of the archive; `.ref 0` is its name. -/
def nodeTy (t : Ty) (sz : Option SizeTy) : Ty := .struct false [t, .seq .vector sz (.uptr (.ref 0))]

/-- The object at `a` with every pointer followed, `n` levels deep, as a tree in which every pointer has an object of its own. -/
def treeOf (H : Graph) : Nat → Nat → Val
  | 0, _ => .unit
  | n + 1, a => .list [(H a).value, .list ((H a).next.map fun p =>
      match p with
      | none => .none
      | some b => .some (treeOf H n b))]

/-- Pointers side by side: both null, or leading to objects related by `R`. -/
inductive PtrsSame (R : Nat → Nat → Prop) : List (Option Nat) → List (Option Nat) → Prop
  | nil : PtrsSame R [] []
  | null {ps qs} : PtrsSame R ps qs → PtrsSame R (none :: ps) (none :: qs)
  | ptr {a b ps qs} : R a b → PtrsSame R ps qs → PtrsSame R (some a :: ps) (some b :: qs)

/-- Two objects, possibly of different programs, look the same to whoever only follows pointers and looks at values: `R` holds between objects with equal values and as
many pointers, which are both null or again lead to related objects. -/
def LooksSame (R : Nat → Nat → Prop) (H H' : Graph) : Prop :=
  ∀ a a', R a a' → (H a).value = (H' a').value ∧ PtrsSame R (H a).next (H' a').next

/-- Following pointers from an object in `S`, one can always go on to another object in `S` or arrives at a null pointer: there is a cycle, an endless chain, or a null
pointer. -/
def Hopeless (S : Nat → Prop) (H : Graph) : Prop :=
  ∀ a, S a → none ∈ (H a).next ∨ ∃ b, some b ∈ (H a).next ∧ S b

/-- Pointers lead to objects of smaller rank only: there is no cycle. -/
def Ranked (r : Nat → Nat) (H : Graph) : Prop := ∀ a b, some b ∈ (H a).next → r b < r a

/-- `n + 1` objects, each with two pointers to the next one. -/
def ladder (n x : Nat) : Graph := fun k => ⟨.num x, if k < n then [some (k + 1), some (k + 1)] else []⟩

end Zpp.Spec
