import Verif.Model.RpcArgs
/-!
# Specification: passing arguments to the parameters of a function

What the C++ language says about initializing a parameter from an argument in an ordinary, local call: integers keep their value
modulo the range of the type, `bool` tells whether the number was nonzero, everything else must have the type of the parameter.
-/

namespace Zpp.Spec

/-- The number an integer object of `n` bytes with the representation `x` stands for (two's complement if signed). -/
def numberOf (sgn : Bool) (n x : Nat) : Int :=
  if sgn ∧ 2 ^ (8 * n) ≤ 2 * x then (x : Int) - 2 ^ (8 * n) else x

/-- The number an argument stands for, if it is an integer, a `bool` or an enumerator. -/
def argNumber (t : ArgTy) (v : Val) : Option Int :=
  match t, v with
  | .integer _ s n, .num x => some (numberOf s n x)
  | .bool, .num x => some x
  | .enum _ _ s n, .num x => some (numberOf s n x)
  | _, _ => none

/-- `v` is an object of type `t`, as far as numbers are concerned. -/
def IsObject (t : ArgTy) (v : Val) : Prop :=
  match t with
  | .integer _ _ n => 0 < n ∧ ∃ x, v = .num x ∧ x < 2 ^ (8 * n)
  | .bool => ∃ x, v = .num x ∧ x < 2
  | .enum _ _ _ n => 0 < n ∧ ∃ x, v = .num x ∧ x < 2 ^ (8 * n)
  | .other _ _ => True

/-- The types are the same. Enumerations and classes go by their numbers. -/
def SameType (t u : ArgTy) : Prop :=
  match t, u with
  | .integer c s n, .integer c' s' n' => c = c' ∧ s = s' ∧ n = n'
  | .bool, .bool => True
  | .enum i _ _ _, .enum j _ _ _ => i = j
  | .other i _, .other j _ => i = j
  | _, _ => False

/-- A parameter of type `t` has the value `v` after it was initialized from an argument `a` of type `u`. -/
inductive Initializes (t u : ArgTy) (a v : Val) : Prop
  | number {c s : Bool} {n : Nat} {z k : Int} : t = .integer c s n → argNumber u a = some z → argNumber t v = some (z + k * 2 ^ (8 * n)) →
      IsObject t v → Initializes t u a v
  | bool {z : Int} : t = .bool → argNumber u a = some z → v = .num (if z = 0 then 0 else 1) → Initializes t u a v
  | same : SameType t u → v = a → Initializes t u a v

/-- An ordinary call may pass an argument of type `u` to a parameter of type `t`, with at most a conversion of integers. -/
def Passable (t u : ArgTy) : Prop :=
  match t, u with
  | .integer _ _ _, .integer _ _ _ | .integer _ _ _, .bool | .bool, .integer _ _ _ | .bool, .bool => True
  | .integer _ _ _, .enum _ cls _ _ | .bool, .enum _ cls _ _ => cls = false
  | .enum i _ _ _, .enum j _ _ _ => i = j
  | .other i _, .other j _ => i = j
  | _, _ => False

end Zpp.Spec
