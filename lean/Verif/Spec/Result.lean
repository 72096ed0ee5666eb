import Verif.Model.Result
/-!
# Specification: `value_or_errc` as a plain result

Every variable simply holds a value or an error. There are no unions, flags and object lifetimes.
-/

namespace Zpp.Spec

/-- A value, or an error code (0 is `none`). -/
inductive Outcome (α : Type)
  | value (v : α)
  | error (e : Option Errc)

/-- What the variables hold. -/
abbrev Outcomes (α : Type) := Nat → Option (Outcome α)

/-- Change one variable. -/
def Outcomes.put {α : Type} (m : Outcomes α) (i : Nat) (x : Option (Outcome α)) : Outcomes α :=
  fun k => if k = i then x else m k

/-- `ResultStep gone op m r m'`: with variables `m`, the operation is allowed, the caller sees `r`, and the variables become
`m'`. Nothing is constructed over a living object, only living objects are used, `value()` is only called on a value and
`error()` only on an error, and no `value_or_errc` is default-constructed. `gone` is what a move leaves behind. -/
inductive ResultStep {α : Type} (gone : α → α) : VoeOp α → Outcomes α → VoeRes α → Outcomes α → Prop
  | create {m : Outcomes α} {i : Nat} {v : α} : m i = none → ResultStep gone (.create i v) m .done (m.put i (some (.value v)))
  | fail {m : Outcomes α} {i : Nat} {e : Option Errc} : m i = none →
      ResultStep gone (.fail i e) m .done (m.put i (some (.error e)))
  | moveValue {m : Outcomes α} {i j : Nat} {v : α} : m i = some (.value v) → m j = none →
      ResultStep gone (.move i j) m .done ((m.put i (some (.value (gone v)))).put j (some (.value v)))
  | moveError {m : Outcomes α} {i j : Nat} {e : Option Errc} : m i = some (.error e) → m j = none →
      ResultStep gone (.move i j) m .done (m.put j (some (.error e)))
  | destroy {m : Outcomes α} {i : Nat} {x : Outcome α} : m i = some x → ResultStep gone (.destroy i) m .done (m.put i none)
  | successValue {m : Outcomes α} {i : Nat} {v : α} : m i = some (.value v) → ResultStep gone (.success i) m (.bool true) m
  | successError {m : Outcomes α} {i : Nat} {e : Option Errc} : m i = some (.error e) →
      ResultStep gone (.success i) m (.bool false) m
  | failureValue {m : Outcomes α} {i : Nat} {v : α} : m i = some (.value v) → ResultStep gone (.failure i) m (.bool false) m
  | failureError {m : Outcomes α} {i : Nat} {e : Option Errc} : m i = some (.error e) →
      ResultStep gone (.failure i) m (.bool true) m
  | value {m : Outcomes α} {i : Nat} {v : α} : m i = some (.value v) → ResultStep gone (.value i) m (.value v) m
  | error {m : Outcomes α} {i : Nat} {e : Option Errc} : m i = some (.error e) → ResultStep gone (.error i) m (.error e) m
  | orThrowValue {m : Outcomes α} {i : Nat} {v : α} : m i = some (.value v) → ResultStep gone (.orThrow i) m (.value v) m
  | orThrowError {m : Outcomes α} {i : Nat} {e : Option Errc} : m i = some (.error e) →
      ResultStep gone (.orThrow i) m (.thrown e) m

/-- A history of allowed operations, and what the callers see. -/
inductive ResultRun {α : Type} (gone : α → α) : List (VoeOp α) → Outcomes α → List (VoeRes α) → Outcomes α → Prop
  | done (m : Outcomes α) : ResultRun gone [] m [] m
  | step {op : VoeOp α} {ops : List (VoeOp α)} {m m1 m2 : Outcomes α} {r : VoeRes α} {rs : List (VoeRes α)} :
      ResultStep gone op m r m1 → ResultRun gone ops m1 rs m2 → ResultRun gone (op :: ops) m (r :: rs) m2

end Zpp.Spec
