import Verif.Model.User
/-!
# What a user-written `serialize` hands to the archive
-/

namespace Zpp.Spec
open Zpp

/-- The members `self` hands over, in order, with their types. -/
def visits (self : Obj) : Script → List (Nat × Ty)
  | .archive m t next => (m, t) :: visits self (next (self m))
  | _ => []

/-- The error the function of `self` returns when no archive operation fails; `none` if it succeeds. -/
def ending (self : Obj) : Script → Option Errc
  | .done => none
  | .fail e => some e
  | .archive m _ next => ending self (next (self m))

/-- The members handed over, as the arguments of a call `archive(member, member, ...)`. -/
def handed (self : Obj) (s : Script) : List (Ty × Val) := (visits self s).map fun x => (x.2, self x.1)

/-- Every member the function can ever hand over has a type satisfying `P`. -/
inductive Always (P : Ty → Prop) : Script → Prop where
  | done : Always P .done
  | fail (e : Errc) : Always P (.fail e)
  | archive {m : Nat} {t : Ty} {next : Val → Script} (h : P t) (hn : ∀ v, Always P (next v)) :
      Always P (.archive m t next)

/-- The function can only ever return the errors satisfying `E`. -/
inductive Fails (E : Errc → Prop) : Script → Prop where
  | done : Fails E .done
  | fail {e : Errc} (h : E e) : Fails E (.fail e)
  | archive {m : Nat} {t : Ty} {next : Val → Script} (hn : ∀ v, Fails E (next v)) : Fails E (.archive m t next)

/-- The function `return archive(self.m_k, self.m_k+1, ...)` of a class with members of these types. -/
def listed : Nat → List Ty → Script
  | _, [] => .done
  | k, t :: ts => .archive k t fun _ => listed (k + 1) ts

/-- The object with the given members. -/
def objOf (vs : List Val) : Obj := fun m => vs[m]?.getD .unit

end Zpp.Spec
