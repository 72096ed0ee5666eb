import Verif.Model.Base
/-!
# `value_or_errc`

The result type of `apply` and `client::response` (zpp_bits.h:3457-3623) as an object with a lifetime: histories of
constructions, moves, accesses and destructions of any number of `value_or_errc<Type>` objects, with the constructions and
destructions of the `Type` objects inside them.

Simplifications: `Type` is not `void`; a reference type is covered as the pointer stored for it (`trivial`, moves that
copy). The coroutine operators (3563-3579) are not modelled, nor is an exception thrown by `Type`'s move constructor (the
move constructor of `value_or_errc` is `noexcept`).
-/

namespace Zpp

/-- The active member of the union (zpp_bits.h:3617-3621): an `errc` (`none` is the code 0), or the object of type `Type`
with this number. -/
inductive Active
  | error (e : Option Errc)
  | value (obj : Nat)
deriving DecidableEq, Repr, Inhabited

/-- `value_or_errc<Type>` (zpp_bits.h:3469-3470, 3617-3622). -/
structure Voe where
  active : Active
  failure : Bool
deriving DecidableEq, Repr, Inhabited

/-- An object of type `Type`: its contents and how often its destructor ran. -/
structure VObj (α : Type) where
  content : α
  destroyed : Nat
deriving DecidableEq, Repr, Inhabited

/-- Variables holding a `value_or_errc` (`none`: none lives there), and all `Type` objects made so far. -/
structure VoeSt (α : Type) where
  vars : Nat → Option Voe
  objs : List (VObj α)

/-- Operations on variables `i`, `j`. -/
inductive VoeOp (α : Type)
  | create (i : Nat) (v : α)
  | fail (i : Nat) (e : Option Errc)
  | default (i : Nat)
  | move (i j : Nat)
  | destroy (i : Nat)
  | success (i : Nat)
  | failure (i : Nat)
  | value (i : Nat)
  | error (i : Nat)
  | orThrow (i : Nat)
deriving Repr, Inhabited

/-- What the caller sees: nothing, a truth value, the contents of the value, an error code, a thrown
`std::system_error` with that code, undefined behaviour; or the operation makes no sense (`bad`: the variable holds no
object, or already one). -/
inductive VoeRes (α : Type)
  | done
  | bool (b : Bool)
  | value (v : α)
  | error (e : Option Errc)
  | thrown (e : Option Errc)
  | ub
  | bad
deriving DecidableEq, Repr, Inhabited

/-- Change one variable. -/
def VoeSt.set {α : Type} (s : VoeSt α) (i : Nat) (x : Option Voe) : VoeSt α :=
  { s with vars := fun k => if k = i then x else s.vars k }

/-- `value()` (zpp_bits.h:3531-3556): the object in the union; undefined if it is not the active member, or is dead. -/
def voeValue {α : Type} (s : VoeSt α) (x : Voe) : VoeRes α :=
  match x.active with
  | .error _ => .ub
  | .value o =>
    match s.objs[o]? with
    | some b => if b.destroyed = 0 then .value b.content else .ub
    | none => .ub

/-- `error()` (zpp_bits.h:3558-3561): undefined if `m_error` is not the active member. -/
def voeError {α : Type} (x : Voe) : VoeRes α :=
  match x.active with
  | .error e => .error e
  | .value _ => .ub

/-- The move constructor (zpp_bits.h:3494-3509) into the variable `j`: on success a new object is made from the contents, and
the one moved from keeps `gone` contents; otherwise `m_failure` and `m_error` are copied. -/
def voeMove {α : Type} (gone : α → α) (s : VoeSt α) (x : Voe) (j : Nat) : VoeRes α × VoeSt α :=
  if !x.failure then
    match x.active with
    | .error _ => (.ub, s)
    | .value o =>
      match s.objs[o]? with
      | some b =>
        if b.destroyed = 0 then
          (.done, (VoeSt.mk s.vars ((s.objs.set o { b with content := gone b.content }) ++ [⟨b.content, 0⟩])).set j
            (some ⟨.value s.objs.length, false⟩))
        else (.ub, s)
      | none => (.ub, s)
  else
    match x.active with
    | .error e => (.done, s.set j (some ⟨.error e, x.failure⟩))
    | .value _ => (.ub, s)

/-- The destructor (zpp_bits.h:3511-3519): unless `Type` is trivially destructible, `success()` decides whether the
destructor of `Type` runs. -/
def voeDestroy {α : Type} (trivial : Bool) (s : VoeSt α) (x : Voe) (i : Nat) : VoeRes α × VoeSt α :=
  if trivial then (.done, s.set i none)
  else if !x.failure then
    match x.active with
    | .error _ => (.ub, s)
    | .value o =>
      match s.objs[o]? with
      | some b =>
        if b.destroyed = 0 then (.done, (VoeSt.mk s.vars (s.objs.set o { b with destroyed := 1 })).set i none) else (.ub, s)
      | none => (.ub, s)
  else (.done, s.set i none)

/-- One operation: the constructors from a value (zpp_bits.h:3483-3486), from an error (3488-3492) and the default one (3481:
the members' initializers make `m_error{}` active and `m_failure` false), move, destructor, `success`/`failure`
(3521-3529), `value`, `error`, `or_throw` (3581-3615). -/
def voeStep {α : Type} (trivial : Bool) (gone : α → α) (s : VoeSt α) : VoeOp α → VoeRes α × VoeSt α
  | .create i v =>
    match s.vars i with
    | some _ => (.bad, s)
    | none => (.done, (VoeSt.mk s.vars (s.objs ++ [⟨v, 0⟩])).set i (some ⟨.value s.objs.length, false⟩))
  | .fail i e =>
    match s.vars i with
    | some _ => (.bad, s)
    | none => (.done, s.set i (some ⟨.error e, true⟩))
  | .default i =>
    match s.vars i with
    | some _ => (.bad, s)
    | none => (.done, s.set i (some ⟨.error none, false⟩))
  | .move i j =>
    match s.vars i, s.vars j with
    | some x, none => voeMove gone s x j
    | _, _ => (.bad, s)
  | .destroy i =>
    match s.vars i with
    | some x => voeDestroy trivial s x i
    | none => (.bad, s)
  | .success i =>
    match s.vars i with
    | some x => (.bool (!x.failure), s)
    | none => (.bad, s)
  | .failure i =>
    match s.vars i with
    | some x => (.bool x.failure, s)
    | none => (.bad, s)
  | .value i =>
    match s.vars i with
    | some x => (voeValue s x, s)
    | none => (.bad, s)
  | .error i =>
    match s.vars i with
    | some x => (voeError x, s)
    | none => (.bad, s)
  | .orThrow i =>
    match s.vars i with
    | some x =>
      (if x.failure then
        match voeError (α := α) x with
        | .error e => .thrown e
        | r => r
      else voeValue s x, s)
    | none => (.bad, s)

/-- A history. -/
def voeRun {α : Type} (trivial : Bool) (gone : α → α) : List (VoeOp α) → VoeSt α → List (VoeRes α) × VoeSt α
  | [], s => ([], s)
  | op :: ops, s =>
    let r := voeStep trivial gone s op
    let rs := voeRun trivial gone ops r.2
    (r.1 :: rs.1, rs.2)

end Zpp
