import Verif.Model.Lifetime
/-!
# No leaks, no double destruction
-/

namespace Zpp.Spec
open Zpp

/-- Objects with identities: each owned by one owner, and none created later. (`created` counts identities up.) -/
structure Sound (owned : List Nat) (created : Nat) : Prop where
  once : owned.Nodup
  old : ∀ id ∈ owned, id < created

/-- What must hold when a call is over: `before` was owned at the start by the destinations, `first` is the identity of the
first object created during the call and `last` the one after the last; `destroyed` lists the destructor calls; `after` is owned
by the destinations at the end. -/
structure Clean (before : List Nat) (first last : Nat) (destroyed after : List Nat) : Prop where
  /-- No object is destroyed twice. -/
  notTwice : destroyed.Nodup
  /-- What the destinations own is alive. -/
  alive : ∀ id ∈ after, id ∉ destroyed
  /-- It has one owner. -/
  owner : after.Nodup
  /-- Nothing leaks: what was created during the call, or was owned before, is owned by the destinations or was destroyed. -/
  noLeak : ∀ id, (first ≤ id ∧ id < last) ∨ id ∈ before → id ∈ after ∨ id ∈ destroyed
  /-- No other objects are touched. -/
  others : ∀ id, id ∈ after ∨ id ∈ destroyed → (first ≤ id ∧ id < last) ∨ id ∈ before

mutual
/-- No engaged optional and no pointer anywhere in the object. -/
def noneHeld : Val → Bool
  | .some _ => false
  | .list vs => noneHeldAll vs
  | .alt _ v => noneHeld v
  | _ => true
/-- The same for several objects. -/
def noneHeldAll : List Val → Bool
  | [] => true
  | v :: vs => noneHeld v && noneHeldAll vs
end

/-- The type of the elements of an associative container. -/
def entryOf (key : Ty) : Option Ty → Ty
  | none => key
  | some m => .struct false [key, m]

/-- `Mirror t v o`: `o` tells who owns what in the object `v` of type `t`: one object of its own for each non-null owning
pointer in `v`, at the same place, and nothing else. Views own nothing; neither do spans, but the elements a span leads to do
(also those left out after the span was shortened, `hidden`). -/
inductive Mirror (env : Nat → Ty) : Ty → Val → OVal → Prop
  | nothing {t v o} : noneHeld v = true → o.ids = [] → Mirror env t v o
  | view {sz t v o} : o.ids = [] → Mirror env (.seq .view sz t) v o
  | struct {ok fs vs os} :
    (∀ i t, fs[i]? = some t → Mirror env t (vs.getD i .unit) (os.getD i .leaf)) →
    (∀ i, fs.length ≤ i → (os.getD i .leaf).ids = []) → Mirror env (.struct ok fs) (.list vs) (.node os)
  | msg {sz ok maps nums fs vs os} :
    (∀ i t, fs[i]? = some t → Mirror env t (vs.getD i .unit) (os.getD i .leaf)) →
    (∀ i, fs.length ≤ i → (os.getD i .leaf).ids = []) → Mirror env (.msg sz ok maps nums fs) (.list vs) (.node os)
  | array {n t vs os} :
    (∀ i, i < n → Mirror env t (vs.getD i .unit) (os.getD i .leaf)) →
    (∀ i, n ≤ i → (os.getD i .leaf).ids = []) → Mirror env (.array n t) (.list vs) (.node os)
  | seq {k sz t vs os} {hidden : Nat → Val} : k ≠ .view →
    (∀ i, i < vs.length → Mirror env t (vs.getD i .unit) (os.getD i .leaf)) →
    (∀ i, vs.length ≤ i → Mirror env t (hidden i) (os.getD i .leaf)) →
    (k ≠ .span → ∀ i, vs.length ≤ i → (os.getD i .leaf).ids = []) → Mirror env (.seq k sz t) (.list vs) (.node os)
  | assoc {multi hashed sz key mapped vs os} :
    (∀ i, i < vs.length → Mirror env (entryOf key mapped) (vs.getD i .unit) (os.getD i .leaf)) →
    (∀ i, vs.length ≤ i → (os.getD i .leaf).ids = []) → Mirror env (.assoc multi hashed sz key mapped) (.list vs) (.node os)
  | optional {dc t v o os} : Mirror env t v o → idsAll os = [] → Mirror env (.optional dc t) (.some v) (.node (o :: os))
  | optPtr {t v id o} : Mirror env t v o → Mirror env (.optPtr t) (.some v) (.own id o)
  | uptr {t v id o} : Mirror env t v o → Mirror env (.uptr t) (.some v) (.own id o)
  | alt {idTy ids dcs alts i t v o os} : alts[i]? = some t → Mirror env t v o → idsAll os = [] →
    Mirror env (.variant idTy ids dcs alts) (.alt i v) (.node (o :: os))
  | ref {i v o} : Mirror env (env i) v o → Mirror env (.ref i) v o

/-- How a call with the outcome is left, if the process goes on. -/
def leftBy : Status → Option Exit
  | .ok => some .ok
  | .err _ => some .err
  | .badAlloc => some .thrown
  | _ => none

end Zpp.Spec
