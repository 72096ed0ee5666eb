import Verif.Model.SelfRef
/-!
# Specification: recursive classes
-/

namespace Zpp.Spec

/-- `u` is a part of `t`: the type of a member, element, alternative, pointee or value that serializing a `t` serializes in turn.
Classes with their own `serialize` function have no parts here. -/
inductive Part (env : Decls) : CTy → CTy → Prop
  | member {i : Nat} {ms : List CTy} {m : CTy} : (env.cls i).explicit = false → (env.cls i).members = some ms → m ∈ ms → Part env (.cls i) m
  | elem {n : Nat} {t : CTy} : n ≠ 0 → Part env (.array n t) t
  | component {i : Nat} {t : CTy} : t ∈ env.tuple i → Part env (.tuple i) t
  | seq {t : CTy} : Part env (.seq t) t
  | set {t : CTy} : Part env (.set t) t
  | key {k m : CTy} : Part env (.map k m) k
  | mapped {k m : CTy} : Part env (.map k m) m
  | ptr {t : CTy} : Part env (.ptr t) t
  | opt {t : CTy} : Part env (.opt t) t
  | alt {i : Nat} {t : CTy} : t ∈ env.variant i → Part env (.variant i) t

/-- `u` is found inside `t` at some depth. -/
inductive Within (env : Decls) : CTy → CTy → Prop
  | part {t u : CTy} : Part env t u → Within env t u
  | step {t u w : CTy} : Part env t u → Within env u w → Within env t w

/-- Types whose parts are stored in the object itself. -/
def ByValue : CTy → Prop
  | .cls _ | .array .. | .tuple _ => True
  | _ => False

/-- `u` is `t` or stored in `t` at some depth, without a container, pointer, optional or variant in between. -/
inductive Stored (env : Decls) : CTy → CTy → Prop
  | here (t : CTy) : Stored env t t
  | step {t u w : CTy} : ByValue t → Part env t u → Stored env u w → Stored env t w

/-- Classes and tuples. -/
def Compound : CTy → Prop
  | .cls _ | .tuple _ => True
  | _ => False

/-- Containers, pointers and optionals whose element, key, mapped value, pointee or value is a `t`. -/
inductive Refers (t : CTy) : CTy → Prop
  | seq : Refers t (.seq t)
  | set : Refers t (.set t)
  | key {m : CTy} : Refers t (.map t m)
  | mapped {k : CTy} : Refers t (.map k t)
  | ptr : Refers t (.ptr t)
  | opt : Refers t (.opt t)

/-- Objects are finite: no type is stored in itself. -/
structure Finite (env : Decls) (rank : CTy → Nat) : Prop where
  down : ∀ t u, ByValue t → Part env t u → rank u < rank t

end Zpp.Spec
