import Verif.Model.Base
/-!
# Model: recognition of recursive classes

`access::self_referencing` decides whether serializing a class may call itself; if so the members are visited by a function
that is not forced inline (zpp_bits.h:2147-2159, 2691-2703, 4715-4760, 5001-5030).
-/

namespace Zpp

/-- C++ types as `self_referencing` tells them apart. `prim`: fundamental types, enumerations and other types without members
that are not containers; `seq`: containers that are not associative; `ptr`: owning pointers. Classes, tuples and variants go by
number (`Decls`). -/
inductive CTy
  | prim (n : Nat)
  | cls (i : Nat)
  | array (n : Nat) (t : CTy)
  | tuple (i : Nat)
  | seq (t : CTy)
  | set (t : CTy)
  | map (k m : CTy)
  | ptr (t : CTy)
  | opt (t : CTy)
  | variant (i : Nat)
deriving DecidableEq

/-- A class: whether it has its own `serialize` function (`has_explicit_serialize`, zpp_bits.h:313-324), and its members, or
`none` if `number_of_members` is negative (zpp_bits.h:1174-1268; `Model/Reflect`). -/
structure ClassDef where
  explicit : Bool
  members : Option (List CTy)

/-- The classes, tuples and variants of a program. -/
structure Decls where
  cls : Nat → ClassDef
  tuple : Nat → List CTy
  variant : Nat → List CTy

/-- `concepts::type_references<Type, Reference>` (zpp_bits.h:883-912). `std::array` is a container, too; a C array is not, but no
class holds an array of itself. -/
def typeReferences : CTy → CTy → Bool
  | .seq t, self => t == self
  | .set t, self => t == self
  | .map k m, self => k == self || m == self
  | .ptr t, self => t == self
  | .opt t, self => t == self
  | _, _ => false

/-- `self_referencing_visitor<Type, Self, Visited...>` applied to the types of the members (zpp_bits.h:1393-1419); `rec` is
`self_referencing<Member, self, type, Visited...>`. -/
def selfRefVisit (rec : CTy → List CTy → Bool) (type self : CTy) (visited types : List CTy) : Bool :=
  if types = [] then false
  else if types.any (typeReferences · self) then true
  else if visited ≠ [] ∧ type ∈ visited then false
  else types.any (rec · (type :: visited))

/-- `access::self_referencing<Type, Self, Visited...>` (zpp_bits.h:1421-1444). The first argument bounds the nesting of template
instantiations. -/
def selfReferencing (env : Decls) : Nat → CTy → CTy → List CTy → Bool
  | 0, _, _, _ => false
  | f + 1, type, self, visited =>
    match type with
    | .array n t => if n = 0 then false else selfReferencing env f t self visited
    | .tuple i => selfRefVisit (fun t v => selfReferencing env f t self v) type self visited (env.tuple i)
    | .cls i =>
      match (env.cls i).members with
      | none => false
      | some ms =>
        if (env.cls i).explicit then false
        else selfRefVisit (fun t v => selfReferencing env f t self v) type self visited ms
    | _ => false

end Zpp
