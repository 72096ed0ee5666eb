import Verif.Model.In
import Verif.Model.Out
import Verif.Model.Rpc
/-!
# Checks done by the compiler: ids of variants and bindings, protobuf members

`static_assert`s are modelled as functions that return `false` (or `none`) for a program that does not compile. A C++ type is
only compared with other types; `α` stands for types where nothing else matters.
-/

namespace Zpp

/-! ## Variants -/

/-- What `get_id` asks about an alternative (zpp_bits.h:446-462): the type and value of `serialize_id`, if the class
declares one (inside or outside). -/
abbrev DeclaredId := Option (Ty × Val)

/-- `id<Index>()` for the alternative `Index` (zpp_bits.h:439-474): the declared id, else `std::byte{Index}`, which does not
compile for an index that is not a byte (narrowing). `get_id` walks through the list with `CurrentIndex`. -/
def getId (index : Nat) : Nat → List DeclaredId → Option (Ty × Val)
  | _, [] => none
  | current, a :: rest =>
    if index = current then
      match a with
      | some x => some x
      | none => if index < 256 then some (.scalar .byte 1, .num index) else none
    else getId index (current + 1) rest

/-- `id<Index>()` of every alternative; `none` if one does not compile. -/
def allIds (alts : List DeclaredId) : List Nat → Option (List (Ty × Val))
  | [] => some []
  | i :: is =>
    match getId i 0 alts, allIds alts is with
    | some x, some xs => some (x :: xs)
    | _, _ => none

/-- `unique_ids` (zpp_bits.h:517-528): every pair of different indices has different ids. -/
def uniqueIds (ids : List Val) : Bool :=
  (List.range ids.length).all fun left => (List.range ids.length).all fun right =>
    left == right || decide (ids[left]? ≠ ids[right]?)

/-- `std::same_as` for the types an id can have: scalars, arrays of scalars, varints, `bool`; anything else is not compared
(`none`). -/
def idTypeName : Ty → Option (Nat × Nat × Nat)
  | .scalar .int n => some (0, n, 0)
  | .scalar .chr n => some (1, n, 0)
  | .scalar .byte n => some (2, n, 0)
  | .scalar .enum n => some (3, n, 0)
  | .bool => some (4, 1, 0)
  | .array m (.scalar .byte n) => some (5, n, m)
  | .array m (.scalar .int n) => some (6, n, m)
  | .array m (.scalar .chr n) => some (7, n, m)
  | _ => none

/-- `same_id_types` (zpp_bits.h:530-544). Simplification: types are compared by `idTypeName`; different enumerations of the same
size count as the same type. -/
def sameIdTypes (tys : List Ty) : Bool :=
  (List.range tys.length).all fun left => (List.range tys.length).all fun right =>
    decide ((tys[left]?).bind idTypeName = (tys[right]?).bind idTypeName) && ((tys[left]?).bind idTypeName).isSome

/-- `traits::variant<Variant>` (zpp_bits.h:566-582): the type of the ids (563) and the ids, `none` if a `static_assert` fails. -/
def checkVariant (alts : List DeclaredId) : Option (Ty × List Val) :=
  match allIds alts (List.range alts.length) with
  | none => none
  | some xs =>
    if uniqueIds (xs.map (·.2)) && sameIdTypes (xs.map (·.1)) then
      match xs with
      | [] => none
      | x :: _ => some (x.1, xs.map (·.2))
    else none

/-- `id(index)` at run time (zpp_bits.h:476-488): compares with the indices in order; the last one is not compared. -/
def idAt (index : Nat) : Nat → List Val → Option Val
  | _, [] => none
  | _, [x] => some x
  | current, x :: y :: rest => if index = current then some x else idAt index (current + 1) (y :: rest)

/-- `index(id)` at run time (zpp_bits.h:502-515): `SIZE_MAX` if there is none. -/
def indexAt (id : Val) : Nat → List Val → Nat
  | _, [] => sizeMax
  | current, x :: rest => if x = id then current else indexAt id (current + 1) rest

/-- `index<Id>()` (zpp_bits.h:490-500): `none` if the `static_assert` fails. -/
def indexStatic (id : Val) : Nat → List Val → Option Nat
  | _, [] => none
  | current, x :: rest => if x = id then some current else indexStatic id (current + 1) rest

/-- `index_by_type<Type>()` (zpp_bits.h:546-561): the sum of the indices at which the type stands. -/
def indexByType {α : Type} [DecidableEq α] (types : List α) (t : α) : Nat :=
  ((List.range types.length).map fun i => (if types[i]? = some t then 1 else 0) * i).sum

/-- `traits::tuple::visit(loaders, index, visitor)` (zpp_bits.h:590-601): the loader with the index; the last one is not
compared. -/
def tupleVisit {β : Type} (index : Nat) : Nat → List β → Option β
  | _, [] => none
  | _, [x] => some x
  | current, x :: y :: rest => if index = current then some x else tupleVisit index (current + 1) (y :: rest)

/-- What reading a variant does with an id (zpp_bits.h:3020-3056): refuse it, or run the loader for a type, after which the
alternative `index_by_type<Type>()` is active (3029-3035; for types that are not default constructible by assignment,
3047). `std::get_if<Type>` and the assignment do not compile if the type occurs twice. -/
inductive Selected
  | badMessage
  | active (index : Nat)
  | illFormed
deriving DecidableEq, Repr

/-- See `Selected`. `types` are the alternatives. -/
def selectById {α : Type} [DecidableEq α] (types : List α) (ids : List Val) (id : Val) : Selected :=
  if (List.range types.length).any fun i => (List.range types.length).any fun j =>
      i != j && decide (types[i]? = types[j]?) then .illFormed
  else if indexAt id 0 ids > types.length then .badMessage
  else
    match tupleVisit (indexAt id 0 ids) 0 types with
    | some t => .active (indexByType types t)
    | none => .illFormed

/-! ## Bindings -/

/-- `rpc_checker<Bindings...>` (zpp_bits.h:4334-4343): the ids of the bindings, checked like the ids of a variant. `Id` is
the `serialization_id` given to `bind`. -/
def checkRpc {σ : Type} (idTys : List Ty) (bs : List (Binding σ)) : Option (Ty × List Val) :=
  checkVariant ((idTys.zip (bs.map Binding.id)).map some)

/-! ## Protobuf members -/

/-- `traits::unique(values...)` (zpp_bits.h:751-759): addresses are compared first, here positions. -/
def uniqueValues (values : List Nat) : Bool :=
  (List.range values.length).all fun i => (List.range values.length).all fun j =>
    i == j || decide (values[i]? ≠ values[j]?)

/-- `field_number_from_struct<Type, Index>()` of the members (zpp_bits.h:4510-4530). -/
def structNumbers (maps : List (Nat × Nat)) (nums : List (Option Nat)) : List Nat :=
  (List.range nums.length).map fun i => pbNumber maps (nums[i]?.getD none) i

/-- The `static_assert`s about numbers: `pb_map` has no zeros (zpp_bits.h:4352), an explicit number is not zero (4495), an
index without explicit number is mapped at most once (4518-4520, 4538-4540). Simplification: numbers do not exceed
`unsigned int` (4354, 4499). -/
def numbersOk (maps : List (Nat × Nat)) (nums : List (Option Nat)) : Bool :=
  maps.all (fun m => m.1 != 0 && m.2 != 0) &&
  (List.range nums.length).all fun i =>
    match nums[i]?.getD none with
    | some n => n != 0
    | none => decide ((maps.filter fun m => (if i + 1 = m.1 then m.2 else 0) != 0).length ≤ 1)

/-- `check_type<Type>()` (zpp_bits.h:4584-4622). Arrays are accepted because they are not classes (`std::array` is a container
without `push_back` and `insert`, and is refused: the model's array is a C array here); `varint` and empty classes are
accepted; sequences need `push_back` or `insert`, which spans and views do not have, nor does `sized<...>` (it has its own
`serialize` function and is no container); other classes must have the protobuf protocol. -/
def checkType (env : Nat → Ty) : Ty → Bool
  | .scalar _ _ => true
  | .bool => true
  | .array _ _ => true
  | .varint _ _ => true
  | .empty => true
  | .assoc _ _ none key (some m) => checkType env key && checkType env m
  | .assoc _ _ none key none => checkType env key
  | .seq .vector none t => checkType env t
  | .seq .list none t => checkType env t
  | .msg none _ maps nums _ => numbersOk maps nums && uniqueValues (structNumbers maps nums)
  | .ref i =>
    match env i with
    | .msg none _ maps nums _ => numbersOk maps nums && uniqueValues (structNumbers maps nums)
    | _ => false
  | _ => false

/-- The `static_assert` in `tag_type<Type>()` (zpp_bits.h:4659-4667): integers and floating point numbers have 4 or 8 bytes. -/
def tagTypeOk : Ty → Bool
  | .scalar .int n => n == 4 || n == 8
  | .scalar .chr n => n == 4 || n == 8
  | _ => true

/-- The writer compiles for a member (zpp_bits.h:4787-4927): the type is checked (4719), and `make_tag` of the type, or of the
element type for containers that are not packed, compiles. The entries of a map are a message whose members are the key and
the mapped object (4833-4840); enumerations become varints (4821-4831), which compile in the same cases. -/
def memberCompiles (env : Nat → Ty) : Ty → Bool
  | .assoc mu h none key (some m) =>
    checkType env (.assoc mu h none key (some m)) && memberCompiles env key && memberCompiles env m
  | .assoc mu h none key none =>
    checkType env (.assoc mu h none key none) &&
      (match pbElemClass key with
        | .repeated e => tagTypeOk e
        | _ => true)
  | .seq k none t =>
    checkType env (.seq k none t) &&
      (match pbElemClass t with
        | .repeated e => tagTypeOk e
        | _ => true)
  | t => checkType env t && tagTypeOk t

/-- A message class compiles: its numbers (zpp_bits.h:4697, 4617) and its members. -/
def messageCompiles (env : Nat → Ty) (maps : List (Nat × Nat)) (nums : List (Option Nat)) (fs : List Ty) : Bool :=
  decide (nums.length = fs.length) && numbersOk maps nums && uniqueValues (structNumbers maps nums) &&
    fs.all (memberCompiles env)

end Zpp
