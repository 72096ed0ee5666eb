/-!
# Which rule serializes a type

The concepts of zpp_bits.h:764-937 and the `serialize_one` overloads of `basic_out` (2042-2416) and `basic_in` (2601-3122),
with the `if constexpr` chains that choose the layout. A type is given by the answers of the compiler to the
`requires`-expressions (`Traits`); overload resolution is: the satisfied overloads, the more constrained one if there are
several, ill-formed (`none`) otherwise.
-/

namespace Zpp

/-- The answers of the compiler about a type `T` (after `remove_cvref`, but see `lvalue`). -/
structure Traits where
  /-- The argument is an lvalue: the deduced `Type` is a reference, so that `Type{}` and `Type::value_type` are ill-formed. -/
  lvalue : Bool
  /-- `std::is_array_v<T>`. -/
  isArray : Bool
  /-- `T::serialize` is `members<N>`, or `serialize(item)` returns `members<N>` (zpp_bits.h:276-288). -/
  declaresMembers : Bool
  /-- `T::serialize` is `protocol<P, N>`, or `serialize(item)` returns one (zpp_bits.h:289-305). -/
  declaresProtocol : Bool
  /-- `T::serialize(archive, item)` or `serialize(archive, item)` is valid (zpp_bits.h:306-310). -/
  explicitSerialize : Bool
  /-- `value()`, `has_value()`, `operator bool()`, `operator*()` (zpp_bits.h:795-800). -/
  optionalOps : Bool
  /-- `value_type`, `size()`, `begin()`, `end()` (zpp_bits.h:803-810). -/
  containerOps : Bool
  /-- `key_type` (zpp_bits.h:813-816). -/
  keyType : Bool
  /-- `sizeof(std::tuple_size<T>)` (zpp_bits.h:819-822). -/
  tupleSize : Bool
  /-- `index()` (zpp_bits.h:789, 825). -/
  indexOp : Bool
  /-- `std::get_if<0>`, `std::variant_size_v` (zpp_bits.h:790-791). -/
  variantOps : Bool
  /-- `T` is `Variant<Types...>` for a template of types (zpp_bits.h:2964-2970). -/
  templateOfTypes : Bool
  /-- `std::unique_ptr` with the default deleter, or `std::shared_ptr` (zpp_bits.h:830-831). -/
  smartPointer : Bool
  /-- `flip()`, `set()`, `test(0)`, `to_ullong()` (zpp_bits.h:834-841). -/
  bitsetOps : Bool
  /-- `T{}.size()` is a constant other than 0 (zpp_bits.h:918-922). -/
  fixedNonzeroSize : Bool
  /-- `T{}.size() * sizeof(value_type) == sizeof(T)` and `T{}.data()` (zpp_bits.h:927-932). -/
  arrayLayout : Bool
  /-- `container.resize(1)` (zpp_bits.h:2199, 2739). -/
  resize : Bool
  /-- `container = {container.data(), 1}` (zpp_bits.h:2203, 2741). -/
  assignView : Bool
  /-- `T::extent != std::dynamic_extent` (zpp_bits.h:2207, 2745). -/
  staticExtent : Bool
  /-- `container.data()` (zpp_bits.h:2194, 2810). -/
  data : Bool
  /-- The iterators are random access iterators (zpp_bits.h:2190, 2806). -/
  randomAccess : Bool
  /-- `serialize_as_bytes` of the elements, for the archive at hand (zpp_bits.h:878-880). -/
  elementsAsBytes : Bool
  /-- The same for `T` itself. -/
  asBytes : Bool
  /-- `std::is_fundamental_v` or `std::is_enum_v`. -/
  scalar : Bool
  /-- `T` is a `bytes<...>`. -/
  isBytes : Bool
  /-- `std::is_empty_v`. -/
  isEmpty : Bool
  /-- The elements are read-only bytes, and the container can be set to a view of the input buffer (zpp_bits.h:2731-2736,
  2768-2772, 2793-2799). -/
  viewOfInput : Bool
deriving DecidableEq, Repr, Inhabited

namespace Traits

/-- `concepts::has_serialize` (zpp_bits.h:273-311, 777-780). -/
def hasSerialize (t : Traits) : Bool := t.declaresMembers || t.declaresProtocol || t.explicitSerialize

/-- `concepts::variant` (zpp_bits.h:787-792). -/
def variant (t : Traits) : Bool := !t.hasSerialize && (t.indexOp && t.variantOps)

/-- `concepts::optional` (zpp_bits.h:794-800). -/
def optional (t : Traits) : Bool := !t.hasSerialize && t.optionalOps

/-- `concepts::container` (zpp_bits.h:802-810). -/
def container (t : Traits) : Bool := !t.hasSerialize && !t.optional && t.containerOps

/-- `concepts::associative_container` (zpp_bits.h:812-816). -/
def associative (t : Traits) : Bool := t.container && t.keyType

/-- `concepts::tuple` (zpp_bits.h:818-826). -/
def tuple (t : Traits) : Bool := !t.hasSerialize && !t.container && t.tupleSize && !t.indexOp

/-- `concepts::owning_pointer` (zpp_bits.h:828-831). -/
def owningPointer (t : Traits) : Bool := !t.optional && t.smartPointer

/-- `concepts::bitset` (zpp_bits.h:833-841). -/
def bitset (t : Traits) : Bool := !t.hasSerialize && t.bitsetOps

/-- `concepts::by_protocol` (zpp_bits.h:843-847). -/
def byProtocol (t : Traits) : Bool := t.declaresProtocol && !t.explicitSerialize

/-- `concepts::unspecialized` (zpp_bits.h:852-856). -/
def unspecialized (t : Traits) : Bool :=
  !t.container && !t.owningPointer && !t.tuple && !t.variant && !t.optional && !t.bitset && !t.isArray && !t.byProtocol

/-- `concepts::array` (zpp_bits.h:924-932). -/
def array (t : Traits) : Bool := t.isArray || (t.container && t.fixedNonzeroSize && !t.lvalue && t.arrayLayout)

end Traits

/-- The `serialize_one` overloads. -/
inductive Rule
  | unspecialized
  | array
  | container
  | associative
  | tuple
  | optional
  | variant
  | pointer
  | bitset
  | protocol
deriving DecidableEq, Repr, Inhabited

/-- The overloads of `basic_out` with their constraints (zpp_bits.h:2042, 2163, 2183, 2253, 2268, 2279, 2305, 2315, 2342). -/
def outViable (t : Traits) : List Rule :=
  (if t.unspecialized then [.unspecialized] else []) ++
  (if t.array then [.array] else []) ++
  (if t.container then [.container] else []) ++
  (if t.tuple then [.tuple] else []) ++
  (if t.optional then [.optional] else []) ++
  (if t.variant then [.variant] else []) ++
  (if t.owningPointer then [.pointer] else []) ++
  (if t.bitset then [.bitset] else []) ++
  (if t.byProtocol then [.protocol] else [])

/-- The overloads of `basic_in` (zpp_bits.h:2601, 2707, 2727, 2853, 2907, 2922, 2969-2970, 3059, 3074, 3096). The one for
variants takes an lvalue `Variant<Types...> &`. -/
def inViable (t : Traits) : List Rule :=
  (if t.unspecialized then [.unspecialized] else []) ++
  (if t.array then [.array] else []) ++
  (if t.container then [.container] else []) ++
  (if t.associative then [.associative] else []) ++
  (if t.tuple then [.tuple] else []) ++
  (if t.optional then [.optional] else []) ++
  (if t.variant && t.templateOfTypes && t.lvalue then [.variant] else []) ++
  (if t.owningPointer then [.pointer] else []) ++
  (if t.bitset then [.bitset] else []) ++
  (if t.byProtocol then [.protocol] else [])

/-- The best of the viable overloads: `associative_container` subsumes `container` (it is a conjunction with it); no other
pair of constraints is ordered (`array` is a disjunction one side of which says nothing about `container`). -/
def resolve : List Rule → Option Rule
  | [r] => some r
  | [.container, .associative] => some .associative
  | _ => none

/-- The rule used for output, `none` if the call is ill-formed. -/
def outRule (t : Traits) : Option Rule := resolve (outViable t)

/-- The rule used for input. -/
def inRule (t : Traits) : Option Rule := resolve (inViable t)

/-- What is done with an object of a type the unspecialized rule applies to. -/
inductive BasicRule
  | userFunction
  | scalar
  | bytes
  | nothing
  | asBytes
  | members
deriving DecidableEq, Repr, Inhabited

/-- The chain in `basic_out::serialize_one(unspecialized)` (zpp_bits.h:2047-2159). -/
def outBasic (t : Traits) : BasicRule :=
  if t.explicitSerialize then .userFunction
  else if t.scalar then .scalar
  else if t.isBytes then .bytes
  else if t.isEmpty then .nothing
  else if t.asBytes then .asBytes
  else .members

/-- The chain in `basic_in::serialize_one(unspecialized)` (zpp_bits.h:2606-2703). -/
def inBasic (t : Traits) : BasicRule :=
  if t.explicitSerialize then .userFunction
  else if t.scalar then .scalar
  else if t.isBytes then .bytes
  else if t.isEmpty then .nothing
  else if t.asBytes then .asBytes
  else .members

/-- Layout of a container. -/
structure ContainerLayout where
  /-- Starts with the number of elements. -/
  prefixed : Bool
  /-- The elements are copied as one block. -/
  block : Bool
deriving DecidableEq, Repr, Inhabited

/-- `basic_out::serialize_one(container)` (zpp_bits.h:2188-2248) with a size type that is `void` or not. -/
def outContainer (t : Traits) (voidSize : Bool) : ContainerLayout :=
  if t.elementsAsBytes && t.randomAccess && t.data then
    ⟨!voidSize && (t.associative || t.resize || (t.assignView && !(t.staticExtent && t.fixedNonzeroSize))), true⟩
  else
    ⟨!voidSize && (t.associative || t.resize || (t.assignView && !(t.staticExtent && t.fixedNonzeroSize))), false⟩

/-- `basic_in::serialize_one(container)` (zpp_bits.h:2738-2848): views of the input are set to the block without copying it. -/
def inContainer (t : Traits) (voidSize : Bool) : ContainerLayout :=
  let prefixed := !voidSize && (t.resize || (t.assignView && !(t.staticExtent && t.fixedNonzeroSize)))
  if prefixed && (t.elementsAsBytes && t.randomAccess && t.data && !t.viewOfInput) then ⟨true, true⟩
  else if t.elementsAsBytes && t.randomAccess && t.data then ⟨prefixed, true⟩
  else ⟨prefixed, false⟩

/-- `basic_in::serialize_one(associative_container)` (zpp_bits.h:2853-2904): a `void` size type is ill-formed. -/
def inAssociative (voidSize : Bool) : Option ContainerLayout :=
  if voidSize then none else some ⟨true, false⟩

end Zpp
