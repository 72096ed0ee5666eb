import Verif.Model.Dispatch
import Verif.Model.In
import Verif.Model.Out
/-!
# The archives, rule by rule

`Model/Out` and `Model/In` are written by kinds of types (`Ty`). Here the same functions of the source are written as the
source has them: one function per `serialize_one` overload, chosen by the overload resolution of `Model/Dispatch` from what the
compiler answers about the type. `traitsOf` gives these answers for the types each kind stands for.
-/

namespace Zpp

/-- The C++ types a kind stands for, where it stands for several: a struct can be a class whose members are visited, a
`std::tuple` or `std::pair`, or a class with a `serialize` function that lists its members; an array a C array (`plain`), a
`std::array` (`tuple`; not one of two or more elements that pointers and numbers convert to, such as `std::optional<bool>`,
which has a size prefix: see `C57_fixed_prefix`) or a `std::span` of fixed extent (`function`; its constructor from pointer and size is explicit, so that
it cannot be assigned from braces); a sequence without contiguous storage a `std::list` or a `std::deque`. -/
inductive Reading
  | plain
  | tuple
  | function
deriving DecidableEq, Repr, Inhabited

/-- The compiler's answers for the types of the standard library and of users that the kinds stand for. References to named
classes are resolved first. -/
def traitsOf (c : Cfg) (r : Reading) (t : Ty) : Traits :=
  let none : Traits :=
    { lvalue := true, isArray := false, declaresMembers := false, declaresProtocol := false, explicitSerialize := false,
      optionalOps := false, containerOps := false, keyType := false, tupleSize := false, indexOp := false,
      variantOps := false, templateOfTypes := false, smartPointer := false, bitsetOps := false, fixedNonzeroSize := false,
      arrayLayout := false, resize := false, assignView := false, staticExtent := false, data := false,
      randomAccess := false, elementsAsBytes := false, asBytes := false, scalar := false, isBytes := false,
      isEmpty := false, viewOfInput := false }
  match t with
  | .scalar _ _ => { none with scalar := true, asBytes := asBytes c t }
  | .bool => { none with scalar := true, asBytes := asBytes c t }
  | .varint _ _ => { none with explicitSerialize := true }
  | .empty => { none with isEmpty := true, asBytes := asBytes c t }
  | .struct _ _ =>
    match r with
    | .plain => { none with asBytes := asBytes c t }
    | .tuple => { none with tupleSize := true, templateOfTypes := true }
    | .function => { none with explicitSerialize := true }
  | .array n t' =>
    match r with
    | .tuple =>
      { none with
        containerOps := true, tupleSize := true, fixedNonzeroSize := decide (n ≠ 0), arrayLayout := true, data := true,
        randomAccess := true, elementsAsBytes := asBytes c t' }
    | .function =>
      { none with
        containerOps := true, staticExtent := true, data := true, randomAccess := true, elementsAsBytes := asBytes c t' }
    | .plain => { none with isArray := true, elementsAsBytes := asBytes c t' }
  | .seq k _ t' =>
    match k with
    | .vector =>
      { none with containerOps := true, resize := true, data := true, randomAccess := true, elementsAsBytes := asBytes c t' }
    | .list =>
      { none with
        containerOps := true, resize := true, randomAccess := decide (r = .tuple), elementsAsBytes := asBytes c t' }
    | .span =>
      { none with
        containerOps := true, assignView := true, data := true, randomAccess := true, elementsAsBytes := asBytes c t' }
    | .view =>
      { none with
        containerOps := true, assignView := true, data := true, randomAccess := true, elementsAsBytes := asBytes c t',
        viewOfInput := true }
  | .assoc _ _ _ key mapped =>
    { none with
      containerOps := true, keyType := true,
      elementsAsBytes := (match mapped with
        | Option.none => asBytes c key
        | some m => asBytes c (.struct false [key, m])) }
  | .optional _ _ => { none with optionalOps := true, templateOfTypes := true }
  | .optPtr _ => { none with explicitSerialize := true }
  | .uptr _ => { none with smartPointer := true, templateOfTypes := true }
  | .variant _ _ _ _ => { none with indexOp := true, variantOps := true, templateOfTypes := true }
  | .bitset _ => { none with bitsetOps := true }
  | .msg _ _ _ _ _ => { none with declaresProtocol := true }
  | .ref _ => none

/-- Which readings exist: tuples and classes with a `serialize` function are never copied as bytes as a whole; views of the
input are views of bytes (zpp_bits.h:2768-2772). -/
def readable (r : Reading) : Ty → Bool
  | .struct ok _ => r == .plain || !ok
  | .seq .view _ t => t.endianIndep
  | .ref _ => false
  | _ => true

/-- What `serialize_one(item)` does for an element of a container or array (zpp_bits.h:2172, 2243). The elements of a map are
pairs; the model does not count the call for the pair as a level of the stack. -/
def outElem (rec : Ty → Val → OutM) : Ty → Val → OutM
  | .array _ t, v => rec t v
  | .seq _ _ t, v => rec t v
  | .assoc _ _ _ key Option.none, v => rec key v
  | .assoc _ _ _ key (some m), .list es => encFields rec [key, m] es
  | _, _ => OutM.fail .illFormed

/-- The memory of the elements (`bytes(array)`, `bytes(container, size)`, zpp_bits.h:2169, 2218). -/
def outBlock (c : Cfg) : Ty → List Val → OutM
  | .array _ t, vs => encRep c.g (repAll c.host t vs)
  | .seq _ _ t, vs => encRep c.g (repAll c.host t vs)
  | _, _ => OutM.fail .illFormed

/-- The size type of a container (`sized_t`, otherwise the default of the archive). -/
def sizeTyOf (c : Cfg) : Ty → SizeTy
  | .seq _ sz _ => effSz c sz
  | .assoc _ _ sz _ _ => effSz c sz
  | .msg sz _ _ _ _ => effSz c sz
  | _ => c.dsz

/-- `serialize_one(concepts::unspecialized)` (zpp_bits.h:2042-2160). The functions of the library's own classes are `varint`
(1659-1701) and `optional_ptr` (1480-1490); the one of a user lists the members. -/
def outUnspecialized (c : Cfg) (rec : Ty → Val → OutM) (b : BasicRule) (t : Ty) (v : Val) : OutM :=
  match b, t, v with
  | .userFunction, .varint n zz, v => encVarintVal c n zz v
  | .userFunction, .optPtr t', v => encOptional c.g (rec t') v
  | .userFunction, .struct _ fs, .list vs => encFields rec fs vs
  | .scalar, .scalar _ n, .num x => put c.g (ioBytes c n x)
  | .scalar, .bool, .num x => put c.g [UInt8.ofNat x]
  | .nothing, _, _ => OutM.skip
  | .asBytes, t, .list vs => encRep c.g (rep c.host t (.list vs))
  | .members, .struct _ fs, .list vs => encFields rec fs vs
  | _, _, _ => OutM.fail .illFormed

/-- `serialize_one(concepts::array)` (zpp_bits.h:2162-2179). -/
def outArray (c : Cfg) (rec : Ty → Val → OutM) (asBytes : Bool) (t : Ty) : Val → OutM
  | .list vs => if asBytes then outBlock c t vs else encAll (outElem rec t) vs
  | _ => OutM.fail .illFormed

/-- `serialize_one(concepts::container)` (zpp_bits.h:2181-2250). -/
def outContainerRule (c : Cfg) (rec : Ty → Val → OutM) (l : ContainerLayout) (t : Ty) : Val → OutM
  | .list vs =>
    (if l.prefixed then encHdr c (sizeTyOf c t) vs.length else OutM.skip).andThen
      (if l.block then outBlock c t vs else encAll (outElem rec t) vs)
  | _ => OutM.fail .illFormed

/-- `basic_out::serialize_one`: the overload chosen by overload resolution (zpp_bits.h:2042-2416). `none`: the program does not
compile. `recPb` is the archive inside a message. -/
def outByRule (c : Cfg) (rec recPb : Ty → Val → OutM) (r : Reading) (t : Ty) (v : Val) : Option OutM :=
  let x := traitsOf c r t
  (outRule x).map fun rule =>
    match rule, t, v with
    | .unspecialized, t, v => outUnspecialized c rec (outBasic x) t v
    | .array, t, v => outArray c rec x.elementsAsBytes t v
    | .container, t, v => outContainerRule c rec (outContainer x (sizeTyOf c t == .none)) t v
    | .tuple, .struct _ fs, .list vs => encFields rec fs vs
    | .optional, .optional _ t', v => encOptional c.g (rec t') v
    | .variant, .variant idTy ids _ alts, v => encVariant rec idTy ids alts v
    | .pointer, .uptr t', v => encUptr (rec t') v
    | .bitset, .bitset n, .bits bs => encBitset c.g n bs
    | .protocol, .msg _ _ maps nums fs, .list vs =>
      encByProtocol c (sizeTyOf c t) (pbEncFields (pbOutCfg c) recPb maps 0 nums fs vs)
    | _, _, _ => OutM.fail .illFormed

/-- The elements of a container, array or block of memory whose destinations are settled (zpp_bits.h:2713-2723, 2785-2801,
2834-2846). -/
def inElems (c : Cfg) (block : Bool) (t : Ty) (rec : Val → Nat → Res) (olds : List Val) (data : List UInt8) (p : Nat) : Res :=
  if block then (decRep c t olds.length olds data p).toRes else (decAll rec olds p).toRes

/-- `serialize_one(concepts::container)` of an input archive (zpp_bits.h:2727-2848). -/
def inContainerRule (c : Cfg) (x : Traits) (l : ContainerLayout) (rec : Ty → Val → Nat → Res) (fresh : Ty → Val) (t : Ty)
    (old : Val) (data : List UInt8) (p : Nat) : Res :=
  match t with
  | .seq _ _ t' =>
    if l.prefixed then
      match decHdr c (sizeTyOf c t) data p with
      | (.ok, n, p1) =>
        if x.resize then
          if c.g.limit ≠ sizeMax ∧ c.g.limit / c.sizeof t' < n then ⟨.err .messageSize, old, p1⟩
          else if c.g.maxMem < n * c.sizeof t' then ⟨.badAlloc, old, p1⟩
          else inElems c l.block t' (rec t') (resizeVals old.elems n (fresh t')) data p1
        else if x.viewOfInput then
          if subSz data.length p1 < n then ⟨.err .resultOutOfRange, old, p1⟩
          else if p1 + n ≤ data.length then
            ⟨.ok, .list (unrepAll c.host c.sizeof t' n ((data.drop p1).take n)), p1 + n⟩
          else ⟨.ub, old, p1⟩
        else if old.elems.length < n then ⟨.err .resultOutOfRange, old, p1⟩
        else inElems c l.block t' (rec t') (old.elems.take n) data p1
      | (s, _, p1) => ⟨s, old, p1⟩
    else if l.block && x.viewOfInput then
      if data.length < p then ⟨.ub, old, p⟩
      else ⟨.ok, .list (unrepAll c.host c.sizeof t' (data.length - p) (data.drop p)), data.length⟩
    else inElems c l.block t' (rec t') old.elems data p
  | .array n t' => inElems c l.block t' (rec t') (resizeVals old.elems n .unit) data p
  | _ => ⟨.illFormed, old, p⟩

/-- `serialize_one(concepts::associative_container)` of an input archive (zpp_bits.h:2850-2904). -/
def inAssociativeRule (c : Cfg) (rec : Ty → Val → Nat → Res) (fresh : Ty → Val) (t : Ty) (old : Val) (data : List UInt8)
    (p : Nat) : Res :=
  match t with
  | .assoc multi hashed _ key mapped =>
    match decHdr c (sizeTyOf c t) data p with
    | (.ok, n, p1) =>
      let elem (p : Nat) : Res :=
        match mapped with
        | Option.none => rec key (fresh key) p
        | some m => (decFields rec [key, m] [fresh key, fresh m] p).toRes
      (decAssoc elem (assocInsert (c.keyLt key) multi hashed mapped.isSome) n [] p1).toRes
    | (s, _, p1) => ⟨s, old, p1⟩
  | _ => ⟨.illFormed, old, p⟩

/-- The flag of an optional and then its content (zpp_bits.h:2921-2962); `optional_ptr` (1492-1515) always reads into a new
object. -/
def inOptionalRule (dc : Bool) (rec : Val → Nat → Res) (dv old : Val) (data : List UInt8) (p : Nat) : Res :=
  match getBytes data p 1 with
  | (.ok, bs, p1) =>
    if leNat bs = 0 then ⟨.ok, .none, p1⟩
    else if dc then
      let r := rec (match old with
        | .some v => v
        | _ => dv) p1
      ⟨r.s, .some r.v, r.p⟩
    else
      match rec dv p1 with
      | ⟨.ok, v, p2⟩ => ⟨.ok, .some v, p2⟩
      | ⟨s, _, p2⟩ => ⟨s, old, p2⟩
  | (s, _, p1) => ⟨s, old, p1⟩

/-- `serialize_one(concepts::unspecialized)` of an input archive (zpp_bits.h:2601-2703). -/
def inUnspecialized (c : Cfg) (rec : Ty → Val → Nat → Res) (fresh : Ty → Val) (b : BasicRule) (t : Ty) (old : Val)
    (data : List UInt8) (p : Nat) : Res :=
  match b, t with
  | .userFunction, .varint n zz => getVarint n zz old data p
  | .userFunction, .optPtr t' => inOptionalRule false (rec t') (fresh t') old data p
  | .userFunction, .struct _ fs => (decFields rec fs old.elems p).toRes
  | .scalar, .scalar _ n =>
    match getBytes data p n with
    | (.ok, bs, p') => ⟨.ok, .num (ioNat c bs), p'⟩
    | (s, _, p') => ⟨s, old, p'⟩
  | .scalar, .bool =>
    match getBytes data p 1 with
    | (.ok, bs, p') => ⟨.ok, .num (leNat bs), p'⟩
    | (s, _, p') => ⟨s, old, p'⟩
  | .nothing, _ => ⟨.ok, .unit, p⟩
  | .asBytes, t =>
    let r := decRep c t 1 [old] data p
    ⟨r.s, r.vs.headD .unit, r.p⟩
  | .members, .struct _ fs => (decFields rec fs old.elems p).toRes
  | _, _ => ⟨.illFormed, old, p⟩

/-- `serialize_one(concepts::variant)` of an input archive (zpp_bits.h:2964-3056). -/
def inVariantRule (rec : Ty → Val → Nat → Res) (fresh : Ty → Val) (idTy : Ty) (ids : List Val) (dcs : List Bool)
    (alts : List Ty) (old : Val) (p : Nat) : Res :=
  match rec idTy (fresh idTy) p with
  | ⟨.ok, id, p1⟩ =>
    match findId id ids 0 with
    | Option.none => ⟨.err .badMessage, old, p1⟩
    | some i =>
      match alts[i]?, dcs[i]? with
      | some t', some dc => decAlt (rec t') dc i (fresh t') old p1
      | _, _ => ⟨.illFormed, old, p1⟩
  | ⟨s, _, p1⟩ => ⟨s, old, p1⟩

/-- `basic_in::serialize_one`: the overload chosen by overload resolution (zpp_bits.h:2601-3122). `none`: the program does not
compile. `msg` runs the protocol on a message of the given size (4929-4983). -/
def inByRule (c : Cfg) (rec : Ty → Val → Nat → Res) (fresh : Ty → Val) (msg : Ty → Nat → Nat → Res) (r : Reading) (t : Ty)
    (old : Val) (data : List UInt8) (p : Nat) : Option Res :=
  let x := traitsOf c r t
  match inRule x with
  | Option.none => Option.none
  | some .associative =>
    (inAssociative (sizeTyOf c t == .none)).map fun _ => inAssociativeRule c rec fresh t old data p
  | some rule => some <|
    match rule, t with
    | .unspecialized, t => inUnspecialized c rec fresh (inBasic x) t old data p
    | .array, .array n t' => inElems c x.elementsAsBytes t' (rec t') (resizeVals old.elems n .unit) data p
    | .container, t => inContainerRule c x (inContainer x (sizeTyOf c t == .none)) rec fresh t old data p
    | .tuple, .struct _ fs => (decFields rec fs old.elems p).toRes
    | .optional, .optional dc t' => inOptionalRule dc (rec t') (fresh t') old data p
    | .variant, .variant idTy ids dcs alts => inVariantRule rec fresh idTy ids dcs alts old p
    | .pointer, .uptr t' =>
      match rec t' (fresh t') p with
      | ⟨.ok, v, p1⟩ => ⟨.ok, .some v, p1⟩
      | ⟨s, _, p1⟩ => ⟨s, old, p1⟩
    | .bitset, .bitset n =>
      match getBytes data p ((n + 7) / 8) with
      | (.ok, bs, p') => ⟨.ok, .bits (readBits n bs), p'⟩
      | (s, _, p') => ⟨s, old, p'⟩
    | .protocol, t =>
      match sizeTyOf c t with
      | .none => msg t sizeMax p
      | s =>
        match decHdr c s data p with
        | (.ok, n, p1) => msg t n p1
        | (s', _, p1) => ⟨s', old, p1⟩
    | _, _ => ⟨.illFormed, old, p⟩

end Zpp
