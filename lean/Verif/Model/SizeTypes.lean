import Verif.Model.Out
import Verif.Model.In
/-!
# Size prefixes of any integer type

`SizeTy` (`Model/Types`) has the size types the library itself names: unsigned integers, `vsize_t` and `void`. Programs may give
`sized<SizeType>(container)` and `sized_t` any integer type or varint of one: signed integers, varints of any width, zigzag
varints. This file models containers and protobuf messages with such size types; `bool`, character types and enumerations are not
modelled as size types.
-/

namespace Zpp

/-- A size type (`SizeType`, zpp_bits.h:1517-1584): an integer of `n` bytes, or a varint of one; `sgn` for signed types, `zz` for
`varint_encoding::zig_zag`. -/
inductive SizeInt
  | int (n : Nat) (sgn : Bool)
  | var (n : Nat) (sgn zz : Bool)

/-- `sizeof` of the integer type (zpp_bits.h:1517-1584). -/
def SizeInt.width : SizeInt → Nat
  | .int n _ => n
  | .var n _ _ => n

/-- Whether the integer type is signed (zpp_bits.h:1517-1584). -/
def SizeInt.signed : SizeInt → Bool
  | .int _ s => s
  | .var _ s _ => s

/-- The object `SizeType size` (zpp_bits.h:2750, 2857), as a type of the model. -/
def SizeInt.ty : SizeInt → Ty
  | .int n _ => .scalar .int n
  | .var n _ zz => .varint n zz

/-- `static_cast<SizeType>(container.size())` (zpp_bits.h:2213, 2237): the low bytes; numbers of signed types are kept as their
two's complement representation everywhere in the model. -/
def SizeInt.stored (S : SizeInt) (count : Nat) : Nat := count % 2 ^ (8 * S.width)

/-- The prefix converted to `std::size_t` (zpp_bits.h:2763, 2767, 2773, 2779, 2870): negative numbers become large ones. -/
def SizeInt.count (S : SizeInt) (x : Nat) : Nat :=
  if S.signed && decide (2 ^ (8 * S.width - 1) ≤ x) then x + (2 ^ 64 - 2 ^ (8 * S.width)) else x

/-- The size field of a message overwritten by a second `basic_out` over `span{m_data.data() + size_position, sizeof(SizeType)}`
(zpp_bits.h:2403-2406), in native byte order as the inner archive has no options; a varint longer than `sizeof(SizeType)` is refused
(zpp_bits.h:1681-1689). The same simplification as in `patchSize`. -/
def patchSizeInt (c : Cfg) (S : SizeInt) (sizePos n : Nat) : OutM := fun st =>
  let write (bs : List UInt8) : Status × OutSt :=
    match memcpyAt bs { st with pos := sizePos } with
    | (.ok, st') => (.ok, { st' with pos := st.pos })
    | (s, _) => (s, st)
  match S with
  | .int k _ => write (hostBytes c.host k (S.stored n))
  | .var k _ zz =>
    if k < varintSize k (varintLoad k zz (S.stored n)) then (.err .resultOutOfRange, st)
    else write (varintBytes (varintLoad k zz (S.stored n)))

/-- Serialization by protocol with a size field (zpp_bits.h:2341-2406): a size of zero, the protocol, for varints moving the message
ahead by the length of the plain varint of its size (2369-2401), and overwriting the size. `hdr` writes the zero. -/
def encByProtocolInt (c : Cfg) (S : SizeInt) (hdr body : OutM) : OutM := fun st =>
  match S with
  | .int k _ =>
    ((hdr.andThen body).andThen fun st' => patchSizeInt c S st.pos (subSz (subSz st'.pos st.pos) k) st') st
  | .var _ _ _ =>
    ((hdr.andThen body).andThen fun st' =>
      ((moveAhead c.g st.pos).andThen (patchSizeInt c S st.pos (subSz (subSz st'.pos st.pos) 1))) st') st

/-- `serialize_one<SizeType>(item)` of an output archive (zpp_bits.h:2180-2250, 2341-2406): for containers the size, then the
elements as in `encode`; protobuf messages as in `encode`. -/
def encSized : Nat → Cfg → SizeInt → Ty → Val → OutM
  | 0, _, _, _, _ => OutM.fail .stack
  | d + 1, c, S, t, v =>
    match t, v with
    | .seq k _ t', .list vs =>
      (encode (d + 1) c S.ty (.num (S.stored vs.length))).andThen
        (if k ≠ .list ∧ asBytes c t' then encRep c.g (repAll c.host t' vs)
         else encAll (encode d c t') vs)
    | .assoc _ _ _ key mapped, .list vs =>
      (encode (d + 1) c S.ty (.num (S.stored vs.length))).andThen
        (encAll (fun e =>
          match mapped with
          | none => encode d c key e
          | some m =>
            match e with
            | .list es => encFields (encode d c) [key, m] es
            | _ => OutM.fail .illFormed) vs)
    | .msg _ _ maps nums fs, .list vs =>
      encByProtocolInt c S (encode (d + 1) c S.ty (.num 0))
        (pbEncFields (pbOutCfg c) (encode d (pbOutCfg c)) maps 0 nums fs vs)
    | _, _ => OutM.fail .illFormed

/-- `out(sized<SizeType>(item))` (zpp_bits.h:1517-1584, 2443-2456). -/
def outSized (d : Nat) (c : Cfg) (noFit : Bool) (S : SizeInt) (t : Ty) (v : Val) : OutM := fitCall c noFit (encSized d c S t v)

/-- `serialize_one<SizeType>(item)` of an input archive (zpp_bits.h:2722-2848, 2851-2904, 3095-3112): the size into a new object,
then the elements or the message as in `decode`. For views and spans a signed size type is a narrowing conversion (zpp_bits.h:2776, 2782), which not
every compiler accepts; the model has the meaning it has where it is accepted. -/
def decSized : Nat → Cfg → SizeInt → Ty → Val → List UInt8 → Nat → Res
  | 0, _, _, _, old, _, p => ⟨.stack, old, p⟩
  | d + 1, c, S, t, old, data, p =>
    match t with
    | .seq k _ t' =>
      match decode (d + 1) c S.ty (.num 0) data p with
      | ⟨.ok, .num x, p1⟩ => seqFill c k t' (fun v p => decode d c t' v data p) (dflt c d t') old data (S.count x) p1
      | ⟨.ok, _, p1⟩ => ⟨.illFormed, old, p1⟩
      | ⟨s, _, p1⟩ => ⟨s, old, p1⟩
    | .assoc multi hashed _ key mapped =>
      match decode (d + 1) c S.ty (.num 0) data p with
      | ⟨.ok, .num x, p1⟩ =>
        let elem (p : Nat) : Res :=
          match mapped with
          | none => decode d c key (dflt c d key) data p
          | some m =>
            (decFields (fun t v p => decode d c t v data p) [key, m] [dflt c d key, dflt c d m] p).toRes
        (decAssoc elem (assocInsert (c.keyLt key) multi hashed mapped.isSome) (S.count x) [] p1).toRes
      | ⟨.ok, _, p1⟩ => ⟨.illFormed, old, p1⟩
      | ⟨s, _, p1⟩ => ⟨s, old, p1⟩
    | .msg _ _ maps nums fs =>
      match decode (d + 1) c S.ty (.num 0) data p with
      | ⟨.ok, .num x, p1⟩ =>
        msgRun (pbCfg c) (decode d (pbCfg c)) (dflt (pbCfg c) d) maps nums fs old data (S.count x) p1
      | ⟨.ok, _, p1⟩ => ⟨.illFormed, old, p1⟩
      | ⟨s, _, p1⟩ => ⟨s, old, p1⟩
    | _ => ⟨.illFormed, old, p⟩

end Zpp
