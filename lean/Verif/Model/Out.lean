import Verif.Model.Types
/-!
# Model of the output archive (zpp_bits.h:1860-2462)
-/

namespace Zpp

/-- State of an output archive: the bytes of the view and `m_position` (zpp_bits.h:2420-2421). -/
structure OutSt where
  data : List UInt8
  pos : Nat
deriving DecidableEq, Repr, Inhabited

/-- An output operation. -/
abbrev OutM := OutSt → Status × OutSt

/-- Do nothing and succeed (`return {};`). -/
def OutM.skip : OutM := fun st => (.ok, st)

/-- Fail with an outcome. -/
def OutM.fail (s : Status) : OutM := fun st => (s, st)

/-- Run `a`, and if it succeeded run `b` (`if (failure(result)) return result;`,
`serialize_many`, zpp_bits.h:2005-2019). -/
def OutM.andThen (a b : OutM) : OutM := fun st =>
  match a st with
  | (.ok, st') => b st'
  | r => r

/-- `container.resize(n)` on the byte buffer: cut, or extend with value-initialized bytes. -/
def resizeBytes (data : List UInt8) (n : Nat) : List UInt8 :=
  data.take n ++ List.replicate (n - data.length) 0

/-- `enlarge_for(additional_size)` (zpp_bits.h:1966-2002). All arithmetic is `size_t`. -/
def enlargeFor (g : Growth) (additional : Nat) : OutM := fun st =>
  let size := st.data.length
  if subSz size st.pos < additional then
    let required := wrap (size + additional)
    if g.noOvf = false ∧ required < size then (.err .noBufferSpace, st)
    else
      let new0 := if g.mul = 1 then required else wrap (required * g.mul)
      if g.mul ≠ 1 ∧ g.noOvf = false ∧ new0 / g.mul ≠ required then (.err .noBufferSpace, st)
      else
        let new1 := if g.div = 1 then new0 else new0 / g.div
        if g.limit ≠ sizeMax ∧ g.limit < new1 then (.err .noBufferSpace, st)
        else if g.maxMem < new1 then (.badAlloc, st)
        else (.ok, { st with data := resizeBytes st.data new1 })
  else (.ok, st)

/-- The space check in front of every write: grow, or compare with the remaining size
(zpp_bits.h:2052-2060, 2102-2110, 2320-2328). No C++ object is larger than `PTRDIFF_MAX` bytes, so a
claim for `2^63` bytes or more belongs to no program. -/
def claim (g : Growth) (n : Nat) : OutM := fun st =>
  if 2 ^ 63 ≤ n then (.illFormed, st)
  else if g.resizable then enlargeFor g n st
  else if subSz st.data.length st.pos < n then (.err .resultOutOfRange, st)
  else (.ok, st)

/-- `memcpy(m_data.data() + m_position, bytes)` and `m_position += n` (zpp_bits.h:2081-2085, 2133-2140).
Writing outside the buffer is undefined behaviour. -/
def memcpyAt (bs : List UInt8) : OutM := fun st =>
  if st.pos + bs.length ≤ st.data.length then
    (.ok, { data := st.data.take st.pos ++ bs ++ st.data.drop (st.pos + bs.length),
            pos := st.pos + bs.length })
  else (.ub, st)

/-- Serialization of a fundamental type (zpp_bits.h:2051-2086). -/
def put (g : Growth) (bs : List UInt8) : OutM := (claim g bs.length).andThen (memcpyAt bs)

/-- Serialization of `bytes` (zpp_bits.h:2087-2141): empty ranges return immediately. -/
def putBytes (g : Growth) (bs : List UInt8) : OutM :=
  if bs.length = 0 then OutM.skip else put g bs

/-- Serialization of a varint of `sizeof == n` whose unsigned (zigzagged) value is `value`
(zpp_bits.h:1673-1700). `remaining_data()` with a position behind the end is undefined. -/
def putVarint (g : Growth) (n value : Nat) : OutM := fun st =>
  if g.resizable then
    ((enlargeFor g (varintMaxSize n)).andThen (memcpyAt (varintBytes value))) st
  else if st.data.length < st.pos then (.ub, st)
  else if st.data.length - st.pos < varintMaxSize n ∧
          st.data.length - st.pos < varintSize n value then (.err .resultOutOfRange, st)
  else memcpyAt (varintBytes value) st

/-- Serialization of a varint object (zpp_bits.h:1659-1701; also through 4885, 4909 for packed fields).
A value outside the range of the type does not exist; integral types have 1 to 8 bytes. -/
def encVarintVal (c : Cfg) (n : Nat) (zz : Bool) : Val → OutM
  | .num x => if 0 < n ∧ n ≤ 8 ∧ x < 2 ^ (8 * n) then putVarint c.g n (varintLoad n zz x) else OutM.fail .illFormed
  | _ => OutM.fail .illFormed

/-- The size prefix: `serialize_one(static_cast<SizeType>(size))` (zpp_bits.h:2212-2216, 2236-2240). -/
def encHdr (c : Cfg) (sz : SizeTy) (n : Nat) : OutM :=
  match sz with
  | .fixed k => put c.g (ioBytes c k (n % 256 ^ k))
  | .varint => putVarint c.g 8 (n % 2 ^ 64)
  | .none => OutM.skip

/-- Elements one by one (zpp_bits.h:2171-2177, 2242-2248). -/
def encAll (rec : Val → OutM) : List Val → OutM
  | [] => OutM.skip
  | v :: vs => (rec v).andThen (encAll rec vs)

/-- Members/tuple elements one by one (`serialize_many`, zpp_bits.h:2005-2019, 2252-2265). -/
def encFields (rec : Ty → Val → OutM) : List Ty → List Val → OutM
  | [], [] => OutM.skip
  | t :: ts, v :: vs => (rec t v).andThen (encFields rec ts vs)
  | _, _ => OutM.fail .illFormed

/-- Write the object representation (`as_bytes`, `bytes`, zpp_bits.h:2146, 2169, 2218). -/
def encRep (g : Growth) (r : Option (List UInt8)) : OutM :=
  match r with
  | some bs => putBytes g bs
  | none => OutM.fail .illFormed

/-- The OR loop of the bitset writer on the target bytes (zpp_bits.h:2330-2335), from bit `i` on.
`none` is an access outside the given bytes. -/
def orBits : List Bool → Nat → List UInt8 → Option (List UInt8)
  | [], _, bs => some bs
  | b :: rest, i, bs =>
    match bs[i / 8]? with
    | none => none
    | some old =>
      orBits rest (i + 1) (bs.set (i / 8) (UInt8.ofNat (old.toNat ||| (b.toNat <<< (i &&& 7)))))

/-- `size_in_bytes` of a bitset (zpp_bits.h:2318, 3077). -/
def bitsetBytes (n : Nat) : Nat := (n + 7) / 8

/-- Serialization of a bitset (zpp_bits.h:2314-2339). -/
def encBitset (g : Growth) (n : Nat) (bits : List Bool) : OutM :=
  if bits.length = n then
    (claim g (bitsetBytes n)).andThen fun st =>
      if st.pos + bitsetBytes n ≤ st.data.length then
        match orBits bits 0 ((st.data.drop st.pos).take (bitsetBytes n)) with
        | some bs => memcpyAt bs st
        | none => (.ub, st)
      else (.ub, st)
  else OutM.fail .illFormed

/-- `traits::variant_impl::id(index)` followed by the object (zpp_bits.h:2277-2302, 476-488). -/
def encVariant (rec : Ty → Val → OutM) (idTy : Ty) (ids : List Val) (alts : List Ty) : Val → OutM
  | .valueless => OutM.fail (.err .invalidArgument)
  | .alt i v =>
    match ids[i]?, alts[i]? with
    | some id, some t => (rec idTy id).andThen (rec t v)
    | _, _ => OutM.fail .illFormed
  | _ => OutM.fail .illFormed

/-- Optional and `optional_ptr` (zpp_bits.h:2267-2275, 1480-1490). -/
def encOptional (g : Growth) (rec : Val → OutM) : Val → OutM
  | .none => put g [0]
  | .some v => (put g [1]).andThen (rec v)
  | _ => OutM.fail .illFormed

/-- Owning pointer (zpp_bits.h:2304-2312). -/
def encUptr (rec : Val → OutM) : Val → OutM
  | .none => OutM.fail (.err .invalidArgument)
  | .some v => rec v
  | _ => OutM.fail .illFormed

/-- Overwrite of the already reserved size field by a second `basic_out` over
`span{m_data.data() + size_position, sizeof(SizeType)}` (zpp_bits.h:2403-2406). The inner archive has
no options: native byte order. For a varint `sizeof(SizeType) = 8`, so values whose varint is longer
than 8 bytes are refused. The position of the outer archive is not touched.
Simplification: with a varint size and fewer than 8 bytes behind `sizePos` the `span` formally reaches
behind the end of the buffer; only the bytes of the varint, which are inside, are touched, and the model
asks for those only. -/
def patchSize (c : Cfg) (sz : SizeTy) (sizePos n : Nat) : OutM := fun st =>
  let write (bs : List UInt8) : Status × OutSt :=
    match memcpyAt bs { st with pos := sizePos } with
    | (.ok, st') => (.ok, { st' with pos := st.pos })
    | (s, _) => (s, st)
  match sz with
  | .fixed k => write (hostBytes c.host k (n % 256 ^ k))
  | .varint =>
    if 8 < varintSize 8 n then (.err .resultOutOfRange, st) else write (varintBytes n)
  | .none => (.ok, st)

/-- Moving the message body ahead to make room for a longer varint size
(zpp_bits.h:2373-2401). `pre` is `preserialized_varint_size = 1`. -/
def moveAhead (g : Growth) (sizePos : Nat) : OutM := fun st =>
  let cur := st.pos
  let msgSize := subSz (subSz cur sizePos) 1
  let ahead := varintSize 8 msgSize - 1
  if ahead = 0 then (.ok, st)
  else
    match claim g ahead st with
    | (.ok, st1) =>
      -- memmove(message_start + ahead, message_start, message_size)
      if cur + ahead ≤ st1.data.length ∧ sizePos + 1 ≤ cur then
        let body := (st1.data.take cur).drop (sizePos + 1)
        (.ok, { data := st1.data.take (sizePos + 1 + ahead) ++ body ++ st1.data.drop (cur + ahead),
                pos := cur + ahead })
      else (.ub, st1)
    | r => r

/-- Serialization by protocol with a size field (zpp_bits.h:2341-2416): reserve the size field, run the
protocol, then (varint) move the body ahead and overwrite the size field. -/
def encByProtocol (c : Cfg) (sz : SizeTy) (body : OutM) : OutM := fun st =>
  let sizePos := st.pos
  match sz with
  | .none => body st
  | .fixed k =>
    (((encHdr c sz 0).andThen body).andThen fun st' =>
      patchSize c sz sizePos (subSz (subSz st'.pos sizePos) k) st') st
  | .varint =>
    (((encHdr c sz 0).andThen body).andThen fun st' =>
      ((moveAhead c.g sizePos).andThen
        (patchSize c sz sizePos (subSz (subSz st'.pos sizePos) 1))) st') st

/-- `make_tag<Type, Index>()` (zpp_bits.h:4632-4690): `(field_number << 3) | wire_type` as a varint.
The arithmetic type is `unsigned int` for explicit or mapped numbers and `size_t` for `Index + 1`. -/
def encTag (c : Cfg) (maps : List (Nat × Nat)) (num : Option Nat) (i wt : Nat) : OutM :=
  if num.isNone ∧ pbMapped maps i = 0 then putVarint c.g 8 (((i + 1) <<< 3 ||| wt) % 2 ^ 64)
  else putVarint c.g 4 ((pbNumber maps num i <<< 3 ||| wt) % 2 ^ 32)

/-- Total length of packed varints (zpp_bits.h:4877-4881, 4897-4900). -/
def packedSize (n : Nat) (zz : Bool) (vs : List Val) : Nat :=
  (vs.map fun v => match v with
    | .num x => varintSize n (varintLoad n zz x)
    | _ => 0).sum

/-- `pb::serialize_one<Index>(archive, item)` for the member of type `t` with index `i`
(zpp_bits.h:4787-4927). `rec` serializes through the archive `c`. In the branch for repeated
non-packed elements the tag is made from `value_type`, which loses the explicit number of the field
(line 4917-4918). -/
def pbEncField (c : Cfg) (rec : Ty → Val → OutM) (maps : List (Nat × Nat)) (num : Option Nat) (i : Nat)
    (t : Ty) (v : Val) : OutM :=
  match pbOutClass t with
  | .skip => OutM.skip
  | .enumV n => (encTag c maps num i 0).andThen (encVarintVal c n false v)
  | .single => (encTag c maps num i (pbWireType t)).andThen (rec t v)
  | .map key mapped =>
    match v with
    | .list vs => encAll (fun e => (encTag c maps num i 2).andThen (rec (pbEntry key mapped) e)) vs
    | _ => OutM.fail .illFormed
  | .packedFix elem =>
    match v with
    | .list vs =>
      if vs.length = 0 then OutM.skip
      else ((encTag c maps num i 2).andThen
        (putVarint c.g 8 ((vs.length * c.sizeof elem) % 2 ^ 64))).andThen
        (match t with
          | .seq k _ _ => rec (.seq k (some .none) elem) v
          | _ => encAll (rec elem) vs)
    | _ => OutM.fail .illFormed
  | .packedVar n zz =>
    match v with
    | .list vs =>
      if packedSize n zz vs = 0 then OutM.skip
      else ((encTag c maps num i 2).andThen
        (putVarint c.g 8 (packedSize n zz vs % 2 ^ 64))).andThen (encAll (encVarintVal c n zz) vs)
    | _ => OutM.fail .illFormed
  | .packedEnum n =>
    match v with
    | .list vs =>
      if packedSize n false vs = 0 then OutM.skip
      else ((encTag c maps num i 2).andThen
        (putVarint c.g 8 (packedSize n false vs % 2 ^ 64))).andThen (encAll (encVarintVal c n false) vs)
    | _ => OutM.fail .illFormed
  | .repeated elem =>
    match v with
    | .list vs => encAll (fun e => (encTag c maps none i (pbWireType elem)).andThen (rec elem e)) vs
    | _ => OutM.fail .illFormed

/-- `pb::serialize_many` over the members (zpp_bits.h:4763-4785), from index `i` on. -/
def pbEncFields (c : Cfg) (rec : Ty → Val → OutM) (maps : List (Nat × Nat)) :
    Nat → List (Option Nat) → List Ty → List Val → OutM
  | _, [], [], [] => OutM.skip
  | i, num :: nums, t :: ts, v :: vs =>
    (pbEncField c rec maps num i t v).andThen (pbEncFields c rec maps (i + 1) nums ts vs)
  | _, _, _, _ => OutM.fail .illFormed

/-- The archive used by `pb::operator()` for output (zpp_bits.h:4700-4713, 4740-4760): a new
little-endian varint-sized archive over the same buffer, unless the given archive already has varint
sizes and (native little endian or endian-aware); then the given archive is used as it is. -/
def pbOutCfg (c : Cfg) : Cfg :=
  if c.dsz ≠ .varint ∨ (c.host = .big ∧ c.aware = false) then pbCfg c else c

/-- `serialize_one(item)` of an output archive for an object `v` of type `t`; the first argument is
the remaining stack depth (zpp_bits.h:2042-2416). -/
def encode : Nat → Cfg → Ty → Val → OutM
  | 0, _, _, _ => OutM.fail .stack
  | d + 1, c, t, v =>
    match t with
    | .scalar _ n =>
      match v with
      | .num x => put c.g (ioBytes c n x)
      | _ => OutM.fail .illFormed
    | .bool =>
      match v with
      | .num x => put c.g [UInt8.ofNat x]
      | _ => OutM.fail .illFormed
    | .varint n zz => encVarintVal c n zz v
    | .empty => OutM.skip
    | .struct ok fs =>
      match v with
      | .list vs =>
        if asBytes c (.struct ok fs) then encRep c.g (rep c.host (.struct ok fs) v)
        else encFields (encode d c) fs vs
      | _ => OutM.fail .illFormed
    | .array n t' =>
      match v with
      | .list vs =>
        if vs.length ≠ n then OutM.fail .illFormed
        else if asBytes c t' then encRep c.g (repAll c.host t' vs)
        else encAll (encode d c t') vs
      | _ => OutM.fail .illFormed
    | .seq k sz t' =>
      match v with
      | .list vs =>
        (encHdr c (effSz c sz) vs.length).andThen
          (if k ≠ .list ∧ asBytes c t' then encRep c.g (repAll c.host t' vs)
           else encAll (encode d c t') vs)
      | _ => OutM.fail .illFormed
    | .assoc _ _ sz key mapped =>
      match v with
      | .list vs =>
        (encHdr c (effSz c sz) vs.length).andThen
          (encAll (fun e =>
            match mapped with
            | none => encode d c key e
            | some m =>
              match e with
              | .list es => encFields (encode d c) [key, m] es
              | _ => OutM.fail .illFormed) vs)
      | _ => OutM.fail .illFormed
    | .optional _ t' => encOptional c.g (encode d c t') v
    | .optPtr t' => encOptional c.g (encode d c t') v
    | .uptr t' => encUptr (encode d c t') v
    | .variant idTy ids _ alts => encVariant (encode d c) idTy ids alts v
    | .bitset n =>
      match v with
      | .bits bs => encBitset c.g n bs
      | _ => OutM.fail .illFormed
    | .msg sz _ maps nums fs =>
      match v with
      | .list vs =>
        encByProtocol c (effSz c sz)
          (pbEncFields (pbOutCfg c) (encode d (pbOutCfg c)) maps 0 nums fs vs)
      | _ => OutM.fail .illFormed
    | .ref i => encode d c (c.env i) v

/-- `serialize_many(items...)` = `basic_out::operator()` (zpp_bits.h:1925-1928, 2005-2019). -/
def encMany (d : Nat) (c : Cfg) : List (Ty × Val) → OutM
  | [] => OutM.skip
  | (t, v) :: rest => (encode d c t v).andThen (encMany d c rest)

/-- `out::operator()` (zpp_bits.h:2443-2456) around the serialization `body` of the items: fit the buffer to the
position afterwards, unless the buffer is not resizable, `no_fit_size` was given, or the enlarger is exact. -/
def fitCall (c : Cfg) (noFit : Bool) (body : OutM) : OutM := fun st =>
  if c.g.resizable ∧ noFit = false ∧ ¬ (c.g.mul = 1 ∧ c.g.div = 1) then
    let fin := st.data.length
    match body st with
    | (.badAlloc, st') => (.badAlloc, st')
    | (s, st') =>
      if fin ≤ st'.pos then
        if st'.data.length < st'.pos ∧ c.g.maxMem < st'.pos then (.badAlloc, st')
        else (s, { st' with data := resizeBytes st'.data st'.pos })
      else (s, st')
  else body st

/-- `out::operator()(items...)` (zpp_bits.h:2443-2456). -/
def outCall (d : Nat) (c : Cfg) (noFit : Bool) (items : List (Ty × Val)) : OutM :=
  fitCall c noFit (encMany d c items)

end Zpp
