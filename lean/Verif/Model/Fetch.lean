import Verif.Model.In
/-!
# Model of the input archive over memory that changes while it is read

For example memory shared with another process. Everything the archive decides from is fetched from the memory when the position is at the object fetched, and a
successful fetch moves the position. So the memory is given as it is when the position is `p`; `mem p 0`, `mem p 1`, `mem p 2` for the three places in the code that
fetch the first byte of a varint. Reading over memory that does not change is `Model/In.lean`.
-/

namespace Zpp

/-- What the memory holds when the position is `p`, in the order of the fetches at this position. -/
abbrev Mem := Nat → Nat → List UInt8

/-- Reading a varint (zpp_bits.h:1745-1782): the first byte is fetched to be compared (line 1759); if it is below 128, it is fetched again to be the value (line 1760);
otherwise `decode_varint` begins with fetching it again (lines 1709, 1724). The bytes are unsigned (`std::byte` or `unsigned char`).
With `ZPP_BITS_INLINE_DECODE_VARINT` (`inl`), every byte is fetched once (lines 1783-1832). -/
def getVarintT (inl : Bool) (n : Nat) (zz : Bool) (old : Val) (m : Nat → List UInt8) (pos : Nat) : Res :=
  if (m 0).length < pos then ⟨.ub, old, pos⟩
  else if inl then
    match readVarintRawInline n ((m 0).drop pos) with
    | .ok x len => ⟨.ok, .num (varintStore n zz x), pos + len⟩
    | .err e => ⟨.err e, old, pos⟩
    | .ub => ⟨.ub, old, pos⟩
  else
    match (m 0).drop pos with
    | b :: _ =>
      if b.toNat &&& 0x80 = 0 then ⟨.ok, .num (varintStore n zz (((m 1).drop pos).headD 0).toNat), pos + 1⟩
      else
        match decodeVarint n ((m 2).drop pos) with
        | .ok x len => ⟨.ok, .num (varintStore n zz x), pos + len⟩
        | .err e => ⟨.err e, old, pos⟩
        | .ub => ⟨.ub, old, pos⟩
    | [] =>
      match decodeVarint n ((m 2).drop pos) with
      | .ok x len => ⟨.ok, .num (varintStore n zz x), pos + len⟩
      | .err e => ⟨.err e, old, pos⟩
      | .ub => ⟨.ub, old, pos⟩

/-- The size prefix (zpp_bits.h:2750-2754, 2857-2863, 3100-3104). -/
def decHdrT (inl : Bool) (c : Cfg) (sz : SizeTy) (mem : Mem) (pos : Nat) : Status × Nat × Nat :=
  match sz with
  | .fixed k =>
    match getBytes (mem pos 0) pos k with
    | (.ok, bs, p) => (.ok, ioNat c bs, p)
    | (s, _, p) => (s, 0, p)
  | .varint =>
    match getVarintT inl 8 false (.num 0) (mem pos) pos with
    | ⟨.ok, .num x, p⟩ => (.ok, x, p)
    | ⟨.ok, _, p⟩ => (.illFormed, 0, p)
    | ⟨s, _, p⟩ => (s, 0, p)
  | .none => (.illFormed, 0, pos)

/-- Packed members (zpp_bits.h:5091-5149). -/
def pbDecPackedT (inl : Bool) (c : Cfg) (rec : Ty → Val → Nat → Res) (t elemTy : Ty) (fix : Bool) (wt : Nat)
    (old : Val) (mem : Mem) (p : Nat) : Res :=
  let fetch := pbFetch c t (rec elemTy .unit)
  if wt ≠ 2 then (fetch old.elems p).toRes
  else
    match decHdrT inl c .varint mem p with
    | (.ok, len, p1) =>
      if hasResize t && fix then
        if c.g.limit ≠ sizeMax ∧ c.g.limit < len then ⟨.err .messageSize, old, p1⟩
        else if c.g.maxMem < len / c.sizeof elemTy * c.sizeof elemTy then ⟨.badAlloc, old, p1⟩
        else rec (unsizedTy t) (.list (resizeVals old.elems (len / c.sizeof elemTy) (.num 0))) p1
      else if hasReserve t ∧ c.g.maxMem < len * c.sizeof elemTy then ⟨.badAlloc, old, p1⟩
      else (pbPacked fetch (wrap (len + p1)) ((mem p 0).length + 1) old.elems p1).toRes
    | (s, _, p1) => ⟨s, old, p1⟩

/-- One member (zpp_bits.h:5026-5172). -/
def pbDecFieldT (inl : Bool) (c : Cfg) (rec : Ty → Val → Nat → Res) (fresh : Ty → Val) (t : Ty) (wt : Nat)
    (old : Val) (mem : Mem) (p : Nat) : Res :=
  match pbInClass t with
  | .enumV n => getVarintT inl n false old (mem p) p
  | .map key mapped =>
    let entry := pbEntry key mapped
    let r := pbFetch c t (rec entry (fresh entry)) old.elems p
    r.toRes
  | .packedFix elem => pbDecPackedT inl c rec t elem true wt old mem p
  | .packedVar n zz => pbDecPackedT inl c rec t (.varint n zz) false wt old mem p
  | .packedEnum n => pbDecPackedT inl c rec t (.varint n false) false wt old mem p
  | .repeated elem => (pbFetch c t (rec elem (fresh elem)) old.elems p).toRes
  | .single => rec t old p
  | .skip => ⟨.ok, old, p⟩

/-- The loop over the records of a message (zpp_bits.h:4969-4982). -/
def pbLoopT (inl : Bool) (field : Ty → Nat → Val → Nat → Res) (maps : List (Nat × Nat)) (nums : List (Option Nat))
    (fs : List Ty) (mem : Mem) : Nat → List Val → Nat → ResL
  | 0, vs, p => ⟨.hang, vs, p⟩
  | f + 1, vs, p =>
    if p < (mem p 0).length then
      match getVarintT inl 4 false (.num 0) (mem p) p with
      | ⟨.ok, .num tag, p1⟩ =>
        match pbDispatch field maps (tag >>> 3) (tag &&& 7) 0 nums fs vs p1 with
        | ⟨.ok, vs', p2⟩ => pbLoopT inl field maps nums fs mem f vs' p2
        | r => r
      | ⟨.ok, _, p1⟩ => ⟨.illFormed, vs, p1⟩
      | ⟨s, _, p1⟩ => ⟨s, vs, p1⟩
    else ⟨.ok, vs, p⟩

/-- The memory seen by the nested archive of a message of `size` bytes at `p` (zpp_bits.h:4936-4941). -/
def memSub (mem : Mem) (p size : Nat) : Mem := fun q j => msgSub (mem (p + q) j) p size

/-- A message (zpp_bits.h:4929-4983). -/
def msgRunT (inl : Bool) (c' : Cfg) (rec : Ty → Val → Mem → Nat → Res) (fresh : Ty → Val) (maps : List (Nat × Nat))
    (nums : List (Option Nat)) (fs : List Ty) (old : Val) (mem : Mem) (size p : Nat) : Res :=
  if (mem p 0).length < p then ⟨.ub, old, p⟩
  else
    let sub := memSub mem p size
    let r := pbLoopT inl (fun t wt v q => pbDecFieldT inl c' (fun t v q => rec t v sub q) fresh t wt v sub q)
      maps nums fs sub ((sub 0 0).length + 1) (pbClear fs old.elems) 0
    ⟨r.s, .list r.vs, p + r.p⟩

/-- `serialize_one(item)` of an input archive (zpp_bits.h:2601-3122; optional_ptr 1492-1515; protobuf 4929-4983). A copy of many bytes (`memcpy`) may see each byte at
another time; the memory at this position is made of what it sees. The bits of a bitset are fetched one by one (zpp_bits.h:3084-3089); likewise. A view is not read by
the archive; what it shows is taken to be what the memory holds now. -/
def decodeT (inl : Bool) : Nat → Cfg → Ty → Val → Mem → Nat → Res
  | 0, _, _, old, _, p => ⟨.stack, old, p⟩
  | d + 1, c, t, old, mem, p =>
    match t with
    | .scalar _ n =>
      match getBytes (mem p 0) p n with
      | (.ok, bs, p') => ⟨.ok, .num (ioNat c bs), p'⟩
      | (s, _, p') => ⟨s, old, p'⟩
    | .bool =>
      match getBytes (mem p 0) p 1 with
      | (.ok, bs, p') => ⟨.ok, .num (leNat bs), p'⟩
      | (s, _, p') => ⟨s, old, p'⟩
    | .varint n zz => getVarintT inl n zz old (mem p) p
    | .empty => ⟨.ok, .unit, p⟩
    | .struct ok fs =>
      if asBytes c (.struct ok fs) then
        let r := decRep c (.struct ok fs) 1 [old] (mem p 0) p
        ⟨r.s, r.vs.headD .unit, r.p⟩
      else (decFields (fun t v p => decodeT inl d c t v mem p) fs old.elems p).toRes
    | .array n t' =>
      let olds := resizeVals old.elems n .unit
      if asBytes c t' then (decRep c t' n olds (mem p 0) p).toRes
      else (decAll (fun v p => decodeT inl d c t' v mem p) olds p).toRes
    | .seq k sz t' =>
      match effSz c sz with
      | .none => seqUnsized c k t' (fun v p => decodeT inl d c t' v mem p) old (mem p 0) p
      | s =>
        match decHdrT inl c s mem p with
        | (.ok, n, p1) => seqFill c k t' (fun v p => decodeT inl d c t' v mem p) (dflt c d t') old (mem p1 0) n p1
        | (s', _, p1) => ⟨s', old, p1⟩
    | .assoc multi hashed sz key mapped =>
      match decHdrT inl c (effSz c sz) mem p with
      | (.ok, n, p1) =>
        let elem (p : Nat) : Res :=
          match mapped with
          | none => decodeT inl d c key (dflt c d key) mem p
          | some m =>
            (decFields (fun t v p => decodeT inl d c t v mem p) [key, m] [dflt c d key, dflt c d m] p).toRes
        (decAssoc elem (assocInsert (c.keyLt key) multi hashed mapped.isSome) n [] p1).toRes
      | (s, _, p1) => ⟨s, old, p1⟩
    | .optional dc t' =>
      match getBytes (mem p 0) p 1 with
      | (.ok, bs, p1) =>
        if leNat bs = 0 then ⟨.ok, .none, p1⟩
        else if dc then
          let cur := match old with
            | .some v => v
            | _ => dflt c d t'
          let r := decodeT inl d c t' cur mem p1
          ⟨r.s, .some r.v, r.p⟩
        else
          match decodeT inl d c t' (dflt c d t') mem p1 with
          | ⟨.ok, v, p2⟩ => ⟨.ok, .some v, p2⟩
          | ⟨s, _, p2⟩ => ⟨s, old, p2⟩
      | (s, _, p1) => ⟨s, old, p1⟩
    | .optPtr t' =>
      match getBytes (mem p 0) p 1 with
      | (.ok, bs, p1) =>
        if leNat bs = 0 then ⟨.ok, .none, p1⟩
        else
          match decodeT inl d c t' (dflt c d t') mem p1 with
          | ⟨.ok, v, p2⟩ => ⟨.ok, .some v, p2⟩
          | ⟨s, _, p2⟩ => ⟨s, old, p2⟩
      | (s, _, p1) => ⟨s, old, p1⟩
    | .uptr t' =>
      match decodeT inl d c t' (dflt c d t') mem p with
      | ⟨.ok, v, p1⟩ => ⟨.ok, .some v, p1⟩
      | ⟨s, _, p1⟩ => ⟨s, old, p1⟩
    | .variant idTy ids dcs alts =>
      match decodeT inl d c idTy (dflt c d idTy) mem p with
      | ⟨.ok, id, p1⟩ =>
        match findId id ids 0 with
        | none => ⟨.err .badMessage, old, p1⟩
        | some i =>
          match alts[i]?, dcs[i]? with
          | some t', some dc =>
            decAlt (fun v p => decodeT inl d c t' v mem p) dc i (dflt c d t') old p1
          | _, _ => ⟨.illFormed, old, p1⟩
      | ⟨s, _, p1⟩ => ⟨s, old, p1⟩
    | .bitset n =>
      match getBytes (mem p 0) p ((n + 7) / 8) with
      | (.ok, bs, p') => ⟨.ok, .bits (readBits n bs), p'⟩
      | (s, _, p') => ⟨s, old, p'⟩
    | .msg sz _ maps nums fs =>
      match effSz c sz with
      | .none => msgRunT inl (pbCfg c) (decodeT inl d (pbCfg c)) (dflt (pbCfg c) d) maps nums fs old mem sizeMax p
      | s =>
        match decHdrT inl c s mem p with
        | (.ok, n, p1) => msgRunT inl (pbCfg c) (decodeT inl d (pbCfg c)) (dflt (pbCfg c) d) maps nums fs old mem n p1
        | (s', _, p1) => ⟨s', old, p1⟩
    | .ref i => decodeT inl d c (c.env i) old mem p

/-- `in(items...)` (zpp_bits.h:2532-2535, 2585-2599). -/
def decManyT (inl : Bool) (d : Nat) (c : Cfg) (mem : Mem) : List (Ty × Val) → Nat → ResL
  | [], p => ⟨.ok, [], p⟩
  | (t, o) :: rest, p =>
    match decodeT inl d c t o mem p with
    | ⟨.ok, v, p'⟩ => let r := decManyT inl d c mem rest p'; ⟨r.s, v :: r.vs, r.p⟩
    | ⟨s, v, p'⟩ => ⟨s, v :: rest.map Prod.snd, p'⟩

end Zpp
