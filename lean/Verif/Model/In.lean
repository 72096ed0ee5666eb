import Verif.Model.Types
/-!
# Model of the input archive (zpp_bits.h:2485-3126) and of the protobuf reader (4929-5172)
-/

namespace Zpp

/-- Result of an input operation: outcome, the destination object (also after a failure: C++ leaves it
partially assigned), and `m_position` afterwards. -/
structure Res where
  s : Status
  v : Val
  p : Nat
deriving DecidableEq, Repr, Inhabited

/-- Result of reading a list of objects. -/
structure ResL where
  s : Status
  vs : List Val
  p : Nat
deriving DecidableEq, Repr, Inhabited

/-- `container.resize(n)` on elements: cut, or extend with value-initialized elements. -/
def resizeVals (vs : List Val) (n : Nat) (dv : Val) : List Val :=
  vs.take n ++ List.replicate (n - vs.length) dv

/-- The elements of a list object (the empty list for other objects; only used on containers). -/
def Val.elems : Val → List Val
  | .list vs => vs
  | _ => []

/-- Range check and read of `n` bytes (zpp_bits.h:2611-2640, 2652-2684). Reading outside the input is
undefined behaviour. -/
def getBytes (data : List UInt8) (pos n : Nat) : Status × List UInt8 × Nat :=
  if subSz data.length pos < n then (.err .resultOutOfRange, [], pos)
  else if pos + n ≤ data.length then (.ok, (data.drop pos).take n, pos + n)
  else (.ub, [], pos)

/-- Reading a varint of `sizeof == n` (zpp_bits.h:1745-1782 with `remaining_data()` 2552-2556).
`old` is the previous value, kept on failure. -/
def getVarint (n : Nat) (zz : Bool) (old : Val) (data : List UInt8) (pos : Nat) : Res :=
  if data.length < pos then ⟨.ub, old, pos⟩
  else
    match readVarintRaw n (data.drop pos) with
    | .ok x len => ⟨.ok, .num (varintStore n zz x), pos + len⟩
    | .err e => ⟨.err e, old, pos⟩
    | .ub => ⟨.ub, old, pos⟩

/-- Reading the size prefix of a container (zpp_bits.h:2750-2754, 2857-2863, 3100-3104). -/
def decHdr (c : Cfg) (sz : SizeTy) (data : List UInt8) (pos : Nat) : Status × Nat × Nat :=
  match sz with
  | .fixed k =>
    match getBytes data pos k with
    | (.ok, bs, p) => (.ok, ioNat c bs, p)
    | (s, _, p) => (s, 0, p)
  | .varint =>
    match getVarint 8 false (.num 0) data pos with
    | ⟨.ok, .num x, p⟩ => (.ok, x, p)
    | ⟨.ok, _, p⟩ => (.illFormed, 0, p)
    | ⟨s, _, p⟩ => (s, 0, p)
  | .none => (.illFormed, 0, pos)

/-- Elements one by one into existing objects (zpp_bits.h:2715-2721, 2841-2847). -/
def decAll (rec : Val → Nat → Res) : List Val → Nat → ResL
  | [], p => ⟨.ok, [], p⟩
  | o :: os, p =>
    match rec o p with
    | ⟨.ok, v, p'⟩ => let r := decAll rec os p'; ⟨r.s, v :: r.vs, r.p⟩
    | ⟨s, v, p'⟩ => ⟨s, v :: os, p'⟩

/-- Members one by one (`serialize_many`, zpp_bits.h:2585-2599, 2906-2919). -/
def decFields (rec : Ty → Val → Nat → Res) : List Ty → List Val → Nat → ResL
  | [], _, p => ⟨.ok, [], p⟩
  | t :: ts, os, p =>
    match rec t (os.headD .unit) p with
    | ⟨.ok, v, p'⟩ => let r := decFields rec ts os.tail p'; ⟨r.s, v :: r.vs, r.p⟩
    | ⟨s, v, p'⟩ => ⟨s, v :: os.tail, p'⟩

/-- Reading `n` consecutive byte-serializable objects of type `t` in one copy
(`bytes`, zpp_bits.h:2652-2685). -/
def decRep (c : Cfg) (t : Ty) (n : Nat) (olds : List Val) (data : List UInt8) (pos : Nat) : ResL :=
  if n * c.sizeof t = 0 then ⟨.ok, olds, pos⟩
  else
    match getBytes data pos (n * c.sizeof t) with
    | (.ok, bs, p) => ⟨.ok, unrepAll c.host c.sizeof t n bs, p⟩
    | (s, _, p) => ⟨s, olds, p⟩

/-- Wrap a list result as an object. -/
def ResL.toRes (r : ResL) : Res := ⟨r.s, .list r.vs, r.p⟩

/-- Key of an element of an associative container. -/
def assocKey (isMap : Bool) (e : Val) : Val :=
  if isMap then e.elems.headD .unit else e

/-- Insertion into an ordered container before the first element whose key is greater. -/
def insertSorted (lt : Val → Val → Bool) (isMap : Bool) (e : Val) : List Val → List Val
  | [] => [e]
  | x :: xs =>
    if lt (assocKey isMap e) (assocKey isMap x) then e :: x :: xs
    else x :: insertSorted lt isMap e xs

/-- `container.insert(element)` (zpp_bits.h:2885, 2899): sets/maps ignore an element whose key is
present, multi containers keep both. Elements are listed in iteration order; for hashed containers, whose
order is unspecified, the model appends. -/
def assocInsert (lt : Val → Val → Bool) (multi hashed isMap : Bool) (e : Val) (vs : List Val) : List Val :=
  if hashed then
    if multi || vs.all (fun x => decide (assocKey isMap x ≠ assocKey isMap e)) then vs ++ [e] else vs
  else if multi || vs.all (fun x => lt (assocKey isMap x) (assocKey isMap e) ||
      lt (assocKey isMap e) (assocKey isMap x)) then insertSorted lt isMap e vs
  else vs

/-- The element loop of associative containers (zpp_bits.h:2870-2901): a fresh element is read and
inserted. -/
def decAssoc (elem : Nat → Res) (ins : Val → List Val → List Val) : Nat → List Val → Nat → ResL
  | 0, vs, p => ⟨.ok, vs, p⟩
  | n + 1, vs, p =>
    match elem p with
    | ⟨.ok, v, p'⟩ => decAssoc elem ins n (ins v vs) p'
    | ⟨s, _, p'⟩ => ⟨s, vs, p'⟩

/-- `traits::variant_impl::index(id)` (zpp_bits.h:502-515): the first alternative with the id. -/
def findId (id : Val) : List Val → Nat → Option Nat
  | [], _ => none
  | x :: xs, i => if x = id then some i else findId id xs (i + 1)

/-- Reading the selected alternative (zpp_bits.h:3025-3056): a default constructible alternative is
read in place (after switching the variant to it if needed); otherwise a fresh object is read and then
moved into the variant. `dv` is the value-initialized alternative. -/
def decAlt (rec : Val → Nat → Res) (dc : Bool) (i : Nat) (dv old : Val) (p : Nat) : Res :=
  if dc then
    let cur := match old with
      | .alt j v => if j = i then v else dv
      | _ => dv
    let r := rec cur p
    ⟨r.s, .alt i r.v, r.p⟩
  else
    match rec dv p with
    | ⟨.ok, v, p'⟩ => ⟨.ok, .alt i v, p'⟩
    | ⟨s, _, p'⟩ => ⟨s, old, p'⟩

/-- The bit loop of the bitset reader (zpp_bits.h:3084-3089). -/
def readBits (n : Nat) (bs : List UInt8) : List Bool :=
  (List.range n).map fun i => ((bs.getD (i / 8) 0).toNat >>> (i &&& 7)) &&& 1 = 1

/-- `push_back` or `insert` of an element into a repeated member (zpp_bits.h:5101-5108, 5161-5167). -/
def pbPush (c : Cfg) (t : Ty) (e : Val) (vs : List Val) : List Val :=
  match t with
  | .assoc multi hashed _ key mapped => assocInsert (c.keyLt key) multi hashed mapped.isSome e vs
  | _ => vs ++ [e]

/-- `fetch()` (zpp_bits.h:5094-5111): read one element and add it. -/
def pbFetch (c : Cfg) (t : Ty) (elem : Nat → Res) (vs : List Val) (p : Nat) : ResL :=
  match elem p with
  | ⟨.ok, v, p'⟩ => ⟨.ok, pbPush c t v vs, p'⟩
  | ⟨s, _, p'⟩ => ⟨s, vs, p'⟩

/-- `while (archive.position() < end_position) fetch()` (zpp_bits.h:5140-5148); the first argument is
loop fuel. -/
def pbPacked (fetch : List Val → Nat → ResL) (endPos : Nat) : Nat → List Val → Nat → ResL
  | 0, vs, p => ⟨.hang, vs, p⟩
  | f + 1, vs, p =>
    if p < endPos then
      match fetch vs p with
      | ⟨.ok, vs', p'⟩ => pbPacked fetch endPos f vs' p'
      | r => r
    else ⟨.ok, vs, p⟩

/-- Whether `item.resize(1)` is valid (zpp_bits.h:5122). -/
def hasResize : Ty → Bool
  | .seq .vector _ _ => true
  | .seq .list _ _ => true
  | _ => false

/-- Whether `item.reserve(1)` is valid (zpp_bits.h:5136): vectors and hashed containers. -/
def hasReserve : Ty → Bool
  | .seq .vector _ _ => true
  | .assoc _ hashed _ _ _ => hashed
  | _ => false

/-- `unsized(item)` of a repeated member (zpp_bits.h:5134). -/
def unsizedTy : Ty → Ty
  | .seq k _ t => .seq k (some .none) t
  | t => t

/-- Packed or single elements of a repeated scalar member of type `t` (zpp_bits.h:5091-5149).
`elemTy` is the type read per element, `fix` whether it is fundamental or `std::byte`. -/
def pbDecPacked (c : Cfg) (rec : Ty → Val → Nat → Res) (t elemTy : Ty) (fix : Bool) (wt : Nat)
    (old : Val) (data : List UInt8) (p : Nat) : Res :=
  let fetch := pbFetch c t (rec elemTy .unit)
  if wt ≠ 2 then (fetch old.elems p).toRes
  else
    match decHdr c .varint data p with
    | (.ok, len, p1) =>
      if hasResize t && fix then
        if c.g.limit ≠ sizeMax ∧ c.g.limit < len then ⟨.err .messageSize, old, p1⟩
        else if c.g.maxMem < len / c.sizeof elemTy * c.sizeof elemTy then ⟨.badAlloc, old, p1⟩
        else rec (unsizedTy t) (.list (resizeVals old.elems (len / c.sizeof elemTy) (.num 0))) p1
      else if hasReserve t ∧ c.g.maxMem < len * c.sizeof elemTy then ⟨.badAlloc, old, p1⟩
      else (pbPacked fetch (wrap (len + p1)) (data.length + 1) old.elems p1).toRes
    | (s, _, p1) => ⟨s, old, p1⟩

/-- `deserialize_field(archive, field_type, item)` (zpp_bits.h:5026-5172) for a member of type `t`.
`fresh` is value initialization. -/
def pbDecField (c : Cfg) (rec : Ty → Val → Nat → Res) (fresh : Ty → Val) (t : Ty) (wt : Nat)
    (old : Val) (data : List UInt8) (p : Nat) : Res :=
  match pbInClass t with
  | .enumV n => getVarint n false old data p
  | .map key mapped =>
    let entry := pbEntry key mapped
    let r := pbFetch c t (rec entry (fresh entry)) old.elems p
    r.toRes
  | .packedFix elem => pbDecPacked c rec t elem true wt old data p
  | .packedVar n zz => pbDecPacked c rec t (.varint n zz) false wt old data p
  | .packedEnum n => pbDecPacked c rec t (.varint n false) false wt old data p
  | .repeated elem => (pbFetch c t (rec elem (fresh elem)) old.elems p).toRes
  | .single => rec t old p
  | .skip => ⟨.ok, old, p⟩

/-- `deserialize_field<Index>(archive, item, field_num, field_type)` (zpp_bits.h:4985-5024): the first
member with the field number is read; unknown numbers are ignored, number 0 is a protocol error.
`field t wt old p` reads one member. -/
def pbDispatch (field : Ty → Nat → Val → Nat → Res) (maps : List (Nat × Nat)) (num wt : Nat) :
    Nat → List (Option Nat) → List Ty → List Val → Nat → ResL
  | i, n :: nums, t :: ts, os, p =>
    if pbNumber maps n i = num then
      let r := field t wt (os.headD .unit) p
      ⟨r.s, r.v :: os.tail, r.p⟩
    else
      let r := pbDispatch field maps num wt (i + 1) nums ts os.tail p
      ⟨r.s, os.headD .unit :: r.vs, r.p⟩
  | _, _, _, os, p => if num = 0 then ⟨.err .protocolError, os, p⟩ else ⟨.ok, os, p⟩

/-- The field loop (zpp_bits.h:4969-4982); the first argument is loop fuel. -/
def pbLoop (field : Ty → Nat → Val → Nat → Res) (maps : List (Nat × Nat)) (nums : List (Option Nat))
    (fs : List Ty) (data : List UInt8) : Nat → List Val → Nat → ResL
  | 0, vs, p => ⟨.hang, vs, p⟩
  | f + 1, vs, p =>
    if p < data.length then
      match getVarint 4 false (.num 0) data p with
      | ⟨.ok, .num tag, p1⟩ =>
        match pbDispatch field maps (tag >>> 3) (tag &&& 7) 0 nums fs vs p1 with
        | ⟨.ok, vs', p2⟩ => pbLoop field maps nums fs data f vs' p2
        | r => r
      | ⟨.ok, _, p1⟩ => ⟨.illFormed, vs, p1⟩
      | ⟨s, _, p1⟩ => ⟨s, vs, p1⟩
    else ⟨.ok, vs, p⟩

/-- Containers among the members are cleared first (zpp_bits.h:4954-4967). (`unit` is the only object of
an empty class.) -/
def pbClear : List Ty → List Val → List Val
  | [], _ => []
  | t :: ts, os =>
    (match t with
      | .seq _ _ _ => .list []
      | .assoc _ _ _ _ _ => .list []
      | .empty => .unit
      | _ => os.headD .unit) :: pbClear ts os.tail

/-- The element part of a sequence container once its size is settled (zpp_bits.h:2785-2801, 2804-2847): one copy for
contiguous storage of byte-serializable elements, otherwise element by element. `rec` reads one element. -/
def seqBody (c : Cfg) (k : SeqKind) (t : Ty) (rec : Val → Nat → Res) (olds : List Val) (data : List UInt8)
    (p : Nat) : Res :=
  if k ≠ .list ∧ asBytes c t then (decRep c t olds.length olds data p).toRes
  else (decAll rec olds p).toRes

/-- A sequence container after its size prefix gave `n` (zpp_bits.h:2756-2847): views alias the input, spans
must be large enough and are shortened, containers are resized within the allocation limit. `dv` is the
value-initialized element. -/
def seqFill (c : Cfg) (k : SeqKind) (t : Ty) (rec : Val → Nat → Res) (dv old : Val) (data : List UInt8)
    (n p : Nat) : Res :=
  match k with
  | .view =>
    if subSz data.length p < n then ⟨.err .resultOutOfRange, old, p⟩
    else if p + n ≤ data.length then
      ⟨.ok, .list (unrepAll c.host c.sizeof t n ((data.drop p).take n)), p + n⟩
    else ⟨.ub, old, p⟩
  | .span =>
    if old.elems.length < n then ⟨.err .resultOutOfRange, old, p⟩
    else seqBody c .span t rec (old.elems.take n) data p
  | k =>
    if c.g.limit ≠ sizeMax ∧ c.g.limit / c.sizeof t < n then ⟨.err .messageSize, old, p⟩
    else if c.g.maxMem < n * c.sizeof t then ⟨.badAlloc, old, p⟩
    else seqBody c k t rec (resizeVals old.elems n dv) data p

/-- A sequence container without size prefix (zpp_bits.h:2804-2847): views alias the rest of the
input, other containers keep their size. -/
def seqUnsized (c : Cfg) (k : SeqKind) (t : Ty) (rec : Val → Nat → Res) (old : Val) (data : List UInt8)
    (p : Nat) : Res :=
  match k with
  | .view =>
    if data.length < p then ⟨.ub, old, p⟩
    else ⟨.ok, .list (unrepAll c.host c.sizeof t (data.length - p) (data.drop p)), data.length⟩
  | k => seqBody c k t rec old.elems data p

/-- The part of the input visible to the nested archive of a protocol message of `size` bytes
(zpp_bits.h:4936-4941: the size is clamped to what remains). -/
def msgSub (data : List UInt8) (p size : Nat) : List UInt8 := (data.drop p).take (min size (data.length - p))

/-- The protobuf reader on a message of `size` bytes at `p` (zpp_bits.h:4929-4983): a nested archive over the
message, members cleared, then the field loop. `rec t v sub q` reads an object from the nested archive. -/
def msgRun (c' : Cfg) (rec : Ty → Val → List UInt8 → Nat → Res) (fresh : Ty → Val) (maps : List (Nat × Nat))
    (nums : List (Option Nat)) (fs : List Ty) (old : Val) (data : List UInt8) (size p : Nat) : Res :=
  if data.length < p then ⟨.ub, old, p⟩
  else
    let sub := msgSub data p size
    let r := pbLoop (fun t wt v q => pbDecField c' (fun t v q => rec t v sub q) fresh t wt v sub q)
      maps nums fs sub (sub.length + 1) (pbClear fs old.elems) 0
    ⟨r.s, .list r.vs, p + r.p⟩

/-- `serialize_one(item)` of an input archive for a destination `old` of type `t`; the first argument
is the remaining stack depth (zpp_bits.h:2601-3122; optional_ptr 1492-1515; protobuf 4929-4983). -/
def decode : Nat → Cfg → Ty → Val → List UInt8 → Nat → Res
  | 0, _, _, old, _, p => ⟨.stack, old, p⟩
  | d + 1, c, t, old, data, p =>
    match t with
    | .scalar _ n =>
      match getBytes data p n with
      | (.ok, bs, p') => ⟨.ok, .num (ioNat c bs), p'⟩
      | (s, _, p') => ⟨s, old, p'⟩
    | .bool =>
      match getBytes data p 1 with
      | (.ok, bs, p') => ⟨.ok, .num (leNat bs), p'⟩
      | (s, _, p') => ⟨s, old, p'⟩
    | .varint n zz => getVarint n zz old data p
    | .empty => ⟨.ok, .unit, p⟩
    | .struct ok fs =>
      if asBytes c (.struct ok fs) then
        let r := decRep c (.struct ok fs) 1 [old] data p
        ⟨r.s, r.vs.headD .unit, r.p⟩
      else (decFields (fun t v p => decode d c t v data p) fs old.elems p).toRes
    | .array n t' =>
      let olds := resizeVals old.elems n .unit
      if asBytes c t' then (decRep c t' n olds data p).toRes
      else (decAll (fun v p => decode d c t' v data p) olds p).toRes
    | .seq k sz t' =>
      match effSz c sz with
      | .none => seqUnsized c k t' (fun v p => decode d c t' v data p) old data p
      | s =>
        match decHdr c s data p with
        | (.ok, n, p1) => seqFill c k t' (fun v p => decode d c t' v data p) (dflt c d t') old data n p1
        | (s', _, p1) => ⟨s', old, p1⟩
    | .assoc multi hashed sz key mapped =>
      match decHdr c (effSz c sz) data p with
      | (.ok, n, p1) =>
        let elem (p : Nat) : Res :=
          match mapped with
          | none => decode d c key (dflt c d key) data p
          | some m =>
            (decFields (fun t v p => decode d c t v data p) [key, m] [dflt c d key, dflt c d m] p).toRes
        (decAssoc elem (assocInsert (c.keyLt key) multi hashed mapped.isSome) n [] p1).toRes
      | (s, _, p1) => ⟨s, old, p1⟩
    | .optional dc t' =>
      match getBytes data p 1 with
      | (.ok, bs, p1) =>
        if leNat bs = 0 then ⟨.ok, .none, p1⟩
        else if dc then
          let cur := match old with
            | .some v => v
            | _ => dflt c d t'
          let r := decode d c t' cur data p1
          ⟨r.s, .some r.v, r.p⟩
        else
          match decode d c t' (dflt c d t') data p1 with
          | ⟨.ok, v, p2⟩ => ⟨.ok, .some v, p2⟩
          | ⟨s, _, p2⟩ => ⟨s, old, p2⟩
      | (s, _, p1) => ⟨s, old, p1⟩
    | .optPtr t' =>
      match getBytes data p 1 with
      | (.ok, bs, p1) =>
        if leNat bs = 0 then ⟨.ok, .none, p1⟩
        else
          match decode d c t' (dflt c d t') data p1 with
          | ⟨.ok, v, p2⟩ => ⟨.ok, .some v, p2⟩
          | ⟨s, _, p2⟩ => ⟨s, old, p2⟩
      | (s, _, p1) => ⟨s, old, p1⟩
    | .uptr t' =>
      match decode d c t' (dflt c d t') data p with
      | ⟨.ok, v, p1⟩ => ⟨.ok, .some v, p1⟩
      | ⟨s, _, p1⟩ => ⟨s, old, p1⟩
    | .variant idTy ids dcs alts =>
      match decode d c idTy (dflt c d idTy) data p with
      | ⟨.ok, id, p1⟩ =>
        match findId id ids 0 with
        | none => ⟨.err .badMessage, old, p1⟩
        | some i =>
          match alts[i]?, dcs[i]? with
          | some t', some dc =>
            decAlt (fun v p => decode d c t' v data p) dc i (dflt c d t') old p1
          | _, _ => ⟨.illFormed, old, p1⟩
      | ⟨s, _, p1⟩ => ⟨s, old, p1⟩
    | .bitset n =>
      match getBytes data p ((n + 7) / 8) with
      | (.ok, bs, p') => ⟨.ok, .bits (readBits n bs), p'⟩
      | (s, _, p') => ⟨s, old, p'⟩
    | .msg sz _ maps nums fs =>
      match effSz c sz with
      | .none => msgRun (pbCfg c) (decode d (pbCfg c)) (dflt (pbCfg c) d) maps nums fs old data sizeMax p
      | s =>
        match decHdr c s data p with
        | (.ok, n, p1) => msgRun (pbCfg c) (decode d (pbCfg c)) (dflt (pbCfg c) d) maps nums fs old data n p1
        | (s', _, p1) => ⟨s', old, p1⟩
    | .ref i => decode d c (c.env i) old data p

/-- `in::operator()(items...)` (zpp_bits.h:2532-2535, 2585-2599): destinations are given with their
previous objects. -/
def decMany (d : Nat) (c : Cfg) (data : List UInt8) : List (Ty × Val) → Nat → ResL
  | [], p => ⟨.ok, [], p⟩
  | (t, o) :: rest, p =>
    match decode d c t o data p with
    | ⟨.ok, v, p'⟩ => let r := decMany d c data rest p'; ⟨r.s, v :: r.vs, r.p⟩
    | ⟨s, v, p'⟩ => ⟨s, v :: rest.map Prod.snd, p'⟩

end Zpp
