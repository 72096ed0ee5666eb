import Verif.Model.In
/-!
# Where the views in objects point to

`Model/In` compares views by the bytes they show. Here a view is what it is in C++, a place in memory, and the reader is
modelled again with such objects.
-/

namespace Zpp

/-- The bytes of a view: `len` bytes from byte `off` of the buffer `buf` on (`container = {m_data.data() + m_position, size}`,
zpp_bits.h:2776, 2828, 2832). -/
structure Place where
  buf : Nat
  off : Nat
  len : Nat
deriving DecidableEq, Repr, Inhabited

/-- The buffers of a program, by number, with their bytes. -/
abbrev Memory := Nat → List UInt8

/-- The bytes at a place. -/
def Memory.bytes (m : Memory) (pl : Place) : List UInt8 := ((m pl.buf).drop pl.off).take pl.len

/-- Objects, as `Val`; `view` is a `string_view` or a span of const bytes. -/
inductive LVal
  | num (x : Nat)
  | unit
  | list (vs : List LVal)
  | none
  | some (v : LVal)
  | alt (i : Nat) (v : LVal)
  | valueless
  | bits (bs : List Bool)
  | view (pl : Place)
deriving Repr, Inhabited

mutual
/-- What an object looks like while the memory is `m`: views show the bytes at their place. -/
def LVal.look (m : Memory) : LVal → Val
  | .num x => .num x
  | .unit => .unit
  | .list vs => .list (LVal.lookAll m vs)
  | .none => .none
  | .some v => .some (v.look m)
  | .alt i v => .alt i (v.look m)
  | .valueless => .valueless
  | .bits bs => .bits bs
  | .view pl => .list ((m.bytes pl).map fun b => .num b.toNat)
/-- The same for lists of objects. -/
def LVal.lookAll (m : Memory) : List LVal → List Val
  | [] => []
  | v :: vs => v.look m :: LVal.lookAll m vs
end

mutual
/-- An object that owns all it consists of. -/
def Val.owned : Val → LVal
  | .num x => .num x
  | .unit => .unit
  | .list vs => .list (Val.ownedAll vs)
  | .none => .none
  | .some v => .some v.owned
  | .alt i v => .alt i v.owned
  | .valueless => .valueless
  | .bits bs => .bits bs
/-- The same for lists of objects. -/
def Val.ownedAll : List Val → List LVal
  | [] => []
  | v :: vs => v.owned :: Val.ownedAll vs
end

/-- Result of reading an object. -/
structure LRes where
  s : Status
  v : LVal
  p : Nat
deriving Inhabited

/-- Result of reading a list of objects. -/
structure LResL where
  s : Status
  vs : List LVal
  p : Nat
deriving Inhabited

/-- Wrap a list result as an object. -/
def LResL.toRes (r : LResL) : LRes := ⟨r.s, .list r.vs, r.p⟩

/-- A result without views. -/
def Res.owned (r : Res) : LRes := ⟨r.s, r.v.owned, r.p⟩

/-- The elements of a container. (A view is never read as a container of another kind.) -/
def LVal.elems (m : Memory) : LVal → List LVal
  | .list vs => vs
  | .view pl => (m.bytes pl).map fun b => .num b.toNat
  | _ => []

/-- Elements one by one into existing objects (`decAll`; zpp_bits.h:2715-2721, 2841-2847). -/
def decAllL (rec : LVal → Nat → LRes) : List LVal → Nat → LResL
  | [], p => ⟨.ok, [], p⟩
  | o :: os, p =>
    match rec o p with
    | ⟨.ok, v, p'⟩ => let r := decAllL rec os p'; ⟨r.s, v :: r.vs, r.p⟩
    | ⟨s, v, p'⟩ => ⟨s, v :: os, p'⟩

/-- Members one by one (`decFields`; zpp_bits.h:2585-2599, 2906-2919). -/
def decFieldsL (rec : Ty → LVal → Nat → LRes) : List Ty → List LVal → Nat → LResL
  | [], _, p => ⟨.ok, [], p⟩
  | t :: ts, os, p =>
    match rec t (os.headD .unit) p with
    | ⟨.ok, v, p'⟩ => let r := decFieldsL rec ts os.tail p'; ⟨r.s, v :: r.vs, r.p⟩
    | ⟨s, v, p'⟩ => ⟨s, v :: os.tail, p'⟩

/-- `container.resize(n)` (`resizeVals`; zpp_bits.h:2767). -/
def resizeL (vs : List LVal) (n : Nat) (dv : LVal) : List LVal := vs.take n ++ List.replicate (n - vs.length) dv

/-- Insertion into an ordered container (`insertSorted`); `key` is what the key of an element looks like. -/
def insertSortedL (lt : Val → Val → Bool) (key : LVal → Val) (e : LVal) : List LVal → List LVal
  | [] => [e]
  | x :: xs => if lt (key e) (key x) then e :: x :: xs else x :: insertSortedL lt key e xs

/-- `container.insert(element)` (`assocInsert`; zpp_bits.h:2885, 2899). -/
def assocInsertL (lt : Val → Val → Bool) (multi hashed : Bool) (key : LVal → Val) (e : LVal) (vs : List LVal) : List LVal :=
  if hashed then
    if multi || vs.all (fun x => decide (key x ≠ key e)) then vs ++ [e] else vs
  else if multi || vs.all (fun x => lt (key x) (key e) || lt (key e) (key x)) then insertSortedL lt key e vs
  else vs

/-- The element loop of associative containers (`decAssoc`; zpp_bits.h:2870-2901). -/
def decAssocL (elem : Nat → LRes) (ins : LVal → List LVal → List LVal) : Nat → List LVal → Nat → LResL
  | 0, vs, p => ⟨.ok, vs, p⟩
  | n + 1, vs, p =>
    match elem p with
    | ⟨.ok, v, p'⟩ => decAssocL elem ins n (ins v vs) p'
    | ⟨s, _, p'⟩ => ⟨s, vs, p'⟩

/-- Reading the selected alternative (`decAlt`; zpp_bits.h:3025-3056). -/
def decAltL (rec : LVal → Nat → LRes) (dc : Bool) (i : Nat) (dv old : LVal) (p : Nat) : LRes :=
  if dc then
    let cur := match old with
      | .alt j v => if j = i then v else dv
      | _ => dv
    let r := rec cur p
    ⟨r.s, .alt i r.v, r.p⟩
  else
    match rec dv p with
    | ⟨.ok, v, p'⟩ => ⟨.ok, .alt i v, p'⟩
    | ⟨s, _, p'⟩ => ⟨s, old, p'⟩

/-- Reading into a new object, which is then moved to its place (zpp_bits.h:2938-2948, 2985-2995, 3062-3072). -/
def decNewL (old : LVal) : LRes → LRes
  | ⟨.ok, v, p⟩ => ⟨.ok, .some v, p⟩
  | ⟨s, _, p⟩ => ⟨s, old, p⟩

/-- Element types of views (zpp_bits.h:2769-2772); views of other elements do not compile. -/
def isViewElem : Ty → Bool
  | .scalar .byte 1 => true
  | .scalar .chr 1 => true
  | _ => false

/-- The element part of a sequence container (`seqBody`; zpp_bits.h:2785-2801, 2804-2847); elements copied as bytes
contain no views. -/
def seqBodyL (c : Cfg) (m : Memory) (b : Nat) (k : SeqKind) (t : Ty) (rec : LVal → Nat → LRes) (olds : List LVal) (p : Nat) :
    LRes :=
  if k ≠ .list ∧ asBytes c t then (decRep c t olds.length (LVal.lookAll m olds) (m b) p).toRes.owned
  else (decAllL rec olds p).toRes

/-- A sequence container after its size prefix gave `n` (`seqFill`; zpp_bits.h:2756-2847): a view is pointed at the next `n` bytes
of the input. -/
def seqFillL (c : Cfg) (m : Memory) (b : Nat) (k : SeqKind) (t : Ty) (rec : LVal → Nat → LRes) (dv old : LVal) (n p : Nat) :
    LRes :=
  match k with
  | .view =>
    if subSz (m b).length p < n then ⟨.err .resultOutOfRange, old, p⟩
    else if p + n ≤ (m b).length then ⟨.ok, .view ⟨b, p, n⟩, p + n⟩
    else ⟨.ub, old, p⟩
  | .span =>
    if (old.elems m).length < n then ⟨.err .resultOutOfRange, old, p⟩
    else seqBodyL c m b .span t rec ((old.elems m).take n) p
  | k =>
    if c.g.limit ≠ sizeMax ∧ c.g.limit / c.sizeof t < n then ⟨.err .messageSize, old, p⟩
    else if c.g.maxMem < n * c.sizeof t then ⟨.badAlloc, old, p⟩
    else seqBodyL c m b k t rec (resizeL (old.elems m) n dv) p

/-- A sequence container without size prefix (`seqUnsized`; zpp_bits.h:2804-2847): a view is pointed at the rest of the input. -/
def seqUnsizedL (c : Cfg) (m : Memory) (b : Nat) (k : SeqKind) (t : Ty) (rec : LVal → Nat → LRes) (old : LVal) (p : Nat) :
    LRes :=
  match k with
  | .view =>
    if (m b).length < p then ⟨.ub, old, p⟩
    else ⟨.ok, .view ⟨b, p, (m b).length - p⟩, (m b).length⟩
  | k => seqBodyL c m b k t rec (old.elems m) p

/-- `serialize_one(item)` of an input archive over the buffer `b`, as `decode` (zpp_bits.h:2601-3122), for objects whose views have
places. Objects without views (numbers, bitsets, and what is copied as bytes) and protobuf messages are read as by `decode`.
Simplified: messages are taken to own what they consist of (members that are views do not compile, zpp_bits.h:4584-4622, but C
arrays of views do). -/
def decodeL : Nat → Cfg → Memory → Nat → Ty → LVal → Nat → LRes
  | 0, _, _, _, _, old, p => ⟨.stack, old, p⟩
  | d + 1, c, m, b, t, old, p =>
    match t with
    | .struct ok fs =>
      if asBytes c (.struct ok fs) then (decode (d + 1) c (.struct ok fs) (old.look m) (m b) p).owned
      else (decFieldsL (fun t v p => decodeL d c m b t v p) fs (old.elems m) p).toRes
    | .array n t' =>
      if asBytes c t' then (decode (d + 1) c (.array n t') (old.look m) (m b) p).owned
      else (decAllL (fun v p => decodeL d c m b t' v p) (resizeL (old.elems m) n .unit) p).toRes
    | .seq k sz t' =>
      if k = .view ∧ isViewElem t' = false then (decode (d + 1) c (.seq k sz t') (old.look m) (m b) p).owned else
      match effSz c sz with
      | .none => seqUnsizedL c m b k t' (fun v p => decodeL d c m b t' v p) old p
      | s =>
        match decHdr c s (m b) p with
        | (.ok, n, p1) => seqFillL c m b k t' (fun v p => decodeL d c m b t' v p) (dflt c d t').owned old n p1
        | (s', _, p1) => ⟨s', old, p1⟩
    | .assoc multi hashed sz key mapped =>
      match decHdr c (effSz c sz) (m b) p with
      | (.ok, n, p1) =>
        let elem (p : Nat) : LRes :=
          match mapped with
          | none => decodeL d c m b key (dflt c d key).owned p
          | some t' =>
            (decFieldsL (fun t v p => decodeL d c m b t v p) [key, t'] [(dflt c d key).owned, (dflt c d t').owned] p).toRes
        (decAssocL elem (assocInsertL (c.keyLt key) multi hashed (fun e => assocKey mapped.isSome (e.look m))) n [] p1).toRes
      | (s, _, p1) => ⟨s, old, p1⟩
    | .optional dc t' =>
      match getBytes (m b) p 1 with
      | (.ok, bs, p1) =>
        if leNat bs = 0 then ⟨.ok, .none, p1⟩
        else if dc then
          let cur := match old with
            | .some v => v
            | _ => (dflt c d t').owned
          let r := decodeL d c m b t' cur p1
          ⟨r.s, .some r.v, r.p⟩
        else decNewL old (decodeL d c m b t' (dflt c d t').owned p1)
      | (s, _, p1) => ⟨s, old, p1⟩
    | .optPtr t' =>
      match getBytes (m b) p 1 with
      | (.ok, bs, p1) =>
        if leNat bs = 0 then ⟨.ok, .none, p1⟩
        else decNewL old (decodeL d c m b t' (dflt c d t').owned p1)
      | (s, _, p1) => ⟨s, old, p1⟩
    | .uptr t' => decNewL old (decodeL d c m b t' (dflt c d t').owned p)
    | .variant idTy ids dcs alts =>
      match decode d c idTy (dflt c d idTy) (m b) p with
      | ⟨.ok, id, p1⟩ =>
        match findId id ids 0 with
        | none => ⟨.err .badMessage, old, p1⟩
        | some i =>
          match alts[i]?, dcs[i]? with
          | some t', some dc => decAltL (fun v p => decodeL d c m b t' v p) dc i (dflt c d t').owned old p1
          | _, _ => ⟨.illFormed, old, p1⟩
      | ⟨s, _, p1⟩ => ⟨s, old, p1⟩
    | .ref i => decodeL d c m b (c.env i) old p
    | t => (decode (d + 1) c t (old.look m) (m b) p).owned

/-- `in(items...)` over the buffer `b` (`decMany`; zpp_bits.h:2532-2535, 2585-2599). -/
def decManyL (d : Nat) (c : Cfg) (m : Memory) (b : Nat) : List (Ty × LVal) → Nat → LResL
  | [], p => ⟨.ok, [], p⟩
  | (t, o) :: rest, p =>
    match decodeL d c m b t o p with
    | ⟨.ok, v, p'⟩ => let r := decManyL d c m b rest p'; ⟨r.s, v :: r.vs, r.p⟩
    | ⟨s, v, p'⟩ => ⟨s, v :: rest.map Prod.snd, p'⟩

end Zpp
