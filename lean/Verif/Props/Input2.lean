import Verif.Proof.InSeq
import Verif.Proof.OutCall
import Verif.Checks
/-!
# Properties of input archives: limits, pointers, variants, byte copies, views and spans
-/

namespace Zpp.Props
open Zpp Zpp.Spec

/-! ## The byte-copy optimization -/

/-- C25, input of classes: reading an object of a class, by whatever path the library chooses (one `memcpy` if the
class is trivially copyable without padding), gives the same outcome as reading its members one after the other, and
on success the same position and the same members. -/
theorem C25_struct_in_partial (d : Nat) (c : Cfg) (data : List UInt8) (ok : Bool) (fs : List Ty) (os : List Val) (p : Nat)
    (habi : AbiOk c.sizeof) (hg : Good c (.struct ok fs) = true) (hn : fs.length = os.length) (hp : p ≤ data.length) :
    let r := decode (d + 2) c (.struct ok fs) (.list os) data p
    let r' := decMany (d + 1) c data (fs.zip os) p
    r.s = r'.s ∧ (r.s = .ok → r.p = r'.p ∧ r.v = .list r'.vs) := by
  dsimp only
  by_cases hb : asBytes c (.struct ok fs) = true
  · have hpl : plain (.struct ok fs) = true := by
      simp only [Good, nodeOk, Bool.and_eq_true] at hg
      exact plain_of_copyOk hb hg.1
    have hgl : GoodL c fs = true := by
      simp only [Good, Bool.and_eq_true] at hg
      exact hg.2
    have hser := hb
    simp only [asBytes, Ty.endianIndep, Bool.false_or, Ty.byteSer, Bool.and_eq_true, Bool.not_eq_true', beq_iff_eq] at hser
    obtain ⟨haw, ⟨⟨⟨_, hne⟩, hall⟩, hsum⟩, _⟩ := hser
    have hmem : ∀ x ∈ fs.zip os, asBytes c x.1 = true ∧ plain x.1 = true ∧ Good c x.1 = true := by
      intro x hx
      have hx1 : x.1 ∈ fs := (List.of_mem_zip (a := x.1) (b := x.2) hx).1
      refine ⟨?_, ?_, GoodL_mem hgl _ hx1⟩
      · simp only [asBytes, haw, Bool.not_false, Bool.true_and, Bool.or_eq_true]
        exact Or.inr (byteSerAll_mem hall _ hx1)
      · simp only [plain] at hpl
        exact plainAll_mem hpl _ hx1
    have h1 := decode_takes (d := d + 1) habi (data := data) hb hpl hg (.list os) p hp
    have h2 := decMany_takes (d := d) habi (data := data) (fs.zip os) hmem p hp
    have hfst : (fs.zip os).map Prod.fst = fs := List.map_fst_zip (Nat.le_of_eq hn)
    have hsz : ((fs.zip os).map fun x => c.sizeof x.1).sum = c.sizeof (.struct ok fs) := by
      have e : ((fs.zip os).map fun x => c.sizeof x.1) = ((fs.zip os).map Prod.fst).map c.sizeof := by
        rw [List.map_map]; rfl
      rw [e, hfst, hsum]
    rw [hfst, hsz] at h2
    by_cases hf : p + c.sizeof (.struct ok fs) ≤ data.length
    · rw [h1.1 hf, h2.1 hf]
      exact ⟨rfl, fun _ => ⟨rfl, by simp only [unrep]⟩⟩
    · have e1 := h1.2 (by omega)
      have e2 := h2.2 (by omega)
      exact ⟨by rw [e1, e2], fun h => by rw [e1] at h; cases h⟩
  · rw [decode, if_neg hb]
    simp only [Val.elems]
    rw [decFields_decMany (fun _ _ _ => rfl) _ _ _ hn]
    exact ⟨rfl, fun _ => ⟨rfl, rfl⟩⟩

-- A padding-free struct of a 4-byte and two 2-byte numbers is copied in one piece.
example :
    let c := Checks.le Checks.grow (.fixed 1)
    let t : Ty := .struct true [.scalar .int 4, .array 2 (.scalar .int 2)]
    asBytes c t = true ∧ Good c t = true ∧
      decode 9 c t (.list [.num 0, .list [.num 0, .num 0]]) [7, 1, 0, 0, 0, 2, 0, 3, 1, 9] 1 =
        ⟨.ok, .list [.num 1, .list [.num 2, .num 259]], 9⟩ ∧
      decMany 8 c [7, 1, 0, 0, 0, 2, 0, 3, 1, 9] [(.scalar .int 4, .num 0), (.array 2 (.scalar .int 2), .list [.num 0, .num 0])] 1 =
        ⟨.ok, [.num 1, .list [.num 2, .num 259]], 9⟩ := by decide +kernel

/-- C25, input of arrays: an array is read, by whatever path, as its elements one after the other. -/
theorem C25_array_in_partial (d : Nat) (c : Cfg) (data : List UInt8) (n : Nat) (t : Ty) (os : List Val) (p : Nat)
    (habi : AbiOk c.sizeof) (hg : Good c (.array n t) = true) (hn : os.length = n) (hp : p ≤ data.length) :
    let r := decode (d + 2) c (.array n t) (.list os) data p
    let r' := decMany (d + 1) c data (os.map fun o => (t, o)) p
    r.s = r'.s ∧ (r.s = .ok → r.p = r'.p ∧ r.v = .list r'.vs) := by
  dsimp only
  simp only [Good, nodeOk, Bool.and_eq_true, decide_eq_true_eq] at hg
  obtain ⟨⟨hpos, hcp⟩, hg⟩ := hg
  have hres : resizeVals os n .unit = os := by subst hn; simp [resizeVals]
  by_cases hb : asBytes c t = true
  · have hpl : plain t = true := plain_of_copyOk hb (by simpa using hcp)
    have h1 := decRep_takes (c := c) (t := t) (n := n) (olds := os) (data := data) hpos (habi.pos t)
    have h2 := decAll_takes (data := data) (fun o => decode_takes (d := d) habi (data := data) hb hpl hg o) os
    rw [hn] at h2
    have h := TakesL.same h1 h2 (fun _ => rfl) hp
    rw [decode, if_pos hb]
    simp only [Val.elems, hres, ResL.toRes]
    rw [← decAll_decMany (rec := fun o => decode (d + 1) c t o data) (fun _ _ => rfl)]
    exact ⟨h.1, fun hok => by rw [h.2 hok]; exact ⟨rfl, rfl⟩⟩
  · rw [decode, if_neg hb]
    simp only [Val.elems, hres]
    rw [decAll_decMany (t := t) (fun _ _ => rfl)]
    exact ⟨rfl, fun _ => ⟨rfl, rfl⟩⟩

/-- C25, input of containers: contiguous containers (one `memcpy` for byte-serializable elements) and element by
element containers read the same bytes with the same outcome, and on success the same position and elements. -/
theorem C25_seq_in_partial (d : Nat) (c : Cfg) (data : List UInt8) (sz : Option SizeTy) (t : Ty) (old : Val) (p : Nat)
    (habi : AbiOk c.sizeof) (hg : Good c (.seq .vector sz t) = true) (hp : p ≤ data.length) :
    let r := decode (d + 2) c (.seq .vector sz t) old data p
    let r' := decode (d + 2) c (.seq .list sz t) old data p
    r.s = r'.s ∧ (r.s = .ok → r = r') := by
  dsimp only
  simp only [Good, nodeOk, Bool.and_eq_true] at hg
  obtain ⟨⟨hcp, _⟩, hg⟩ := hg
  have body : ∀ os q, q ≤ data.length →
      let r := seqBody c .vector t (fun v p => decode (d + 1) c t v data p) os data q
      let r' := seqBody c .list t (fun v p => decode (d + 1) c t v data p) os data q
      r.s = r'.s ∧ (r.s = .ok → r = r') := by
    intro os q hq
    dsimp only
    unfold seqBody
    by_cases hb : asBytes c t = true
    · have hpl : plain t = true := plain_of_copyOk hb (by simpa using hcp)
      rw [if_pos ⟨by simp, hb⟩, if_neg (by simp)]
      cases os with
      | nil => simp [decRep, decAll, ResL.toRes]
      | cons o os =>
        have h1 := decRep_takes (c := c) (t := t) (n := (o :: os).length) (olds := o :: os) (data := data) (by simp) (habi.pos t)
        have h2 := decAll_takes (data := data) (fun o => decode_takes (d := d) habi (data := data) hb hpl hg o) (o :: os)
        have h := TakesL.same h1 h2 (fun _ => rfl) hq
        simp only [ResL.toRes]
        exact ⟨h.1, fun hok => by rw [h.2 hok]⟩
    · rw [if_neg (by simp [hb]), if_neg (by simp)]
      exact ⟨rfl, fun _ => rfl⟩
  rw [decode, decode]
  have hdr : ∀ s, (decHdr c s data p).1 = .ok → (decHdr c s data p).2.2 ≤ data.length := by
    intro s _
    exact (decHdr_safe s hp).inb
  generalize effSz c sz = s
  cases s with
  | none => exact body _ p hp
  | fixed k =>
    simp only
    have hdr := hdr (.fixed k)
    generalize decHdr c (.fixed k) data p = r at hdr
    obtain ⟨s, n, p1⟩ := r
    cases s <;> simp only [true_and, implies_true, and_self]
    simp only [seqFill]
    split
    · exact ⟨rfl, fun _ => rfl⟩
    · split
      · exact ⟨rfl, fun _ => rfl⟩
      · exact body _ p1 (hdr rfl)
  | varint =>
    simp only
    have hdr := hdr .varint
    generalize decHdr c .varint data p = r at hdr
    obtain ⟨s, n, p1⟩ := r
    cases s <;> simp only [true_and, implies_true, and_self]
    simp only [seqFill]
    split
    · exact ⟨rfl, fun _ => rfl⟩
    · split
      · exact ⟨rfl, fun _ => rfl⟩
      · exact body _ p1 (hdr rfl)

/-! ## Allocation limit -/

/-- C16, announced sizes. If a container's size prefix, read as the integer it is, gives `n`, and `n` elements exceed
the allocation limit, reading the container fails with `message_size`; the container was not touched (in particular
not resized) and the position is behind the prefix. -/
theorem C16_announced (d : Nat) (c : Cfg) (data : List UInt8) (k : SeqKind) (sz : Option SizeTy) (t : Ty) (old o : Val)
    (p n p1 : Nat) (hk : k = .vector ∨ k = .list) (hsz : sz.getD c.dsz ≠ .none)
    (hn : decode 1 c (sizeInt (sz.getD c.dsz)) o data p = ⟨.ok, .num n, p1⟩)
    (hlim : c.g.limit ≠ sizeMax) (hex : c.g.limit / c.sizeof t < n) :
    decode (d + 1) c (.seq k sz t) old data p = ⟨.err .messageSize, old, p1⟩ := by
  rw [decode_seq_int hsz hn]
  unfold seqFill
  rcases hk with rfl | rfl <;> simp only <;> rw [if_pos ⟨hlim, hex⟩]

/-- `alloc_limit<8>`. -/
def limit8 : Cfg := Checks.le { Checks.grow with limit := 8 } (.fixed 1)

-- Three 4-byte elements announced with alloc_limit<8>; two are read.
example : decode 1 limit8 (sizeInt (.fixed 1)) .unit [3, 1, 0, 0, 0, 2, 0, 0, 0, 3, 0, 0, 0] 0 = ⟨.ok, .num 3, 1⟩ ∧
    decode 9 limit8 (.seq .vector none Checks.i32) (.list [.num 5]) [3, 1, 0, 0, 0, 2, 0, 0, 0, 3, 0, 0, 0] 0 =
      ⟨.err .messageSize, .list [.num 5], 1⟩ ∧
    decode 9 limit8 (.seq .vector none Checks.i32) (.list [.num 5]) [2, 1, 0, 0, 0, 2, 0, 0, 0] 0 =
      ⟨.ok, .list [.num 1, .num 2], 9⟩ := by decide +kernel

/-- C16, weaker than stated. With an allocation limit, no read, whatever its outcome and whatever the bytes, makes any
sequence container in the destinations, at any depth, larger than the limit. Missing: containers inside protobuf
messages (`Exceeds` does not look into messages), for which it fails (`C16_packed_unlimited`). -/
theorem C16_limit_kept_partial (d : Nat) (c : Cfg) (data : List UInt8) (items : List (Ty × Val)) (p : Nat)
    (hlim : c.g.limit ≠ sizeMax) (hold : ∀ it ∈ items, ¬ Exceeds c c.g.limit it.1 it.2) :
    ∀ (i : Nat) (t : Ty) (o v : Val), items[i]? = some (t, o) → (decMany d c data items p).vs[i]? = some v →
      ¬ Exceeds c c.g.limit t v := by
  intro i t o v hi hv
  have ho : ¬ Exceeds c c.g.limit t o := hold (t, o) (List.mem_of_getElem? hi)
  rcases decMany_get items p i t o v hi hv with rfl | ⟨q, rfl⟩
  · exact ho
  · exact decode_limit rfl hlim d t o data q ho

/-- C16 fails inside protobuf messages: five packed varints are stored in a vector of 20 bytes in spite of
`alloc_limit<8>`. -/
theorem C16_packed_unlimited :
    decode 9 limit8 (.msg (some .none) false [] [none] [.seq .vector none Checks.vint32]) (.list [.list []])
      [0x0a, 5, 1, 2, 3, 4, 5] 0 = ⟨.ok, .list [.list [.num 1, .num 2, .num 3, .num 4, .num 5]], 7⟩ ∧
    Exceeds limit8 8 (.seq .vector none Checks.vint32) (.list [.num 1, .num 2, .num 3, .num 4, .num 5]) :=
  ⟨by decide +kernel, .here (Or.inl rfl) (by decide +kernel)⟩

/-! ## Owning pointers -/

/-- C17. If reading an owning pointer fails, for whatever reason, it still owns its previous object unmodified; if it
succeeds it owns a completely read new object (or is empty, for `optional_ptr`). -/
theorem C17_pointer (d : Nat) (c : Cfg) (data : List UInt8) (t pt : Ty) (old : Val) (p : Nat)
    (hpt : pt = .uptr t ∨ pt = .optPtr t) :
    let r := decode d c pt old data p
    (r.s ≠ .ok → r.v = old) ∧
    (r.s = .ok → (pt = .optPtr t ∧ r.v = .none) ∨
      ∃ v d' fresh q, r.v = .some v ∧ decode d' c t fresh data q = ⟨.ok, v, r.p⟩) := by
  cases d with
  | zero => exact ⟨fun _ => rfl, fun h => by cases h⟩
  | succ d =>
    rcases hpt with rfl | rfl
    · rw [decode]
      generalize hr : decode d c t (dflt c d t) data p = r
      obtain ⟨s, v, p'⟩ := r
      cases s <;> simp
      exact ⟨d, _, p, hr⟩
    · rw [decode]
      generalize getBytes data p 1 = b
      obtain ⟨s, bs, p1⟩ := b
      cases s <;> simp only [ne_eq, not_true_eq_false, false_implies, true_and, reduceCtorEq, not_false_eq_true,
        and_self, implies_true]
      split
      · simp
      · generalize hr : decode d c t (dflt c d t) data p1 = r
        obtain ⟨s, v, p'⟩ := r
        cases s <;> simp
        exact ⟨d, _, p1, hr⟩

/-- C17, pointers among the destinations of a call and the members of a class: whatever the outcome of the whole call,
each pointer still owns its previous object unmodified, or is empty (`optional_ptr`), or owns a completely read new
object: never a partially read one. -/
theorem C17_call (d : Nat) (c : Cfg) (data : List UInt8) (items : List (Ty × Val)) (p i : Nat) (t pt : Ty) (old v : Val)
    (hpt : pt = .uptr t ∨ pt = .optPtr t) (hi : items[i]? = some (pt, old))
    (hv : (decMany d c data items p).vs[i]? = some v) :
    v = old ∨ (pt = .optPtr t ∧ v = .none) ∨ ∃ w d' fresh q q', v = .some w ∧ decode d' c t fresh data q = ⟨.ok, w, q'⟩ := by
  rcases decMany_get items p i pt old v hi hv with rfl | ⟨q, rfl⟩
  · exact Or.inl rfl
  · have h := C17_pointer d c data t pt old q hpt
    dsimp only at h
    by_cases hs : (decode d c pt old data q).s = .ok
    · rcases h.2 hs with h | ⟨w, d', fresh, q', h1, h2⟩
      · exact Or.inr (Or.inl h)
      · exact Or.inr (Or.inr ⟨w, d', fresh, q', _, h1, h2⟩)
    · exact Or.inl (h.1 hs)

/-- C17, members: the same for pointers that are members of a class. -/
theorem C17_member (d : Nat) (c : Cfg) (data : List UInt8) (ok : Bool) (fs : List Ty) (os vs : List Val) (p i : Nat)
    (t pt : Ty) (old v : Val) (hpt : pt = .uptr t ∨ pt = .optPtr t) (hi : fs[i]? = some pt) (ho : os[i]? = some old)
    (hn : fs.length = os.length) (hr : (decode (d + 1) c (.struct ok fs) (.list os) data p).v = .list vs) (hv : vs[i]? = some v) :
    v = old ∨ (pt = .optPtr t ∧ v = .none) ∨ ∃ w d' fresh q q', v = .some w ∧ decode d' c t fresh data q = ⟨.ok, w, q'⟩ := by
  have hnb : asBytes c (.struct ok fs) = false := by
    have hall : Ty.byteSerAll c.sizeof fs = false := by
      cases h : Ty.byteSerAll c.sizeof fs with
      | false => rfl
      | true =>
        have := byteSerAll_mem h pt (List.mem_of_getElem? hi)
        rcases hpt with rfl | rfl <;> simp [Ty.byteSer] at this
    simp [asBytes, Ty.endianIndep, Ty.byteSer, hall]
  rw [decode, if_neg (by simp [hnb])] at hr
  simp only [Val.elems, ResL.toRes, Val.list.injEq] at hr
  rw [decFields_decMany (fun _ _ _ => rfl) _ _ _ hn] at hr
  refine C17_call d c data (fs.zip os) p i t pt old v hpt ?_ (by rw [hr]; exact hv)
  rw [List.getElem?_zip_eq_some]
  exact ⟨hi, ho⟩

-- A `unique_ptr` to a vector of two numbers, of which only one is present.
example : decode 9 (Checks.le Checks.grow (.fixed 1)) (.struct true [.bool, .uptr (.seq .vector none Checks.i32)])
    (.list [.num 0, .some (.list [.num 7])]) [1, 2, 1, 0, 0, 0, 9] 0 =
      ⟨.err .resultOutOfRange, .list [.num 1, .some (.list [.num 7])], 2⟩ := by decide +kernel

/-! ## Variants -/

/-- C24, output: a variant is written as the id of its active alternative followed by the alternative. -/
theorem C24_written (d : Nat) (c : Cfg) (noFit : Bool) (idTy : Ty) (ids : List Val) (dcs : List Bool) (alts : List Ty)
    (i : Nat) (id v : Val) (t : Ty) (st : OutSt) (hid : ids[i]? = some id) (ht : alts[i]? = some t) :
    outCall (d + 1) c noFit [(.variant idTy ids dcs alts, .alt i v)] st = outCall d c noFit [(idTy, id), (t, v)] st := by
  have h : encMany (d + 1) c [(.variant idTy ids dcs alts, .alt i v)] st = encMany d c [(idTy, id), (t, v)] st := by
    simp only [encMany, encode, encVariant, hid, ht, OutM.andThen]
    generalize encode d c idTy id st = r
    obtain ⟨s, st'⟩ := r
    cases s <;> simp
  simp only [outCall, fitCall, h]

/-- C24, input: the id is read first. If it belongs to no alternative, the result is `bad_message` and the variant is
untouched. Otherwise the alternative with this id, and no other, is read, and becomes the active one on success. -/
theorem C24_read (d : Nat) (c : Cfg) (data : List UInt8) (idTy : Ty) (ids : List Val) (dcs : List Bool) (alts : List Ty)
    (old id : Val) (p p1 : Nat) (hnd : nodup ids = true) (hl2 : dcs.length = alts.length)
    (hid : decode d c idTy (dflt c d idTy) data p = ⟨.ok, id, p1⟩) :
    let r := decode (d + 1) c (.variant idTy ids dcs alts) old data p
    (id ∉ ids → r = ⟨.err .badMessage, old, p1⟩) ∧
    (∀ i t, ids[i]? = some id → alts[i]? = some t →
      ∃ o, (o = dflt c d t ∨ old = .alt i o) ∧
        r.s = (decode d c t o data p1).s ∧ r.p = (decode d c t o data p1).p ∧
        (r.s = .ok → r.v = .alt i (decode d c t o data p1).v)) := by
  rw [decode, hid]
  refine ⟨fun h => ?_, fun i t hi ht => ?_⟩
  · have : ∀ (ids : List Val) k, id ∉ ids → findId id ids k = none := by
      intro ids
      induction ids with
      | nil => intro k _; rfl
      | cons x xs ih =>
        intro k h
        simp only [List.mem_cons, not_or] at h
        rw [findId, if_neg (fun e => h.1 e.symm), ih _ h.2]
    simp only [this ids 0 h]
  · have hf : findId id ids 0 = some i := by simpa using findId_nodup hnd 0 hi
    have hi' : i < dcs.length := by
      rw [hl2]
      exact (List.getElem?_eq_some_iff.mp ht).1
    obtain ⟨dc, hdc⟩ : ∃ dc, dcs[i]? = some dc := ⟨_, List.getElem?_eq_getElem hi'⟩
    simp only [hf, ht, hdc]
    unfold decAlt
    cases dc with
    | false =>
      refine ⟨dflt c d t, Or.inl rfl, ?_⟩
      simp only [Bool.false_eq_true, if_false]
      generalize decode d c t (dflt c d t) data p1 = r
      obtain ⟨s, v, p'⟩ := r
      cases s <;> simp
    | true =>
      cases old with
      | alt j v =>
        by_cases hj : j = i
        · subst hj
          exact ⟨v, Or.inr rfl, by simp⟩
        · exact ⟨dflt c d t, Or.inl rfl, by simp [hj]⟩
      | _ => exact ⟨dflt c d t, Or.inl rfl, by simp⟩

-- Ids 5 and 9.
example :
    let t : Ty := .variant (.scalar .int 1) [.num 5, .num 9] [true, false] [.bool, Checks.i32]
    let c := Checks.le Checks.grow (.fixed 1)
    nodup [Val.num 5, .num 9] = true ∧ decode 8 c (.scalar .int 1) (.num 0) [9, 1, 0, 0, 0] 0 = ⟨.ok, .num 9, 1⟩ ∧
      decode 9 c t (.alt 0 (.num 1)) [9, 1, 0, 0, 0] 0 = ⟨.ok, .alt 1 (.num 1), 5⟩ ∧
      decode 9 c t (.alt 0 (.num 1)) [6, 1, 0, 0, 0] 0 = ⟨.err .badMessage, .alt 0 (.num 1), 1⟩ := by decide +kernel

/-! ## Size prefixes too small for the container -/

/-- C28, weaker than stated: a container with a `w`-byte size prefix is written as the number of elements converted to
`w` bytes (modulo `256^w`), followed by *all* elements. Missing: the README's "fewer items are serialized", which fails
when the number of elements does not fit (`C28_all_items_written`). -/
theorem C28_size_converted_partial (d : Nat) (c : Cfg) (noFit : Bool) (k : SeqKind) (w : Nat) (t : Ty) (vs : List Val)
    (st : OutSt) :
    outCall (d + 1) c noFit [(.seq k (some (.fixed w)) t, .list vs)] st =
      outCall (d + 1) c noFit [(.scalar .int w, .num (vs.length % 256 ^ w)), (.seq k (some .none) t, .list vs)] st := by
  have h : encMany (d + 1) c [(.seq k (some (.fixed w)) t, .list vs)] st =
      encMany (d + 1) c [(.scalar .int w, .num (vs.length % 256 ^ w)), (.seq k (some .none) t, .list vs)] st := by
    simp only [encMany, encode, effSz, Option.getD, encHdr, OutM.andThen, OutM.skip]
    generalize put c.g (ioBytes c w (vs.length % 256 ^ w)) st = r
    obtain ⟨s, st'⟩ := r
    cases s <;> simp
  simp only [outCall, fitCall, h]

/-- C28 fails: 257 elements behind a 1-byte size prefix are all written, while the prefix says 1, so that a reader
consumes only 2 of the 258 bytes. -/
theorem C28_all_items_written :
    let t : Ty := .seq .list (some (.fixed 1)) .bool
    let c := Checks.le Checks.fixed (.fixed 4)
    let r := outCall 9 c false [(t, .list (List.replicate 257 (.num 1)))] ⟨List.replicate 258 0, 0⟩
    r.1 = .ok ∧ r.2.pos = 258 ∧ r.2.data = 1 :: List.replicate 257 1 ∧
      decode 9 c t (.list []) r.2.data 0 = ⟨.ok, .list [.num 1], 2⟩ := by decide +kernel

/-! ## Views and spans -/

/-- The bytes of the input as an object: a view. -/
def viewOf (bs : List UInt8) : Val := .list (bs.map fun b => .num b.toNat)

/-- C46. Reading a byte view or `string_view`: if the announced bytes are all present, the view is exactly these bytes
of the input, directly behind the prefix; otherwise the result is `result_out_of_range` and the view is unchanged. -/
theorem C46_view (d : Nat) (c : Cfg) (data : List UInt8) (sz : Option SizeTy) (t : Ty) (old o : Val) (p n p1 : Nat)
    (ht : t = .scalar .byte 1 ∨ t = .scalar .chr 1) (habi : AbiOk c.sizeof) (hsz : sz.getD c.dsz ≠ .none)
    (hn : decode 1 c (sizeInt (sz.getD c.dsz)) o data p = ⟨.ok, .num n, p1⟩) (hp : p1 ≤ data.length) :
    (p1 + n ≤ data.length →
      decode (d + 1) c (.seq .view sz t) old data p = ⟨.ok, viewOf ((data.drop p1).take n), p1 + n⟩) ∧
    (data.length < p1 + n → decode (d + 1) c (.seq .view sz t) old data p = ⟨.err .resultOutOfRange, old, p1⟩) := by
  rw [decode_seq_int hsz hn]
  simp only [seqFill, subSz_of_le hp]
  refine ⟨fun h => ?_, fun h => by rw [if_pos (by omega)]⟩
  rw [if_neg (by omega), if_pos h]
  have hsz : c.sizeof t = 1 := by rcases ht with rfl | rfl <;> exact habi.scalar _ 1 (by omega)
  have hlen : ((data.drop p1).take n).length = n := by simp; omega
  have := unrepAll_bytes c ht hsz ((data.drop p1).take n)
  rw [hlen] at this
  rw [this]; rfl

/-- C46, without size prefix: the view is the rest of the input. -/
theorem C46_view_rest (d : Nat) (c : Cfg) (data : List UInt8) (sz : Option SizeTy) (t : Ty) (old : Val) (p : Nat)
    (ht : t = .scalar .byte 1 ∨ t = .scalar .chr 1) (habi : AbiOk c.sizeof) (hsz : sz.getD c.dsz = .none)
    (hp : p ≤ data.length) :
    decode (d + 1) c (.seq .view sz t) old data p = ⟨.ok, viewOf (data.drop p), data.length⟩ := by
  have he : effSz c sz = .none := hsz
  rw [decode, he]
  simp only [seqUnsized]
  rw [if_neg (by omega)]
  have hsz : c.sizeof t = 1 := by rcases ht with rfl | rfl <;> exact habi.scalar _ 1 (by omega)
  have := unrepAll_bytes c ht hsz (data.drop p)
  rw [List.length_drop] at this
  rw [this]; rfl

example : decode 9 (Checks.le Checks.grow (.fixed 1)) (.seq .view none Checks.chr) (.list []) [9, 2, 65, 66, 67] 1 =
      ⟨.ok, viewOf [65, 66], 4⟩ ∧
    decode 9 (Checks.le Checks.grow (.fixed 1)) (.seq .view none Checks.chr) (.list []) [9, 4, 65, 66, 67] 1 =
      ⟨.err .resultOutOfRange, .list [], 2⟩ ∧
    decode 9 (Checks.le Checks.grow (.fixed 1)) (.seq .view (some .none) Checks.chr) (.list []) [9, 4, 65, 66, 67] 1 =
      ⟨.ok, viewOf [4, 65, 66, 67], 5⟩ := by decide +kernel

/-- C47. Reading into a mutable span of `m` elements: an announced count above `m` fails with `result_out_of_range`
without touching the span; otherwise the span is shortened to exactly the announced count, whatever the outcome of
reading its elements. -/
theorem C47_span (d : Nat) (c : Cfg) (data : List UInt8) (sz : Option SizeTy) (t : Ty) (os : List Val) (o : Val) (p n p1 : Nat)
    (hsz : sz.getD c.dsz ≠ .none)
    (hn : decode 1 c (sizeInt (sz.getD c.dsz)) o data p = ⟨.ok, .num n, p1⟩) :
    (os.length < n → decode (d + 1) c (.seq .span sz t) (.list os) data p = ⟨.err .resultOutOfRange, .list os, p1⟩) ∧
    (n ≤ os.length → ∃ vs, (decode (d + 1) c (.seq .span sz t) (.list os) data p).v = .list vs ∧ vs.length = n) := by
  rw [decode_seq_int hsz hn]
  simp only [seqFill]
  refine ⟨fun h => if_pos h, fun h => ?_⟩
  rw [if_neg (show ¬ (Val.list os).elems.length < n from Nat.not_lt.mpr h)]
  obtain ⟨vs, h1, h2, _⟩ := seqBody_val (c := c) (k := .span) (t := t) (rec := fun v p => decode d c t v data p)
    (olds := os.take n) (data := data) (p := p1)
  refine ⟨vs, h1, ?_⟩
  rw [h2]; simp; omega

/-- C47, without size prefix: the span keeps its length. -/
theorem C47_span_unsized (d : Nat) (c : Cfg) (data : List UInt8) (sz : Option SizeTy) (t : Ty) (os : List Val) (p : Nat)
    (hsz : sz.getD c.dsz = .none) :
    ∃ vs, (decode (d + 1) c (.seq .span sz t) (.list os) data p).v = .list vs ∧ vs.length = os.length := by
  have he : effSz c sz = .none := hsz
  rw [decode, he]
  simp only [seqUnsized, Val.elems]
  obtain ⟨vs, h1, h2, _⟩ := seqBody_val (c := c) (k := .span) (t := t) (rec := fun v p => decode d c t v data p)
    (olds := os) (data := data) (p := p)
  exact ⟨vs, h1, h2⟩

example : decode 9 (Checks.le Checks.grow (.fixed 1)) (.seq .span none .bool) (.list [.num 0, .num 0]) [1, 1] 0 =
      ⟨.ok, .list [.num 1], 2⟩ ∧
    decode 9 (Checks.le Checks.grow (.fixed 1)) (.seq .span none .bool) (.list [.num 0, .num 0]) [3, 1, 1, 1] 0 =
      ⟨.err .resultOutOfRange, .list [.num 0, .num 0], 1⟩ := by decide +kernel

end Zpp.Props
