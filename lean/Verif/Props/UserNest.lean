import Verif.Proof.UserLocal
import Verif.Props.RoundTrip
/-!
# Properties of objects that contain classes with a user-written `serialize` function

Such classes occur anywhere: in containers, maps, optionals, owning pointers, variants, and in each other.
-/

namespace Zpp.Props
open Zpp Zpp.Spec

/-- C70, output. When `out(object)` succeeds, exactly the encoding of the object was appended: nothing before the
position changed, and the new position is behind it. -/
theorem C70_wire (d : Nat) (u : UCfg) (noFit : Bool) (t : UTy) (v : Val) (clean : Bool) (st st' : OutSt)
    (bs : List UInt8) (hpos : st.pos ≤ st.data.length) (hlen : st.data.length < 2 ^ 63) (hs : UWritable u d t v clean)
    (hz : clean = true → ∀ b ∈ st.data.drop st.pos, b = 0) (hw : uWire (fmtOf u.c) u.env d t v = some bs)
    (hl : bs.length < 2 ^ 63) (hok : uCall d u noFit t v st = (.ok, st')) :
    st'.pos = st.pos + bs.length ∧
    ∃ k, st'.data = st.data.take st.pos ++ bs ++ st.data.drop (st.pos + bs.length) ++ List.replicate k 0 :=
  fitCall_appends hpos (uEncode_result hs hz hw hl ⟨hpos, hlen⟩) hok

/-- C70, fixed buffers. Into a buffer that cannot grow, writing succeeds exactly if the encoding fits, and is
`result_out_of_range` otherwise. -/
theorem C70_fixed (d : Nat) (u : UCfg) (noFit : Bool) (t : UTy) (v : Val) (clean : Bool) (st : OutSt)
    (bs : List UInt8) (hfix : u.c.g.resizable = false) (hpos : st.pos ≤ st.data.length)
    (hlen : st.data.length < 2 ^ 63) (hs : UWritable u d t v clean)
    (hz : clean = true → ∀ b ∈ st.data.drop st.pos, b = 0) (hw : uWire (fmtOf u.c) u.env d t v = some bs)
    (hl : bs.length < 2 ^ 63) :
    (st.pos + bs.length ≤ st.data.length → uCall d u noFit t v st =
      (.ok, ⟨st.data.take st.pos ++ bs ++ st.data.drop (st.pos + bs.length), st.pos + bs.length⟩)) ∧
    (st.data.length < st.pos + bs.length → (uCall d u noFit t v st).1 = .err .resultOutOfRange) := by
  have h := uEncode_result hs hz hw hl ⟨hpos, hlen⟩
  have hpl : (st.data.take st.pos).length = st.pos := by simp; omega
  have hc : uCall d u noFit t v = uEncode d u t v := by funext st; simp [uCall, fitCall, hfix]
  rw [hc]
  rcases h with ⟨k, he, hk, hf, _⟩ | ⟨_, he, hlt⟩ | ⟨hr, _⟩ | ⟨hr, _⟩
  · have hk0 := hf hfix
    subst hk0
    rw [he]
    simp only [List.length_drop] at hk
    refine ⟨fun _ => ?_, fun h => by omega⟩
    simp [hpl]
  · simp only [List.length_drop] at hlt
    exact ⟨fun h => by omega, fun _ => he⟩
  · rw [hfix] at hr; cases hr
  · rw [hfix] at hr; cases hr

/-- C70, growing buffers. Writing succeeds, unless the limit or memory does not allow the buffer to grow. -/
theorem C70_growing (d : Nat) (u : UCfg) (noFit : Bool) (t : UTy) (v : Val) (clean : Bool) (st : OutSt)
    (bs : List UInt8) (hr : u.c.g.resizable = true) (hpos : st.pos ≤ st.data.length)
    (hlen : st.data.length < 2 ^ 63) (hs : UWritable u d t v clean)
    (hz : clean = true → ∀ b ∈ st.data.drop st.pos, b = 0) (hw : uWire (fmtOf u.c) u.env d t v = some bs)
    (hl : bs.length < 2 ^ 63) :
    (uCall d u noFit t v st).1 = .ok ∨
    ((uCall d u noFit t v st).1 = .err .noBufferSpace ∧ ¬ LimitRoom u.c.g (st.pos + bs.length)) ∨
    ((uCall d u noFit t v st).1 = .badAlloc ∧ ¬ MemRoom u.c.g (st.pos + bs.length)) := by
  have h := uEncode_result hs hz hw hl ⟨hpos, hlen⟩
  have hpl : (st.data.take st.pos).length = st.pos := by simp; omega
  simp only [EmitRes, hpl] at h
  have hst : (uCall d u noFit t v st).1 = (uEncode d u t v st).1 := 
    fitCall_status (uEncode_valid u hs.growth d t v ⟨hpos, hlen⟩).pos_le
  rw [hst]
  rcases h with ⟨k, he, _⟩ | ⟨hf, _⟩ | ⟨_, he, hx⟩ | ⟨_, he, hx⟩
  · left; rw [he]
  · rw [hr] at hf; cases hf
  · right; left; exact ⟨he, hx⟩
  · right; right; exact ⟨he, hx⟩

/-- C70, round trip. Reading with the same classes what was written: reading succeeds, ends where writing ended, and
the object read agrees with the one written in everything its functions hand over, at every depth. The destination may
hold anything before. -/
theorem C70_round_trip (d d' : Nat) (u w : UCfg) (noFit : Bool) (t : UTy) (v dest : Val) (clean : Bool)
    (st st' : OutSt) (bs : List UInt8) (hf : fmtOf w.c = fmtOf u.c) (hpos : st.pos ≤ st.data.length)
    (hlen : st.data.length < 2 ^ 63) (hs : UWritable u d t v clean)
    (hz : clean = true → ∀ b ∈ st.data.drop st.pos, b = 0) (hw : uWire (fmtOf u.c) u.env d t v = some bs)
    (hw' : uWire (fmtOf u.c) w.env d' t v = some bs) (hl : bs.length < 2 ^ 63)
    (hok : uCall d u noFit t v st = (.ok, st')) (hr : UReadable w d' t v) :
    let r := uDecode d' w t dest st'.data st.pos
    r.s = .ok ∧ r.p = st'.pos ∧ uSame w.env d' t v r.v := by
  obtain ⟨h1, k, h2⟩ := C70_wire d u noFit t v clean st st' bs hpos hlen hs hz hw hl hok
  have hbuf : st'.data.length < 2 ^ 63 := by
    have := (uCall_valid u hs.growth d t v noFit (st := st) ⟨hpos, hlen⟩).len_lt
    rwa [hok] at this
  obtain ⟨x, h3, h4⟩ := uDecode_rds w hr.abi hr.env st'.data (by omega) d' t v bs (by rw [hf]; exact hw') hr.parts dest st.pos
    (st.data.drop (st.pos + bs.length) ++ List.replicate k 0) (by rw [h2]; simp; omega) (by
      rw [h2, List.append_assoc, List.append_assoc, List.drop_append_of_le_length (by simp; omega)]
      rw [List.drop_eq_nil_of_le (by simp; omega)]
      simp)
  intro r
  simp only [r, h3]
  exact ⟨trivial, h1.symm, h4⟩

/-- C70, round trip when the functions hand over all members: the same object is read. -/
theorem C70_round_trip_all (d d' : Nat) (u w : UCfg) (noFit : Bool) (t : UTy) (v dest : Val) (clean : Bool)
    (st st' : OutSt) (bs : List UInt8) (hf : fmtOf w.c = fmtOf u.c) (hpos : st.pos ≤ st.data.length)
    (hlen : st.data.length < 2 ^ 63) (hs : UWritable u d t v clean)
    (hz : clean = true → ∀ b ∈ st.data.drop st.pos, b = 0) (hw : uWire (fmtOf u.c) u.env d t v = some bs)
    (hw' : uWire (fmtOf u.c) w.env d' t v = some bs) (hl : bs.length < 2 ^ 63)
    (hok : uCall d u noFit t v st = (.ok, st')) (hr : UReadable w d' t v)
    (hall : uComplete w.env d' t v) : uDecode d' w t dest st'.data st.pos = ⟨.ok, v, st'.pos⟩ := by
  have h := C70_round_trip d d' u w noFit t v dest clean st st' bs hf hpos hlen hs hz hw hw' hl hok hr
  generalize uDecode d' w t dest st'.data st.pos = r at h
  obtain ⟨s, x, p⟩ := r
  obtain ⟨h1, h2, h3⟩ := h
  have := uSame_eq w.env d' t v x hall h3
  simp only at h1 h2
  subst h1 h2 this
  rfl

/-- C70, arbitrary bytes. Reading from any bytes ends with one of the documented outcomes of the archive or an error one
of the functions returns; it never reads outside the input, and the position moves forward inside it. -/
theorem C70_safe (d : Nat) (u : UCfg) (E : Errc → Prop) (t : UTy) (dest : Val) (data : List UInt8) (p : Nat)
    (hlib : ∀ i, widthsOk (u.c.env i) = true) (henv : ∀ i, UAll (widthsOk · = true) E (u.env i))
    (ht : UAll (widthsOk · = true) E t) (hp : p ≤ data.length) :
    let r := uDecode d u t dest data p
    (InOutcome r.s ∨ ∃ e, E e ∧ r.s = .err e) ∧ p ≤ r.p ∧ r.p ≤ data.length :=
  have h := uDecode_safe u hlib henv data d t dest p ht hp
  ⟨h.code, h.mono, h.inb⟩

/-- C70, locality. A successful read depends only on the bytes it consumed: wherever they stand in another input, reading
into the same destination succeeds with the same object and consumes the same bytes. Input that ends before the last of
them is refused with `result_out_of_range`. -/
theorem C70_local (d : Nat) (u : UCfg) (t : UTy) (dest : Val) (data : List UInt8) (p : Nat) (habi : AbiOk u.c.sizeof)
    (hlib : ∀ i, widthsOk (u.c.env i) = true ∧ selfDelimiting u.c.dsz (u.c.env i) = true)
    (henv : ∀ i, UAll (fun t => widthsOk t = true ∧ selfDelimiting u.c.dsz t = true) (fun _ => True) (u.env i))
    (ht : UAll (fun t => widthsOk t = true ∧ selfDelimiting u.c.dsz t = true) (fun _ => True) t)
    (hp : p ≤ data.length) (hok : (uDecode d u t dest data p).s = .ok) :
    let r := uDecode d u t dest data p
    let consumed := (data.drop p).take (r.p - p)
    consumed.length = r.p - p ∧
    (∀ before after : List UInt8, uDecode d u t dest (before ++ consumed ++ after) before.length =
      ⟨.ok, r.v, before.length + consumed.length⟩) ∧
    (∀ n, p ≤ n → n < r.p → (uDecode d u t dest (data.take n) p).s = .err .resultOutOfRange) := by
  have hl := uDecode_loc u habi.pos hlib henv d t dest ht
  generalize hr : uDecode d u t dest data p = r at *
  obtain ⟨s, v, p1⟩ := r
  dsimp only at hok ⊢
  subst hok
  obtain ⟨w, rest, h1, h2, h3⟩ := hl () data p v p1 hp (by dsimp only; rw [hr]; rfl)
  have hw : (data.drop p).take (p1 - p) = w := by rw [h1, h2]; simp
  have hlen : p + w.length ≤ data.length := by
    have := congrArg List.length h1
    simp at this; omega
  rw [hw]
  refine ⟨by omega, fun before after => ?_, fun n hn hn2 => ?_⟩
  · have h4 := (h3 ()).full (before ++ w ++ after) before.length after (by simp) (by simp)
    dsimp only at h4
    generalize uDecode d u t dest (before ++ w ++ after) before.length = r' at *
    obtain ⟨s', v', p'⟩ := r'
    cases h4
    rfl
  · refine (h3 ()).cut (data.take n) p (w.drop (n - p)) (by simp; omega) ?_ ?_
    · have hn3 : (data.take n).drop p = w.take (n - p) := by
        rw [List.drop_take, h1, List.take_append_of_le_length (by omega)]
      rw [hn3, List.take_append_drop]
    · intro h
      have := congrArg List.length h
      simp at this; omega

/-- C70, output of any object. Writing ends with one of the documented outcomes or an error one of the functions
returns; nothing outside the buffer is touched, what was before the position is kept, and buffers that cannot grow keep
their size and everything behind the new position. -/
theorem C70_safe_out (d : Nat) (u : UCfg) (noFit : Bool) (E : Errc → Prop) (t : UTy) (v : Val) (st : OutSt)
    (hg : GrowthOk u.c.g) (henv : ∀ i, UAll (fun _ => True) E (u.env i)) (ht : UAll (fun _ => True) E t)
    (hpos : st.pos ≤ st.data.length) (hlen : st.data.length < 2 ^ 63) :
    let r := uCall d u noFit t v st
    (OutOutcome u.c.g r.1 ∨ ∃ e, E e ∧ r.1 = .err e) ∧ st.pos ≤ r.2.pos ∧ r.2.pos ≤ r.2.data.length ∧
    r.2.data.take st.pos = st.data.take st.pos ∧
    (u.c.g.resizable = false →
      r.2.data.length = st.data.length ∧ r.2.data.drop r.2.pos = st.data.drop r.2.pos) := by
  intro r
  have h := fitCall_safeU (noFit := noFit) (uEncode_safe u hg henv d t v ht) st ⟨hpos, hlen⟩
  have hr : r = fitCall u.c noFit (uEncode d u t v) st := rfl
  rw [← hr] at h
  clear_value r
  obtain ⟨s, st'⟩ := r
  have hrest : ∀ s, SafeStep u.c.g st (s, st') → st.pos ≤ st'.pos ∧ st'.pos ≤ st'.data.length ∧
      st'.data.take st.pos = st.data.take st.pos ∧ (u.c.g.resizable = false →
        st'.data.length = st.data.length ∧ st'.data.drop st'.pos = st.data.drop st'.pos) := by
    intro s h
    refine ⟨h.mono, h.inb, h.keep, fun hf => ⟨h.fixed hf, ?_⟩⟩
    have h1 := h.tail
    have h2 := h.fixed hf
    simp only at h1 h2
    rw [h2] at h1
    simpa using h1
  rcases h with h | ⟨e, h1, h2, h3⟩
  · refine ⟨.inl ?_, hrest s h⟩
    have := h.code
    cases s with
    | err e => cases e <;> simp_all [OutCode, OutOutcome]
    | _ => simp_all [OutCode, OutOutcome]
  · exact ⟨.inr ⟨e, h1, h2⟩, hrest _ h3⟩

/-- C70. Maps with keys of library types stay in order: the keys are handed over completely. -/
theorem C70_library_keys (u : UCfg) (d : Nat) (key : Ty) (t : UTy) (lt : Val → Val → Bool) (multi hashed : Bool) (vs : List Val)
    (h : Ordered lt multi hashed true vs) :
    StaysOrdered lt multi hashed true (sameEntry (uSame u.env d (.lib key)) (uSame u.env d t)) vs := by
  refine ⟨h, fun ws hw => ordered_sameKeys (fun x y hxy => ?_) h hw⟩
  unfold sameEntry at hxy
  split at hxy
  · cases d with
    | zero => exact hxy.1.elim
    | succ d =>
      have : _ = _ := hxy.1
      simp [assocKey, this, Val.elems]
  · exact hxy.elim

/-- C70. So do maps whose keys are of classes with a function that hands over all members. -/
theorem C70_complete_keys (u : UCfg) (d : Nat) (key t : UTy) (lt : Val → Val → Bool) (multi hashed : Bool) (vs : List Val)
    (h : Ordered lt multi hashed true vs) (hc : ∀ k x, .list [k, x] ∈ vs → uComplete u.env d key k) :
    StaysOrdered lt multi hashed true (sameEntry (uSame u.env d key) (uSame u.env d t)) vs := by
  refine ⟨h, fun ws hw => ordered_sameKeysIn (fun x hx y hxy => ?_) h hw⟩
  unfold sameEntry at hxy
  split at hxy
  · simp [assocKey, uSame_eq u.env d key _ _ (hc _ _ hx) hxy.1, Val.elems]
  · exact hxy.elim

/-- C70. And sets of such classes. -/
theorem C70_complete_elements (u : UCfg) (d : Nat) (t : UTy) (lt : Val → Val → Bool) (multi hashed : Bool) (vs : List Val)
    (h : Ordered lt multi hashed false vs) (hc : ∀ x ∈ vs, uComplete u.env d t x) :
    StaysOrdered lt multi hashed false (uSame u.env d t) vs :=
  ⟨h, fun ws hw => by rw [← pairwise2_eq vs ws (fun v hv w => uSame_eq u.env d t v w (hc v hv)) hw]; exact h⟩

/-- C70. Ordered sets stay in order if the order looks only at what is handed over. -/
theorem C70_seen_elements (u : UCfg) (d : Nat) (t : UTy) (lt : Val → Val → Bool) (multi : Bool) (vs : List Val)
    (h : Ordered lt multi false false vs)
    (hl : ∀ x x' y y', uSame u.env d t x x' → uSame u.env d t y y' → lt x' y' = lt x y) :
    StaysOrdered lt multi false false (uSame u.env d t) vs :=
  ⟨h, fun ws hw => by
    refine ordered_pairwise2 (fun x x' y y' h1 h2 => ?_) h hw
    simp [assocKey, hl x x' y y' h1 h2, hl y y' x x' h2 h1]⟩

/-- A document: a tag, then an `int`, a vector of documents or a map of documents, as the tag says; other tags are
refused. -/
def json : UTy := .user [.num 0, .num 0, .list [], .list []]
  (.archive 0 (.lib Checks.chr) fun v =>
    if v = .num 0 then .done
    else if v = .num 1 then .archive 1 (.lib Checks.i32) fun _ => .done
    else if v = .num 2 then .archive 2 (.seq .vector none (.ref 0)) fun _ => .done
    else if v = .num 3 then .archive 3 (.map false false none (.lib Checks.str) (.ref 0)) fun _ => .done
    else .fail .protocolError)
/-- Order of strings, lexicographic. -/
def strLt : List Val → List Val → Bool
  | _, [] => false
  | [], _ :: _ => true
  | .num a :: as, .num b :: bs => a < b || (a == b && strLt as bs)
  | _, _ => false
/-- Archives with one-byte sizes; maps are ordered by their strings; class 0 is the document. -/
def jsonCfg : UCfg :=
  ⟨{ Checks.le Checks.grow (.fixed 1) with keyLt := fun _ a b => strLt a.elems b.elems }, fun _ => json, fun _ => 64,
    fun _ _ _ => false⟩
/-- Documents: nothing, a number, a vector, a map. -/
def jNull : Val := .list [.num 0, .num 0, .list [], .list []]
def jNum (n : Nat) : Val := .list [.num 1, .num n, .list [], .list []]
def jVec (vs : List Val) : Val := .list [.num 2, .num 0, .list vs, .list []]
def jMap (vs : List (List UInt8 × Val)) : Val :=
  .list [.num 3, .num 0, .list [], .list (vs.map fun x => .list [Checks.strV x.1, x.2])]
/-- `{"a": [7, null], "b": 8}`. -/
def jDoc : Val := jMap [([97], jVec [jNum 7, jNull]), ([98], jNum 8)]
/-- Its encoding. -/
def jBytes : List UInt8 := [3, 2, 1, 97, 2, 2, 1, 7, 0, 0, 0, 0, 1, 98, 1, 8, 0, 0, 0]

-- Writing the document and reading it back over another one.
example : uCall 20 jsonCfg false (.ref 0) jDoc ⟨[9], 1⟩ = (.ok, ⟨9 :: jBytes, 20⟩) := by decide +kernel
example : uDecode 20 jsonCfg (.ref 0) (jVec [jNum 1]) (9 :: jBytes) 1 =
    ⟨.ok, .list [.num 3, .num 0, .list [jNum 1], .list [.list [Checks.strV [97], jVec [jNum 7, jNull]],
      .list [Checks.strV [98], jNum 8]]], 20⟩ := by decide +kernel
-- A tag nobody wrote, deep inside; input cut short; a map nested deeper than the stack allows.
example : (uDecode 20 jsonCfg (.ref 0) jNull [3, 1, 1, 97, 2, 2, 0, 4] 0).s = .err .protocolError := by decide +kernel
example : (uDecode 20 jsonCfg (.ref 0) jNull [3, 1, 1, 97, 2, 2, 0] 0).s = .err .resultOutOfRange := by decide +kernel
example : (uDecode 6 jsonCfg (.ref 0) jNull [2, 1, 2, 1, 2, 1, 0] 0).s = .stack := by decide +kernel
-- A fixed buffer one byte short.
example : (uCall 20 { jsonCfg with c := Checks.le Checks.fixed (.fixed 1) } false (.ref 0) jDoc
    ⟨List.replicate 18 5, 0⟩).1 = .err .resultOutOfRange := by decide +kernel

-- The hypotheses of the theorems hold for it.
example : uWire (fmtOf jsonCfg.c) jsonCfg.env 20 (.ref 0) jDoc = some jBytes := by decide +kernel
theorem json_all (P : Ty → Prop) (E : Errc → Prop) (h1 : P Checks.chr) (h2 : P Checks.i32) (h3 : P Checks.str)
    (h4 : E .protocolError) : UAll P E json := by
  refine .user (.archive (.lib h1) fun v => ?_)
  repeat' split
  · exact .done
  · exact .archive (.lib h2) fun _ => .done
  · exact .archive (.seq (.ref 0)) fun _ => .done
  · exact .archive (.map (.lib h3) (.ref 0)) fun _ => .done
  · exact .fail h4
example : (∀ i, widthsOk (jsonCfg.c.env i) = true) ∧
    (∀ i, UAll (widthsOk · = true) (· = .protocolError) (jsonCfg.env i)) :=
  ⟨fun _ => rfl, fun _ => json_all _ _ rfl rfl rfl rfl⟩
/-- What has to be checked for a document. -/
theorem json_each {env : Nat → UTy} {P : Nat → Ty → Val → Prop} {N : Nat → UTy → Val → Prop} (henv : env 0 = json)
    (d : Nat) (tag a b c : Val) (hN : N (d + 1) json (.list [tag, a, b, c])) (h0 : P (d + 1) Checks.chr tag)
    (h1 : tag = .num 1 → P (d + 1) Checks.i32 a)
    (h2 : tag = .num 2 → uEach env P N (d + 1) (.seq .vector none (.ref 0)) b)
    (h3 : tag = .num 3 → uEach env P N (d + 1) (.map false false none (.lib Checks.str) (.ref 0)) c) :
    uEach env P N (d + 3) (.ref 0) (.list [tag, a, b, c]) := by
  show uEach env P N (d + 2) (env 0) (.list [tag, a, b, c])
  rw [henv]
  refine ⟨hN, ?_⟩
  intro x hx
  simp only [uVisits, memberOf, List.getElem?_cons_zero, Option.getD_some] at hx
  rcases List.mem_cons.mp hx with rfl | hx
  · exact h0
  by_cases t0 : tag = .num 0
  · simp [t0, uVisits] at hx
  by_cases t1 : tag = .num 1
  · obtain rfl : x = _ := by simpa [t1, uVisits] using hx
    exact h1 t1
  by_cases t2 : tag = .num 2
  · obtain rfl : x = _ := by simpa [t2, uVisits] using hx
    exact h2 t2
  by_cases t3 : tag = .num 3
  · obtain rfl : x = _ := by simpa [t3, uVisits] using hx
    exact h3 t3
  · simp [t0, t1, t2, t3, uVisits] at hx
/-- `P` and `N` hold everywhere in the document `jDoc`. -/
theorem json_doc {env : Nat → UTy} {P : Nat → Ty → Val → Prop} {N : Nat → UTy → Val → Prop} (henv : env 0 = json)
    (hP : ∀ d, 4 ≤ d → P d Checks.chr (.num 0) ∧ P d Checks.chr (.num 1) ∧ P d Checks.chr (.num 2) ∧
      P d Checks.chr (.num 3) ∧ P d Checks.i32 (.num 7) ∧ P d Checks.i32 (.num 8) ∧
      P d Checks.str (Checks.strV [97]) ∧ P d Checks.str (Checks.strV [98]))
    (hN : ∀ d, N (d + 1) json jDoc ∧ N (d + 1) json (jVec [jNum 7, jNull]) ∧ N (d + 1) json (jNum 7) ∧
      N (d + 1) json (jNum 8) ∧ N (d + 1) json jNull ∧
      N (d + 1) (.seq .vector none (.ref 0)) (.list [jNum 7, jNull]) ∧ N (d + 1) (.map false false none (.lib Checks.str) (.ref 0))
        (.list [.list [Checks.strV [97], jVec [jNum 7, jNull]], .list [Checks.strV [98], jNum 8]])) :
    uEach env P N 20 (.ref 0) jDoc := by
  have num7 : uEach env P N 14 (.ref 0) (jNum 7) :=
    json_each henv 11 _ _ _ _ (hN _).2.2.1 (hP _ (by omega)).2.1 (fun _ => (hP _ (by omega)).2.2.2.2.1)
      (fun h => by cases h) (fun h => by cases h)
  have null : uEach env P N 14 (.ref 0) jNull :=
    json_each henv 11 _ _ _ _ (hN _).2.2.2.2.1 (hP _ (by omega)).1 (fun h => by cases h)
      (fun h => by cases h) (fun h => by cases h)
  have num8 : uEach env P N 17 (.ref 0) (jNum 8) :=
    json_each henv 14 _ _ _ _ (hN _).2.2.2.1 (hP _ (by omega)).2.1 (fun _ => (hP _ (by omega)).2.2.2.2.2.1)
      (fun h => by cases h) (fun h => by cases h)
  have vec : uEach env P N 17 (.ref 0) (jVec [jNum 7, jNull]) := by
    refine json_each henv 14 _ _ _ _ (hN _).2.1 (hP _ (by omega)).2.2.1 (fun h => by cases h)
      (fun _ => ⟨(hN _).2.2.2.2.2.1, fun v hv => ?_⟩) (fun h => by cases h)
    rcases List.mem_cons.mp hv with rfl | hv
    · exact num7
    · obtain rfl : v = _ := by simpa using hv
      exact null
  refine json_each henv 17 _ _ _ _ (hN _).1 (hP _ (by omega)).2.2.2.1 (fun h => by cases h)
      (fun h => by cases h) (fun _ => ⟨(hN _).2.2.2.2.2.2, fun k x hx => ?_⟩)
  rcases List.mem_cons.mp hx with hx | hx
  · injection hx with hx
    injection hx with h1 hx
    injection hx with h2 hx
    subst h1 h2
    exact ⟨(hP 17 (by omega)).2.2.2.2.2.2.1, vec⟩
  · obtain hx := List.mem_singleton.mp hx
    injection hx with hx
    injection hx with h1 hx
    injection hx with h2 hx
    subst h1 h2
    exact ⟨(hP 17 (by omega)).2.2.2.2.2.2.2, num8⟩
theorem json_writable : UWritable jsonCfg 20 (.ref 0) jDoc false := by
  refine ⟨grow_ok, so_abi, fun _ => ⟨rfl, rfl⟩, json_doc rfl ?_ ?_⟩
  · intro d hd
    refine ⟨⟨rfl, ?_, .inr rfl⟩, ⟨rfl, ?_, .inr rfl⟩, ⟨rfl, ?_, .inr rfl⟩, ⟨rfl, ?_, .inr rfl⟩, ⟨rfl, ?_, .inr rfl⟩,
      ⟨rfl, ?_, .inr rfl⟩, ⟨rfl, ?_, .inr rfl⟩, ⟨rfl, ?_, .inr rfl⟩⟩
    all_goals first | exact Nat.le_trans (by decide +kernel) hd
  · intro d
    exact ⟨trivial, trivial, trivial, trivial, trivial, trivial, trivial⟩
theorem json_decides (d : Nat) (tag a b c : Val) :
    uReads jsonCfg (d + 1) json (.list [tag, a, b, c]) := by
  refine ⟨rfl, ?_, fun w hw => ?_, ?_⟩
  · simp only [uVisits, memberOf, List.getElem?_cons_zero, Option.getD_some]
    by_cases t0 : tag = .num 0
    · simp [t0, uVisits]
    by_cases t1 : tag = .num 1
    · simp [t1, uVisits]
    by_cases t2 : tag = .num 2
    · simp [t2, uVisits]
    by_cases t3 : tag = .num 3
    · simp [t3, uVisits]
    · simp [t0, t1, t2, t3, uVisits]
  · have hw : tag = w := hw
    subst hw
    rfl
  · simp only [memberOf, List.getElem?_cons_zero, Option.getD_some]
    by_cases t0 : tag = .num 0
    · simp [t0, uDecides]
    by_cases t1 : tag = .num 1
    · simp [t1, uDecides]
    by_cases t2 : tag = .num 2
    · simp [t2, uDecides]
    by_cases t3 : tag = .num 3
    · simp [t3, uDecides]
    · simp [t0, t1, t2, t3, uDecides]
theorem json_readable : UReadable jsonCfg 20 (.ref 0) jDoc := by
  refine ⟨so_abi, fun _ => ⟨rfl, rfl⟩, json_doc rfl ?_ ?_⟩
  · intro d hd
    have num (t : Ty) (n : Nat) (h : Loadable jsonCfg.c t (.num n)) (h' : Good jsonCfg.c t = true) :
        Good jsonCfg.c t = true ∧ Loadable jsonCfg.c t (.num n) ∧ 2 * depth (.num n) ≤ d :=
      ⟨h', h, Nat.le_trans (by simp [depth]) hd⟩
    refine ⟨num _ _ trivial rfl, num _ _ trivial rfl, num _ _ trivial rfl, num _ _ trivial rfl, num _ _ trivial rfl,
      num _ _ trivial rfl, ⟨rfl, ?_, ?_⟩, ⟨rfl, ?_, ?_⟩⟩
    · simp [Loadable, LoadableL, Checks.str, Checks.strV, Fits, jsonCfg, Checks.le, Checks.grow, Checks.so, Checks.chr]
    · exact Nat.le_trans (by decide +kernel) hd
    · simp [Loadable, LoadableL, Checks.str, Checks.strV, Fits, jsonCfg, Checks.le, Checks.grow, Checks.so, Checks.chr]
    · exact Nat.le_trans (by decide +kernel) hd
  · intro d
    refine ⟨json_decides .., json_decides .., json_decides .., json_decides .., json_decides .., ?_, ?_⟩
    · simp [uReads, Fits, jsonCfg, Checks.le, Checks.grow]
    · refine ⟨by decide, C70_library_keys _ _ _ _ _ _ _ _ ?_⟩
      simp [Ordered, jsonCfg, UCfg.lt, Checks.le, Checks.strV, Val.elems, strLt]
-- So the document written above is read back by the theorem, whatever was in the destination.
example (dest : Val) : uSame jsonCfg.env 20 (.ref 0) jDoc (uDecode 20 jsonCfg (.ref 0) dest (9 :: jBytes) 1).v :=
  (C70_round_trip 20 20 jsonCfg jsonCfg false (.ref 0) jDoc dest false ⟨[9], 1⟩ ⟨9 :: jBytes, 20⟩ jBytes rfl
    (by decide) (by decide) json_writable (fun h => by cases h) (by decide +kernel) (by decide +kernel) (by decide)
    (by decide +kernel) json_readable).2.2

/-- `class name { std::string text; int uses; }` with a function that hands over the text only. -/
def nameU : UTy := .user [.list [], .num 0] (.archive 0 (.lib Checks.str) fun _ => .done)
/-- A name used `n` times. -/
def nameV (bs : List UInt8) (n : Nat) : Val := .list [Checks.strV bs, .num n]
/-- Names are ordered by their text. -/
def byText : UCfg := { jsonCfg with keyLt := fun _ a b => strLt (memberOf a.elems 0).elems (memberOf b.elems 0).elems }
/-- Names are ordered by how often they are used. -/
def byUses : UCfg := { jsonCfg with keyLt := fun _ a b => strLt [memberOf a.elems 1] [memberOf b.elems 1] }
-- A set of names and a map from names to documents, written and read back over others. The order of the input does not
-- matter to the set read; of equal names the first is kept, and in a multiset all are.
example : uCall 20 byText false (.set false false none nameU) (.list [nameV [97] 5, nameV [98] 2]) ⟨[], 0⟩ =
    (.ok, ⟨[2, 1, 97, 1, 98], 5⟩) := by decide +kernel
example : uDecode 20 byText (.set false false none nameU) (.list [nameV [65] 9]) [2, 1, 97, 1, 98] 0 =
    ⟨.ok, .list [nameV [97] 0, nameV [98] 0], 5⟩ := by decide +kernel
example : uDecode 20 byText (.set false false none nameU) (.list []) [3, 1, 98, 1, 97, 1, 98] 0 =
    ⟨.ok, .list [nameV [97] 0, nameV [98] 0], 7⟩ := by decide +kernel
example : uDecode 20 byText (.set true false none nameU) (.list []) [3, 1, 98, 1, 97, 1, 98] 0 =
    ⟨.ok, .list [nameV [97] 0, nameV [98] 0, nameV [98] 0], 7⟩ := by decide +kernel
example : uCall 20 byText false (.map false false none nameU (.ref 0)) (.list [.list [nameV [97] 5, jNum 7], .list [nameV [98] 2, jNull]])
    ⟨[], 0⟩ = (.ok, ⟨[2, 1, 97, 1, 7, 0, 0, 0, 1, 98, 0], 11⟩) := by decide +kernel
example : uDecode 20 byText (.map false false none nameU (.ref 0)) (.list [.list [nameV [97] 6, jNum 1]])
      [2, 1, 98, 0, 1, 97, 1, 7, 0, 0, 0] 0 =
    ⟨.ok, .list [.list [nameV [97] 0, jNum 7], .list [nameV [98] 0, jNull]], 11⟩ := by decide +kernel
-- Input cut short inside the second name: the first one is in the set already.
example : uDecode 20 byText (.set false false none nameU) (.list [nameV [65] 9]) [2, 1, 97, 1] 0 =
    ⟨.err .resultOutOfRange, .list [nameV [97] 0], 4⟩ := by decide +kernel
-- With an order that looks at what is not handed over a set loses elements: all names read are used equally often.
example : uDecode 20 byUses (.set false false none nameU) (.list []) [2, 1, 97, 1, 98] 0 =
    ⟨.ok, .list [nameV [97] 0], 5⟩ := by decide +kernel
example : Ordered (byUses.lt nameU) false false false [nameV [97] 2, nameV [98] 5] ∧
    ¬ StaysOrdered (byUses.lt nameU) false false false (uSame byUses.env 20 nameU) [nameV [97] 2, nameV [98] 5] := by
  refine ⟨by simp [Ordered, UCfg.lt, byUses, nameU, memberOf, nameV, Val.elems, strLt], fun h => ?_⟩
  have := h.2 [nameV [97] 0, nameV [98] 0] (by simp [Pairwise2, uSame, nameU, nameV, uVisits, memberOf])
  simp [Ordered, UCfg.lt, byUses, nameU, memberOf, nameV, Val.elems, strLt] at this
-- The order by text looks only at what is handed over, so the set above stays in order.
theorem byText_stays (d : Nat) : StaysOrdered (byText.lt nameU) false false false (uSame byText.env d nameU) [nameV [97] 5, nameV [98] 2] := by
  refine C70_seen_elements byText d nameU _ _ _ ?_ ?_
  · simp [Ordered, UCfg.lt, byText, nameU, memberOf, nameV, Val.elems, Checks.strV, strLt]
  · intro x x' y y' hx hy
    have text (v w : Val) (h : uSame byText.env d nameU v w) : memberOf v.elems 0 = memberOf w.elems 0 := by
      cases d with
      | zero => exact h.elim
      | succ d =>
        cases v with
        | list vs =>
          cases w with
          | list ws =>
            have h2 : uSame byText.env d (.lib Checks.str) (memberOf vs 0) (memberOf ws 0) := h.2 (0, _) (by simp [uVisits])
            cases d with
            | zero => exact h2.elim
            | succ d => exact h2
          | _ => exact h.elim
        | _ => exact h.elim
    show strLt _ _ = strLt _ _
    rw [text x x' hx, text y y' hy]
theorem byText_readable : UReadable byText 20 (.set false false none nameU) (.list [nameV [97] 5, nameV [98] 2]) := by
  have str (x : UInt8) (hx : x = 97 ∨ x = 98) : uEach byText.env
      (fun n t v => Good byText.c t = true ∧ Loadable byText.c t v ∧ 2 * depth v ≤ n) (uReads byText) 19 nameU
      (.list [Checks.strV [x], .num (if x = 97 then 5 else 2)]) := by
    refine ⟨⟨rfl, by simp [uVisits], fun _ _ => rfl, trivial⟩, fun y hy => ?_⟩
    obtain rfl : y = _ := by simpa [uVisits] using hy
    refine ⟨rfl, ?_, ?_⟩
    · rcases hx with rfl | rfl
      all_goals simp [Loadable, LoadableL, Checks.str, Checks.strV, memberOf, Fits, byText, jsonCfg, Checks.le, Checks.grow, Checks.so, Checks.chr]
    · rcases hx with rfl | rfl
      all_goals decide +kernel
  refine ⟨so_abi, fun _ => ⟨rfl, rfl⟩, ⟨by decide, byText_stays 19⟩, fun v hv => ?_⟩
  rcases List.mem_cons.mp hv with rfl | hv
  · exact str 97 (.inl rfl)
  · obtain rfl : v = _ := by simpa using hv
    exact str 98 (.inr rfl)
-- Keys that hand over all members stay in order in any container.
example : StaysOrdered (byText.lt nameU) false true true
    (sameEntry (uSame byText.env 5 (.lib Checks.i32)) (uSame byText.env 5 (.ref 0))) [.list [.num 3, jNull], .list [.num 1, jNull]] :=
  C70_library_keys _ _ _ _ _ _ _ _ (by simp [Ordered])

/-- A class whose function hands over both members, the second one first. -/
def swapped : UTy := .user [.num 0, .num 0]
  (.archive 1 (.lib Checks.chr) fun _ => .archive 0 (.lib Checks.i32) fun _ => .done)
-- It is complete, and so are vectors of it, which are read back exactly.
example : uComplete (fun _ => json) 5 (.seq .vector none swapped) (.list [.list [.num 5, .num 6]]) := by
  refine ⟨trivial, fun v hv => ?_⟩
  obtain rfl : v = _ := by simpa using hv
  refine ⟨fun m hm => ?_, fun x hx => ?_⟩
  · have : m < 2 := hm
    simp [uVisits]
    omega
  · rcases List.mem_cons.mp hx with rfl | hx
    · trivial
    · obtain rfl : x = _ := by simpa [uVisits] using hx
      trivial
example : uDecode 5 jsonCfg (.seq .vector none swapped) (.list []) [1, 6, 5, 0, 0, 0] 0 =
    ⟨.ok, .list [.list [.num 5, .num 6]], 6⟩ := by decide +kernel

-- The hypotheses of `C70_local` hold for documents.
example : AbiOk jsonCfg.c.sizeof ∧
    (∀ i, widthsOk (jsonCfg.c.env i) = true ∧ selfDelimiting jsonCfg.c.dsz (jsonCfg.c.env i) = true) ∧
    (∀ i, UAll (fun t => widthsOk t = true ∧ selfDelimiting jsonCfg.c.dsz t = true) (fun _ => True) (jsonCfg.env i)) :=
  ⟨so_abi, fun _ => ⟨rfl, rfl⟩, fun _ => json_all _ _ ⟨rfl, rfl⟩ ⟨rfl, rfl⟩ ⟨rfl, rfl⟩ trivial⟩
/-- Why `C70_local` has one destination: a function may decide on something that it has not handed over itself, here a
member of a nested object whose function hands over nothing. -/
def follower : UTy := .user [.list [.num 0], .num 0]
  (.archive 0 (.user [.num 0] .done) fun v =>
    if v = .list [.num 0] then .done else .archive 1 (.lib Checks.chr) fun _ => .done)
example : uDecode 9 jsonCfg follower (.list [.list [.num 0], .num 0]) [5] 0 =
      ⟨.ok, .list [.list [.num 0], .num 0], 0⟩ ∧
    uDecode 9 jsonCfg follower (.list [.list [.num 1], .num 0]) [5] 0 =
      ⟨.ok, .list [.list [.num 1], .num 5], 1⟩ := by decide +kernel

end Zpp.Props
