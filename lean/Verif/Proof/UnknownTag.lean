import Verif.Proof.Concat
import Verif.Proof.Evolve
/-! # Tags of undeclared fields in front of any bytes -/

namespace Zpp
open Spec

theorem pbFetch_shift {c : Cfg} {t : Ty} {elem elem' : Nat → Res} {k : Nat} {vs : List Val} {q : Nat}
    (h : elem' (k + q) = (elem q).shift k) : pbFetch c t elem' vs (k + q) = (pbFetch c t elem vs q).shift k := by
  unfold pbFetch
  rw [h]
  generalize elem q = r
  obtain ⟨s, v, p⟩ := r
  cases s <;> rfl

theorem pbPacked_shift {len k e : Nat} {fetch fetch' : List Val → Nat → ResL}
    (hs : ∀ vs p, p ≤ len → InStep len p (fetch vs p).s (fetch vs p).p ∧ ((fetch vs p).s = .ok → p < (fetch vs p).p))
    (h : ∀ vs q, fetch' vs (k + q) = (fetch vs q).shift k) :
    ∀ f g vs q, q ≤ len → len < f + q → len < g + q →
    pbPacked fetch' (k + e) f vs (k + q) = (pbPacked fetch e g vs q).shift k := by
  intro f
  induction f with
  | zero => intro g vs q h1 h2; omega
  | succ f ih =>
    intro g vs q hq hf hg
    cases g with
    | zero => omega
    | succ g =>
      simp only [pbPacked]
      by_cases hl : q < e
      · rw [if_pos hl, if_pos (by omega), h]
        have h1 := hs vs q hq
        generalize fetch vs q = r at *
        obtain ⟨s, vs', p'⟩ := r
        cases s
        · have h2 := h1.2 rfl
          have h3 := h1.1.inb
          dsimp only [ResL.shift] at h2 h3 ⊢
          exact ih g vs' p' h3 (by omega) (by omega)
        all_goals rfl
      · rw [if_neg hl, if_neg (by omega)]; rfl

theorem pbDecPacked_shift {c : Cfg} (ha : AbiOk c.sizeof) (hmem : c.g.maxMem < 2 ^ 63) {pre data : List UInt8} {t elemTy : Ty} {fix : Bool}
    {wt : Nat} {old : Val} {q d : Nat} (hlen : (pre ++ data).length < 2 ^ 63)
    (ht : (hasResize t && fix) = true ∨ hasReserve t = true) (he : widthsOk elemTy = true) (hp : isPacked elemTy = true) :
    pbDecPacked c (fun t v q => decode d c t v (pre ++ data) q) t elemTy fix wt old (pre ++ data) (pre.length + q) =
      (pbDecPacked c (fun t v q => decode d c t v data q) t elemTy fix wt old data q).shift pre.length := by
  unfold pbDecPacked
  simp only
  split
  · rw [pbFetch_shift (decode_shift c d elemTy .unit q)]; rfl
  · rw [decHdr_shift]
    have hq : (decHdr c .varint data q).1 = .ok → q ≤ data.length := by
      intro h
      rcases Nat.lt_or_ge data.length q with h1 | h1
      · simp only [decHdr, getVarint, if_pos h1, reduceCtorEq] at h
      · exact h1
    have hsafe := fun h => decHdr_safe (c := c) .varint (hq h)
    generalize decHdr c .varint data q = r at *
    obtain ⟨s, len, p1⟩ := r
    cases s <;> try rfl
    have hin := (hsafe rfl).inb
    dsimp only at hin ⊢
    split
    · split
      · rfl
      · split
        · rfl
        · exact decode_shift c d _ _ p1
    · next hrs =>
      have hres : hasReserve t = true := ht.resolve_left hrs
      split
      · rfl
      · next hm =>
        have h1 : len * c.sizeof elemTy ≤ c.g.maxMem := by
          rcases Nat.lt_or_ge c.g.maxMem (len * c.sizeof elemTy) with h | h
          · exact absurd ⟨hres, h⟩ hm
          · exact h
        have h2 : len ≤ len * c.sizeof elemTy := Nat.le_mul_of_pos_right _ (ha.pos _)
        rw [List.length_append] at hlen
        have hw : ∀ a, a < 2 ^ 64 → wrap a = a := fun a h => Nat.mod_eq_of_lt h
        rw [hw _ (by omega), hw _ (by omega), show len + (pre.length + p1) = pre.length + (len + p1) by omega]
        have := pbPacked_shift (len := data.length) (k := pre.length) (e := len + p1)
          (fetch := pbFetch c t (fun q => decode d c elemTy .unit data q))
          (fetch' := pbFetch c t (fun q => decode d c elemTy .unit (pre ++ data) q))
          (by
            intro vs p hp'
            have h3 := numDec_safe (d := d) (c := c) (data := data) he hp .unit p hp'
            obtain ⟨f1, f2, f3⟩ := pbFetch_safe (c := c) (t := t) (vs := vs) h3.1
            exact ⟨f1, by rw [f2, f3]; exact h3.2⟩)
          (fun vs q => pbFetch_shift (decode_shift c d elemTy .unit q))
          ((pre ++ data).length + 1) (data.length + 1) old.elems p1 hin (by rw [List.length_append]; omega) (by omega)
        rw [this]; rfl

/-- Reading a member sees only the bytes from its position on. -/
theorem pbDecField_shift' {c : Cfg} (ha : AbiOk c.sizeof) (hmem : c.g.maxMem < 2 ^ 63) {d : Nat} {t : Ty} (ht : unreserved t = false)
    (hw : widthsOk t = true) (pre data : List UInt8) (hlen : (pre ++ data).length < 2 ^ 63) (fresh : Ty → Val)
    (wt : Nat) (v : Val) (q : Nat) :
    pbDecField c (fun t v q => decode d c t v (pre ++ data) q) fresh t wt v (pre ++ data) (pre.length + q) =
      (pbDecField c (fun t v q => decode d c t v data q) fresh t wt v data q).shift pre.length := by
  have hfet : ∀ e, pbFetch c t (fun q => decode d c e (fresh e) (pre ++ data) q) v.elems (pre.length + q) =
      (pbFetch c t (fun q => decode d c e (fresh e) data q) v.elems q).shift pre.length :=
    fun e => pbFetch_shift (decode_shift c d e (fresh e) q)
  cases t with
  | seq k s e =>
    have hwe : widthsOk e = true := hw
    cases e with
    | scalar sk n =>
      have hv : sk = .enum → widthsOk (.varint n false) = true := fun h => widthsOk_varint hwe (.inl h)
      cases k <;> cases sk <;> simp [unreserved, isPacked] at ht
      all_goals
        unfold pbDecField
        simp only [pbInClass, pbElemClass]
      all_goals first
        | exact pbDecPacked_shift ha hmem hlen (.inl rfl) hwe rfl
        | exact pbDecPacked_shift ha hmem hlen (.inr rfl) hwe rfl
        | exact pbDecPacked_shift ha hmem hlen (.inr rfl) (hv rfl) rfl
    | bool =>
      cases k <;> simp [unreserved, isPacked] at ht
      all_goals
        unfold pbDecField
        simp only [pbInClass, pbElemClass]
      all_goals exact pbDecPacked_shift ha hmem hlen (.inl rfl) rfl rfl
    | varint n zz =>
      cases k <;> simp [unreserved, isPacked] at ht
      unfold pbDecField
      simp only [pbInClass, pbElemClass]
      exact pbDecPacked_shift ha hmem hlen (.inr rfl) hwe rfl
    | _ =>
      unfold pbDecField
      simp only [pbInClass, pbElemClass]
      rw [hfet]; rfl
  | assoc mu hashed s key m =>
    cases m with
    | some m =>
      unfold pbDecField
      simp only [pbInClass]
      rw [hfet]; rfl
    | none =>
      have hwe : widthsOk key = true := hw
      cases key with
      | scalar sk n =>
        have hv : sk = .enum → widthsOk (.varint n false) = true := fun h => widthsOk_varint hwe (.inl h)
        cases hashed <;> cases sk <;> simp [unreserved, isPacked] at ht
        all_goals
          unfold pbDecField
          simp only [pbInClass, pbElemClass]
        all_goals first
          | exact pbDecPacked_shift ha hmem hlen (.inr rfl) hwe rfl
          | exact pbDecPacked_shift ha hmem hlen (.inr rfl) (hv rfl) rfl
      | bool =>
        cases hashed <;> simp [unreserved, isPacked] at ht
        unfold pbDecField
        simp only [pbInClass, pbElemClass]
        exact pbDecPacked_shift ha hmem hlen (.inr rfl) rfl rfl
      | varint n zz =>
        cases hashed <;> simp [unreserved, isPacked] at ht
        unfold pbDecField
        simp only [pbInClass, pbElemClass]
        exact pbDecPacked_shift ha hmem hlen (.inr rfl) hwe rfl
      | _ =>
        unfold pbDecField
        simp only [pbInClass, pbElemClass]
        rw [hfet]; rfl
  | _ => exact pbDecField_shift rfl pre data fresh wt v q

/-- The reader on a message that begins with the tag of an undeclared field. -/
theorem msgRun_tag (d : Nat) (c : Cfg) (ha : AbiOk c.sizeof) (hmem : c.g.maxMem < 2 ^ 63) (henv : ∀ i, widthsOk (c.env i) = true)
    {maps : List (Nat × Nat)} {nums : List (Option Nat)} {fs : List Ty} {num wt : Nat}
    (hok : pbFieldsOk c.env maps 0 nums fs = true)
    (hw : ∀ t ∈ fs, widthsOk t = true) (hno : ∀ t ∈ fs, unreserved t = false)
    (hnum : num ∉ fieldNumbers maps 0 nums) (h0 : 0 < num) (h1 : num < 2 ^ 29) (h2 : wt < 8) (old : Val) (b : List UInt8) (s s' : Nat)
    (hlen : (leb (num * 8 + wt) ++ b).length < 2 ^ 63)
    (hs : msgSub (leb (num * 8 + wt) ++ b) 0 s = leb (num * 8 + wt) ++ msgSub b 0 s') :
    msgRun c (decode d c) (dflt c d) maps nums fs old (leb (num * 8 + wt) ++ b) s 0 =
      (msgRun c (decode d c) (dflt c d) maps nums fs old b s' 0).shift (leb (num * 8 + wt)).length := by
  unfold msgRun
  simp only [Nat.not_lt_zero, if_false, hs]
  have hpos := leb_length_pos (num * 8 + wt)
  have hsl : (leb (num * 8 + wt) ++ msgSub b 0 s').length < 2 ^ 63 := by
    rw [List.length_append] at hlen ⊢
    have : (msgSub b 0 s').length ≤ b.length := by unfold msgSub; simp; omega
    omega
  clear hs
  generalize msgSub b 0 s' = sub at *
  have hv := getVarint_rd (data := leb (num * 8 + wt) ++ sub) (rest := sub) (p := 0) (n := 4) (by simp [IntWidth]) false (x := num * 8 + wt) (by omega) (.num 0)
    (by omega) (by simp [varintValue])
  simp only [varintValue, Bool.false_eq_true, if_false, Nat.zero_add] at hv
  have hl : (pbClear fs old.elems).length = fs.length := by rw [pbClear_emptied, emptied_length]
  rw [pbLoop, if_pos (by rw [List.length_append]; omega), hv]
  simp only [(tag_shift num wt h2).1, (tag_shift num wt h2).2]
  rw [pbDispatch_miss h0 nums fs _ 0 hok hl hnum]
  dsimp only
  have h3 := pbLoop_shift (pre := leb (num * 8 + wt)) (data := sub) (maps := maps) (nums := nums)
    (field := fun t wt v q => pbDecField c (fun t v q => decode d c t v sub q) (dflt c d) t wt v sub q)
    (field' := fun t wt' v q => pbDecField c (fun t v q => decode d c t v (leb (num * 8 + wt) ++ sub) q) (dflt c d) t wt' v
      (leb (num * 8 + wt) ++ sub) q)
    (fs := fs)
    (fun t ht wt v q hq => pbDecField_safe hq (hw t ht) (fun t v q hw hq => decode_safe d c t v sub q henv hw hq)
      (fun t hw hn => numDec_safe hw hn))
    (fun t ht wt' v q => pbDecField_shift' ha hmem (hno t ht) (hw t ht) (leb (num * 8 + wt)) sub hsl _ wt' v q)
    ((leb (num * 8 + wt) ++ sub).length) (sub.length + 1) (pbClear fs old.elems) 0 (by omega)
    (by rw [List.length_append]; omega) (by omega)
  rw [Nat.add_zero] at h3
  rw [h3]
  simp [ResL.shift, Res.shift]

/-- A message without size prefix that begins with the tag of an undeclared field. -/
theorem msg_tag (d : Nat) (c : Cfg) (ha : AbiOk c.sizeof) (hmem : c.g.maxMem < 2 ^ 63) (henv : ∀ i, widthsOk (c.env i) = true) {sz : Option SizeTy} {ok : Bool}
    {maps : List (Nat × Nat)} {nums : List (Option Nat)} {fs : List Ty} {num wt : Nat} (hsz : sz.getD c.dsz = .none)
    (hok : pbFieldsOk c.env maps 0 nums fs = true)
    (hw : ∀ t ∈ fs, widthsOk t = true) (hno : ∀ t ∈ fs, unreserved t = false)
    (hnum : num ∉ fieldNumbers maps 0 nums) (h0 : 0 < num) (h1 : num < 2 ^ 29) (h2 : wt < 8) (old : Val) (b : List UInt8)
    (hlen : (leb (num * 8 + wt) ++ b).length < 2 ^ 63) :
    decode (d + 1) c (.msg sz ok maps nums fs) old (leb (num * 8 + wt) ++ b) 0 =
      (decode (d + 1) c (.msg sz ok maps nums fs) old b 0).shift (leb (num * 8 + wt)).length := by
  have hes : effSz c sz = .none := hsz
  have hsub : ∀ x : List UInt8, x.length < 2 ^ 64 → msgSub x 0 sizeMax = x := by
    intro x hx
    unfold msgSub sizeMax
    simp only [List.drop_zero, Nat.sub_zero]
    exact List.take_of_length_le (by omega)
  rw [decode, decode]
  simp only [hes]
  refine msgRun_tag d (pbCfg c) ha hmem henv hok hw hno hnum h0 h1 h2 old b _ _ hlen ?_
  rw [hsub _ (by omega), hsub _ (by rw [List.length_append] at hlen; omega)]

/-- A message with a size prefix that begins with the tag of an undeclared field. -/
theorem msg_tag_sized (d : Nat) (c : Cfg) (ha : AbiOk c.sizeof) (hmem : c.g.maxMem < 2 ^ 63) (henv : ∀ i, widthsOk (c.env i) = true) {sz : Option SizeTy} {ok : Bool}
    {maps : List (Nat × Nat)} {nums : List (Option Nat)} {fs : List Ty} {num wt n : Nat} (hsz : sz.getD c.dsz ≠ .none)
    (hok : pbFieldsOk c.env maps 0 nums fs = true)
    (hw : ∀ t ∈ fs, widthsOk t = true) (hno : ∀ t ∈ fs, unreserved t = false)
    (hnum : num ∉ fieldNumbers maps 0 nums) (h0 : 0 < num) (h1 : num < 2 ^ 29) (h2 : wt < 8) (old : Val) (b x y : List UInt8)
    (hlen : (leb (num * 8 + wt) ++ b).length < 2 ^ 63)
    (hx : sizePrefix (fmtOf c) (sz.getD c.dsz) ((leb (num * 8 + wt)).length + n) = some x)
    (hy : sizePrefix (fmtOf c) (sz.getD c.dsz) n = some y) :
    ∃ r : Res, decode (d + 1) c (.msg sz ok maps nums fs) old (x ++ leb (num * 8 + wt) ++ b) 0 = r.shift (x.length + (leb (num * 8 + wt)).length) ∧
      decode (d + 1) c (.msg sz ok maps nums fs) old (y ++ b) 0 = r.shift y.length := by
  have e : ∀ z m w, sizePrefix (fmtOf c) (sz.getD c.dsz) m = some z →
      decode (d + 1) c (.msg sz ok maps nums fs) old (z ++ w) 0 =
      (msgRun (pbCfg c) (decode d (pbCfg c)) (dflt (pbCfg c) d) maps nums fs old w m 0).shift z.length := by
    intro z m w hz
    have hh := decHdr_rd (data := z ++ w) (p := 0) (rest := w) hsz hz (by omega) (by simp)
    have e0 := msgRun_shift (pre := z) (data := w) (pbCfg c) (decode d (pbCfg c)) (dflt (pbCfg c) d) maps nums fs old m 0
    rw [decode]
    have hes : effSz c sz = sz.getD c.dsz := rfl
    rw [Nat.add_zero] at e0
    rw [hes]
    cases hq : sz.getD c.dsz with
    | none => exact absurd hq hsz
    | fixed k => rw [hq] at hh; simp only [hh, Nat.zero_add, e0]
    | varint => rw [hq] at hh; simp only [hh, Nat.zero_add, e0]
  refine ⟨_, ?_, e y n b hy⟩
  rw [List.append_assoc, e x _ _ hx, msgRun_tag d (pbCfg c) ha hmem henv hok hw hno hnum h0 h1 h2 old b _ n hlen]
  · simp [Res.shift, Nat.add_assoc]
  · unfold msgSub
    simp only [List.drop_zero, Nat.sub_zero, List.length_append]
    rw [Nat.add_min_add_left, List.take_append, List.take_of_length_le (by omega)]
    simp

/-- The tag of an undeclared field between records and any bytes. -/
theorem msg_between (d : Nat) (c : Cfg) (ha : AbiOk c.sizeof) (he : EnvGood c) (hmem : c.g.maxMem < 2 ^ 63) (henv : ∀ i, widthsOk (c.env i) = true)
    {ok : Bool} {maps : List (Nat × Nat)} {nums : List (Option Nat)} {fs : List Ty} {sz : Option SizeTy} {rs : List Rec} {num wt : Nat}
    {a b : List UInt8} (hsz : sz.getD c.dsz = .none) (hw : ∀ t ∈ fs, widthsOk t = true) (hno : ∀ t ∈ fs, unreserved t = false)
    (gt : Good c (.msg sz ok maps nums fs) = true) (hb : recsBytes c.env maps nums fs rs = some a)
    (hro : RecsOk (pbCfg c) maps nums fs rs) (hd : 2 * recDepthL rs ≤ d) (hnum : num ∉ fieldNumbers maps 0 nums) (h0 : 0 < num)
    (h1 : num < 2 ^ 29) (h2 : wt < 8) (old : Val) (hlen : (a ++ leb (num * 8 + wt) ++ b).length < 2 ^ 63) :
    ∃ r : Res, decode (d + 1) c (.msg sz ok maps nums fs) old (a ++ b) 0 = r.shift a.length ∧
      decode (d + 1) c (.msg sz ok maps nums fs) old (a ++ leb (num * 8 + wt) ++ b) 0 = r.shift (a ++ leb (num * 8 + wt)).length := by
  simp only [Good, nodeOk, Bool.and_eq_true] at gt
  obtain ⟨⟨⟨⟨g1, g2⟩, g3⟩, g4⟩, g5⟩ := gt
  obtain ⟨ihp, ihu⟩ := decode_round d (pbCfg c) ha (EnvGood.pb he)
  have hes : effSz c sz = .none := hsz
  have hsub : ∀ x : List UInt8, x.length < 2 ^ 64 → msgSub x 0 sizeMax = x := by
    intro x hx
    unfold msgSub sizeMax
    simp only [List.drop_zero, Nat.sub_zero]
    exact List.take_of_length_le (by omega)
  have hle : (a ++ b).length < 2 ^ 63 := by simp only [List.length_append] at hlen ⊢; omega
  have hloop : ∀ (pre : List UInt8) (f : Nat) (vs : List Val), (pre ++ b).length < 2 ^ 63 → b.length < f →
      pbLoop (fun t wt v q => pbDecField (pbCfg c) (fun t v q => decode d (pbCfg c) t v (pre ++ b) q) (dflt (pbCfg c) d) t wt v (pre ++ b) q)
        maps nums fs (pre ++ b) f vs pre.length =
      (pbLoop (fun t wt v q => pbDecField (pbCfg c) (fun t v q => decode d (pbCfg c) t v b q) (dflt (pbCfg c) d) t wt v b q)
        maps nums fs b (b.length + 1) vs 0).shift pre.length := by
    intro pre f vs hl hf
    exact pbLoop_shift (pre := pre) (data := b) (maps := maps) (nums := nums)
      (field := fun t wt v q => pbDecField (pbCfg c) (fun t v q => decode d (pbCfg c) t v b q) (dflt (pbCfg c) d) t wt v b q)
      (field' := fun t wt v q => pbDecField (pbCfg c) (fun t v q => decode d (pbCfg c) t v (pre ++ b) q) (dflt (pbCfg c) d) t wt v (pre ++ b) q)
      (fs := fs)
      (fun t ht wt v q hq => pbDecField_safe hq (hw t ht) (fun t v q hw hq => decode_safe d (pbCfg c) t v b q henv hw hq)
        (fun t hw hn => numDec_safe hw hn))
      (fun t ht wt v q => pbDecField_shift' (c := pbCfg c) ha hmem (hno t ht) (hw t ht) pre b hl _ wt v q)
      f (b.length + 1) vs 0 (by omega) (by omega) (by omega)
  refine ⟨
    let r := pbLoop (fun t wt v q => pbDecField (pbCfg c) (fun t v q => decode d (pbCfg c) t v b q) (dflt (pbCfg c) d) t wt v b q)
        maps nums fs b (b.length + 1) (recsEffect (pbCfg c) fs rs (pbClear fs old.elems)) 0
    ⟨r.s, .list r.vs, r.p⟩, ?_, ?_⟩
  · rw [decode]
    simp only [hes]
    unfold msgRun
    simp only [hsub _ (show (a ++ b).length < 2 ^ 64 by omega), Nat.not_lt_zero, if_false]
    have hst := recs_steps (c := pbCfg c) (inPb_pbCfg c) ha ihp ihu (decode_recs d (pbCfg c) (inPb_pbCfg c) ha (EnvGood.pb he))
      (sub := a ++ b) (by omega) (fresh := dflt (pbCfg c) d) (decFresh_dflt (pbCfg c) d) g1 g5 g2 rs
      (pbClear fs old.elems) a b 0 (by rw [pbClear_emptied, emptied_length]) hro hb hd (by omega) (by simp)
    obtain ⟨f', h3, h4⟩ := hst ((a ++ b).length + 1) (by omega)
    rw [Nat.zero_add] at h3 h4
    rw [h4, hloop a f' _ hle (by rw [List.length_append] at h3; omega)]
    simp [ResL.shift, Res.shift]
  · rw [decode]
    simp only [hes]
    unfold msgRun
    simp only [hsub _ (show (a ++ leb (num * 8 + wt) ++ b).length < 2 ^ 64 by omega), Nat.not_lt_zero, if_false]
    have hb' : recsBytes c.env maps nums fs (rs ++ [.unknown num wt]) = some (a ++ leb (num * 8 + wt)) := by
      have : recsBytes c.env maps nums fs [.unknown num wt] = some (leb (num * 8 + wt)) := by simp [recsBytes, recBytes, cat]
      rw [recsBytes_append, hb, this]; rfl
    have hro' : RecsOk (pbCfg c) maps nums fs (rs ++ [.unknown num wt]) := by
      exact recsOk_append hro ⟨⟨hnum, h0, h1, h2⟩, trivial⟩
    have hef : recsEffect (pbCfg c) fs (rs ++ [.unknown num wt]) (pbClear fs old.elems) = recsEffect (pbCfg c) fs rs (pbClear fs old.elems) := by
      have : ∀ (rs : List Rec) (vs : List Val), recsEffect (pbCfg c) fs (rs ++ [.unknown num wt]) vs = recsEffect (pbCfg c) fs rs vs := by
        intro rs
        induction rs with
        | nil => intro vs; rfl
        | cons r rs ih => intro vs; simp only [List.cons_append, recsEffect, ih]
      exact this _ _
    have hdp : recDepthL (rs ++ [.unknown num wt]) = recDepthL rs := by
      rw [recDepthL_append]; simp [recDepthL, recDepth]
    have hst := recs_steps (c := pbCfg c) (inPb_pbCfg c) ha ihp ihu (decode_recs d (pbCfg c) (inPb_pbCfg c) ha (EnvGood.pb he))
      (sub := a ++ leb (num * 8 + wt) ++ b) (by omega) (fresh := dflt (pbCfg c) d) (decFresh_dflt (pbCfg c) d) g1 g5 g2 _
      (pbClear fs old.elems) (a ++ leb (num * 8 + wt)) b 0 (by rw [pbClear_emptied, emptied_length]) hro' hb' (by rw [hdp]; exact hd)
      (by omega) (by simp)
    obtain ⟨f', h3, h4⟩ := hst ((a ++ leb (num * 8 + wt) ++ b).length + 1) (by omega)
    rw [Nat.zero_add] at h3 h4
    rw [h4, hef, hloop (a ++ leb (num * 8 + wt)) f' _ hlen (by simp only [List.length_append] at h3; omega)]
    simp [ResL.shift, Res.shift]

end Zpp
