import Verif.Proof.InRecords
import Verif.Proof.InShift
/-! # Protobuf messages with a record that cannot be read -/

namespace Zpp
open Spec

/-- As `pbDispatch_hit`, for any outcome. -/
theorem pbDispatch_any {field : Ty → Nat → Val → Nat → Res} {maps : List (Nat × Nat)} {N wt : Nat} {n : Option Nat} {t : Ty}
    {o v : Val} {s : Status} {p p' : Nat} {nb : List (Option Nat)} {fb : List Ty} {ob : List Val} (hf : field t wt o p = ⟨s, v, p'⟩) :
    ∀ (na : List (Option Nat)) (fa : List Ty) (oa : List Val) (i : Nat), na.length = fa.length → oa.length = fa.length →
      N ∉ pbNumbers maps i na → pbNumber maps n (i + na.length) = N →
      pbDispatch field maps N wt i (na ++ n :: nb) (fa ++ t :: fb) (oa ++ o :: ob) p = ⟨s, oa ++ v :: ob, p'⟩ := by
  intro na
  induction na with
  | nil =>
    intro fa oa i h1 h2 _ hn
    have hfa : fa = [] := List.eq_nil_of_length_eq_zero (by simpa using h1.symm)
    subst hfa
    have hoa : oa = [] := List.eq_nil_of_length_eq_zero (by simpa using h2)
    subst hoa
    simp only [List.length_nil, Nat.add_zero] at hn
    simp [pbDispatch, hn, hf]
  | cons m na ih =>
    intro fa oa i h1 h2 hni hn
    cases fa with
    | nil => simp at h1
    | cons u fa =>
      cases oa with
      | nil => simp at h2
      | cons x oa =>
        simp only [pbNumbers, List.mem_cons, not_or] at hni
        simp only [List.length_cons] at hn h1 h2
        simp only [List.cons_append, pbDispatch]
        rw [if_neg (fun e => hni.1 e.symm)]
        simp only [List.headD_cons, List.tail_cons]
        rw [ih fa oa (i + 1) (by omega) (by omega) hni.2 (by rw [← hn]; congr 1; omega)]

/-- The member with the number of a record, in a list of members. -/
theorem pbDispatch_member {c : Cfg} {maps : List (Nat × Nat)} {nums : List (Option Nat)} {fs : List Ty} {m : Nat} {t : Ty}
    (hok : pbFieldsOk c.env maps 0 nums fs = true) (hnd : nodup (fieldNumbers maps 0 nums) = true) (ht : fs[m]? = some t)
    {field : Ty → Nat → Val → Nat → Res} {vs : List Val} (hl : vs.length = fs.length) {wt p p' : Nat} {s : Status} {v : Val}
    (hf : field t wt (vs.getD m .unit) p = ⟨s, v, p'⟩) :
    numberAt maps nums m < 2 ^ 29 ∧
    pbDispatch field maps (numberAt maps nums m) wt 0 nums fs vs p = ⟨s, vs.set m v, p'⟩ := by
  obtain ⟨na, n, nb, fa, fb, h1, h2, h3, h4, h5, h6, h7, h8, h9⟩ := fieldsOk_at m 0 nums fs hok ht
  rw [Nat.zero_add] at h5 h6 h7 h8
  have hN : numberAt maps nums m = fieldNumber maps n m := by
    simp only [numberAt, h1, List.getD, ← h3, List.getElem?_append_right (Nat.le_refl _), Nat.sub_self]
    simp
  refine ⟨by rw [hN]; exact h7, ?_⟩
  have hml : m < vs.length := by rw [hl, h2]; simp; omega
  have e1 : vs.take m ++ vs.getD m .unit :: vs.drop (m + 1) = vs := by
    have e0 : vs.getD m .unit = vs[m] := by simp [List.getD, List.getElem?_eq_getElem hml]
    rw [e0, List.getElem_cons_drop]
    exact List.take_append_drop m vs
  have e2 : vs.take m ++ v :: vs.drop (m + 1) = vs.set m v := by
    rw [List.set_eq_take_append_cons_drop, if_pos hml]
  have h := pbDispatch_any (field := field) (maps := maps) (N := numberAt maps nums m) (wt := wt) (n := n) (t := t)
    (nb := nb) (fb := fb) (ob := vs.drop (m + 1)) hf na fa (vs.take m) 0 (by omega) (by simp; omega) (by
      rw [h9, hN]
      rw [h1, fieldNumbers_append] at hnd
      simp only [Nat.zero_add, h3, fieldNumbers] at hnd
      exact nodup_append_not_mem hnd) (by rw [Nat.zero_add, h3, hN]; exact h8)
  rw [e1, e2, ← h1, ← h2] at h
  exact h

/-- The loop of the reader from position `q` of the message fails. -/
def LoopFails (field : Ty → Nat → Val → Nat → Res) (maps : List (Nat × Nat)) (nums : List (Option Nat)) (fs : List Ty)
    (sub : List UInt8) (vs : List Val) (q : Nat) (s : Status) (vs' : List Val) (q' : Nat) : Prop :=
  ∀ f, pbLoop field maps nums fs sub (f + 1) vs q = ⟨s, vs', q'⟩

theorem msgRun_fail {c : Cfg} (hc : InPb c) (ha : AbiOk c.sizeof) {rec : Ty → Val → List UInt8 → Nat → Res} {D : Nat}
    (hrec : DecOk c rec D) (huns : DecUns c rec D) (hrecs : DecRecs c rec D) {fresh : Ty → Val}
    (hfr : DecFresh c fresh D) {maps : List (Nat × Nat)}
    {nums : List (Option Nat)} {fs : List Ty} (hok : pbFieldsOk c.env maps 0 nums fs = true) (hgd : GoodL c fs = true)
    (hnd : nodup (fieldNumbers maps 0 nums) = true) {rs : List Rec} {body tail : List UInt8}
    (hb : recsBytes c.env maps nums fs rs = some body) (hld : RecsOk c maps nums fs rs) (hd : 2 * recDepthL rs ≤ D)
    {data rest : List UInt8} (hlen : data.length < 2 ^ 64) (old : Val) {p : Nat} (hp : p ≤ data.length)
    (hdr : data.drop p = body ++ (tail ++ rest)) {size : Nat}
    (hsize : min size (data.length - p) = body.length + tail.length) {s : Status} {vs' : List Val} {q' : Nat}
    (hfail : LoopFails (fun t wt v q => pbDecField c (fun t v q => rec t v (body ++ tail) q) fresh t wt v (body ++ tail) q)
      maps nums fs (body ++ tail) (recsEffect c fs rs (emptied fs old.elems)) body.length s vs' q') :
    msgRun c rec fresh maps nums fs old data size p = ⟨s, .list vs', p + q'⟩ := by
  have hl := congrArg List.length hdr
  simp only [List.length_drop, List.length_append] at hl
  have hsub : msgSub data p size = body ++ tail := by
    unfold msgSub
    rw [hdr, hsize, ← List.append_assoc, List.take_append_of_le_length (by simp), List.take_of_length_le (by simp)]
  unfold msgRun
  rw [if_neg (by omega)]
  simp only [hsub]
  have hst := recs_steps hc ha hrec huns hrecs (sub := body ++ tail) (by simp; omega) (fresh := fresh) hfr hok hgd hnd rs
    (pbClear fs old.elems) body tail 0 (by rw [pbClear_emptied, emptied_length]) hld hb hd (by omega) (by simp)
  obtain ⟨f', h1, h2⟩ := hst ((body ++ tail).length + 1) (by omega)
  simp only [Nat.zero_add, List.length_append] at h2 h1
  rw [List.length_append, h2, pbClear_emptied]
  cases f' with
  | zero => omega
  | succ f' => rw [hfail f']

/-- A message whose tail cannot be read. -/
theorem msg_fail (d : Nat) (c : Cfg) {sz : Option SizeTy} {ok : Bool} {maps : List (Nat × Nat)} {nums : List (Option Nat)}
    {fs : List Ty} {rs : List Rec} {tail data : List UInt8} {p : Nat} (h : BrokenAt c sz ok maps nums fs rs tail data p)
    (hd : 2 * recDepthL rs ≤ d) (old : Val) {s : Status} {vs' : List Val}
    (hfail : ∀ body, pbFieldsOk c.env maps 0 nums fs = true → nodup (fieldNumbers maps 0 nums) = true →
      body.length + tail.length ≤ data.length →
      ∃ q', LoopFails (fun t wt v q => pbDecField (pbCfg c) (fun t v q => decode d (pbCfg c) t v (body ++ tail) q)
        (dflt (pbCfg c) d) t wt v (body ++ tail) q)
      maps nums fs (body ++ tail) (membersAfter c fs rs old) body.length s vs' q') :
    ∃ q, decode (d + 1) c (.msg sz ok maps nums fs) old data p = ⟨s, .list vs', q⟩ := by
  obtain ⟨pre, body, rest, h1, h2, h3, h4, h5⟩ := h.bytes
  have hdr : data.drop p = pre ++ (body ++ (tail ++ rest)) := by
    have := congrArg (List.drop p) h1
    rw [List.drop_append_of_le_length (by simp; omega)] at this
    simpa [List.drop_take] using this
  have gt := h.good
  simp only [Good, nodeOk, Bool.and_eq_true] at gt
  obtain ⟨⟨⟨⟨g1, g2⟩, g3⟩, g4⟩, g5⟩ := gt
  have s1 := drop_split h2 hdr
  have s2 := congrArg List.length s1.2
  simp only [List.length_drop, List.length_append] at s2
  obtain ⟨ihp, ihu⟩ := decode_round d (pbCfg c) h.abi (EnvGood.pb h.env)
  obtain ⟨q', hf⟩ := hfail body g1 g2 (by omega)
  have hrun := fun size hs => msgRun_fail (c := pbCfg c) (inPb_pbCfg c) h.abi ihp ihu
    (decode_recs d (pbCfg c) (inPb_pbCfg c) h.abi (EnvGood.pb h.env)) (fresh := dflt (pbCfg c) d)
    (decFresh_dflt (pbCfg c) d) (maps := maps)
    g1 g5 g2 h4 h.loadable hd h.small old s1.1 s1.2 (size := size) hs hf
  rw [decode]
  by_cases hne : sz.getD c.dsz = .none
  · have he : effSz c sz = .none := hne
    simp only [he]
    have hr := h5 hne
    subst hr
    rw [hne] at h3
    simp only [sizePrefix, Option.some.injEq] at h3
    subst h3
    simp only [List.length_nil, Nat.add_zero] at hrun s2
    exact ⟨_, hrun sizeMax (by have := h.small; unfold sizeMax; omega)⟩
  · have hh := decHdr_rd (sz := effSz c sz) hne h3 h2 hdr
    split
    · rename_i h; exact absurd h hne
    · simp only [hh]
      exact ⟨_, hrun (body.length + tail.length) (by omega)⟩

/-- The tag of a record is read. -/
theorem loop_tag {field : Ty → Nat → Val → Nat → Res} {maps : List (Nat × Nat)} {nums : List (Option Nat)} {fs : List Ty}
    {body rest : List UInt8} {N wt : Nat} (hN : N < 2 ^ 29) (hwt : wt < 8) {vs vs' : List Val} {s : Status} {q' : Nat}
    (hs : s ≠ .ok)
    (h : pbDispatch field maps N wt 0 nums fs vs (body.length + (leb (N * 8 + wt)).length) = ⟨s, vs', q'⟩) :
    LoopFails field maps nums fs (body ++ (leb (N * 8 + wt) ++ rest)) vs body.length s vs' q' := by
  intro f
  have hp : body.length < (body ++ (leb (N * 8 + wt) ++ rest)).length := by
    have := leb_length_pos (N * 8 + wt)
    simp only [List.length_append]; omega
  have hv := getVarint_rd (n := 4) (by simp [IntWidth]) false (x := N * 8 + wt) (by omega) (.num 0) (Nat.le_of_lt hp)
    (rest := rest) (by simp [varintValue])
  simp only [varintValue, Bool.false_eq_true, if_false] at hv
  rw [pbLoop, if_pos hp, hv]
  simp only [(tag_shift N wt hwt).1, (tag_shift N wt hwt).2]
  rw [h]
  cases s <;> first | exact absurd rfl hs | rfl

/-- A message with a record whose member cannot be read. -/
theorem record_fail (d : Nat) (c : Cfg) {sz : Option SizeTy} {ok : Bool} {maps : List (Nat × Nat)} {nums : List (Option Nat)}
    {fs : List Ty} {rs : List Rec} {payload data : List UInt8} {p m wt : Nat} {t : Ty} {s : Status} {v : Val} {old : Val}
    (h : BrokenAt c sz ok maps nums fs rs (leb (numberAt maps nums m * 8 + wt) ++ payload) data p) (hd : 2 * recDepthL rs ≤ d)
    (ht : fs[m]? = some t) (hwt : wt < 8) (hne : s ≠ .ok)
    (hbad : ∀ front, (∃ num i, pbFieldOk c.env maps num i t = true) → front.length + payload.length ≤ data.length →
      ∃ q, pbDecField (pbCfg c) (fun t v q => decode d (pbCfg c) t v (front ++ payload) q)
        (dflt (pbCfg c) d) t wt ((membersAfter c fs rs old).getD m .unit) (front ++ payload) front.length = ⟨s, v, q⟩) :
    ∃ q, decode (d + 1) c (.msg sz ok maps nums fs) old data p = ⟨s, .list ((membersAfter c fs rs old).set m v), q⟩ := by
  refine msg_fail d c h hd old ?_
  intro body hok hnd hlen
  obtain ⟨na, n, nb, fa, fb, -, -, -, -, h5, -⟩ := fieldsOk_at m 0 nums fs hok ht
  obtain ⟨q, hq⟩ := hbad (body ++ leb (numberAt maps nums m * 8 + wt)) ⟨_, _, h5⟩ (by
    simp only [List.length_append] at hlen ⊢; omega)
  obtain ⟨h1, h2⟩ := pbDispatch_member (c := c) (wt := wt) (vs := membersAfter c fs rs old) (s := s) (v := v) (p' := q)
    (p := body.length + (leb (numberAt maps nums m * 8 + wt)).length)
    (field := fun t w v q => pbDecField (pbCfg c) (fun t v q => decode d (pbCfg c) t v
      (body ++ (leb (numberAt maps nums m * 8 + wt) ++ payload)) q) (dflt (pbCfg c) d) t w v
      (body ++ (leb (numberAt maps nums m * 8 + wt) ++ payload)) q) hok hnd ht
    (by rw [membersAfter, recsEffect_length, emptied_length]) (by
      rw [List.append_assoc, List.length_append] at hq
      exact hq)
  exact ⟨q, loop_tag h1 hwt hne h2⟩

/-- `decode` at the end of what stands in front. -/
theorem decode_after {d : Nat} {c : Cfg} {t : Ty} {old v : Val} {payload : List UInt8} {s : Status} {q : Nat}
    (h : decode d c t old payload 0 = ⟨s, v, q⟩) (front : List UInt8) :
    decode d c t old (front ++ payload) front.length = ⟨s, v, front.length + q⟩ := by
  have := decode_shift (pre := front) (data := payload) c d t old 0
  rw [Nat.add_zero] at this
  rw [this, h]; rfl

theorem getVarint_after (c : Cfg) {n : Nat} {zz : Bool} {old v : Val} {payload : List UInt8} {s : Status} {q : Nat}
    (h : getVarint n zz old payload 0 = ⟨s, v, q⟩) (front : List UInt8) :
    getVarint n zz old (front ++ payload) front.length = ⟨s, v, front.length + q⟩ := by
  have := decode_after (d := 1) (c := c) (t := .varint n zz) (old := old) (v := v) (payload := payload) (s := s) (q := q)
    (by simpa [decode] using h) front
  simpa [decode] using this

/-- Whether a number can be read does not depend on the old value. -/
theorem decode_num_old {d : Nat} {c : Cfg} {e : Ty} (he : numTy e = true) {o v : Val} (o' : Val) {data : List UInt8} {p q : Nat}
    {s : Status} (h : decode d c e o data p = ⟨s, v, q⟩) : ∃ v', decode d c e o' data p = ⟨s, v', q⟩ := by
  cases d with
  | zero => rw [decode] at h ⊢; cases h; exact ⟨_, rfl⟩
  | succ d =>
    cases e with
    | scalar k n =>
      simp only [decode] at h ⊢
      generalize getBytes data p n = r at h ⊢
      obtain ⟨s', bs, q'⟩ := r
      cases s' <;> cases h <;> exact ⟨_, rfl⟩
    | bool =>
      simp only [decode] at h ⊢
      generalize getBytes data p 1 = r at h ⊢
      obtain ⟨s', bs, q'⟩ := r
      cases s' <;> cases h <;> exact ⟨_, rfl⟩
    | varint n zz =>
      simp only [decode, getVarint] at h ⊢
      split
      · rename_i hl; rw [if_pos hl] at h; cases h; exact ⟨_, rfl⟩
      · rename_i hl
        rw [if_neg hl] at h
        generalize readVarintRaw n (data.drop p) = r at h ⊢
        cases r <;> cases h <;> exact ⟨_, rfl⟩
    | _ => cases he

/-- As `pbPacked_push`, when an element after `vs` cannot be read. -/
theorem pbPacked_fail {c : Cfg} {t : Ty} {sub : List UInt8} {elem : Nat → Res} {w : Val → Option (List UInt8)}
    {W : List Val → Option (List UInt8)} (hnil : W [] = some []) (hcons : ∀ v vs, W (v :: vs) = cat (w v) (W vs))
    {endPos : Nat} {rest : List UInt8} {s : Status} (hs : s ≠ .ok) {x : Val} {q : Nat} :
    ∀ (vs acc : List Val) (bs : List UInt8) (p f : Nat), W vs = some bs → p ≤ sub.length → sub.drop p = bs ++ rest →
      p + bs.length < endPos → sub.length < f + p →
      (∀ v ∈ vs, ∀ b, w v = some b → 0 < b.length ∧ Rd sub elem b v) → elem (p + bs.length) = ⟨s, x, q⟩ →
      pbPacked (pbFetch c t elem) endPos f acc p = ⟨s, pushAll c t vs acc, q⟩ := by
  intro vs
  induction vs with
  | nil =>
    intro acc bs p f h hp hd he hf _ hbad
    rw [hnil] at h; cases h
    simp only [List.length_nil, Nat.add_zero] at he hbad
    cases f with
    | zero => omega
    | succ f =>
      rw [pbPacked, if_pos he]
      simp only [pbFetch, hbad]
      cases s <;> first | exact absurd rfl hs | rfl
  | cons v vs ih =>
    intro acc bs p f h hp hd he hf hr hbad
    rw [hcons, cat_eq_some] at h
    obtain ⟨a, y, hx, hy, rfl⟩ := h
    rw [List.append_assoc] at hd
    obtain ⟨hpos, h1⟩ := hr v (by simp) a hx
    have h1 := h1 p _ hp hd
    have hsp := drop_split hp hd
    simp only [List.length_append] at he hbad
    cases f with
    | zero => omega
    | succ f =>
      rw [pbPacked, if_pos (by omega)]
      simp only [pbFetch, h1]
      rw [ih (pbPush c t v acc) y (p + a.length) f hy hsp.1 hsp.2 (by omega) (by omega)
        (fun v' h' => hr v' (by simp [h'])) (by rw [Nat.add_assoc]; exact hbad)]
      rfl

theorem emptied_getD (t : Ty) : ∀ (fs : List Ty) (os : List Val) (m : Nat), fs[m]? = some t →
    (emptied fs os).getD m .unit = startValue t (os.getD m .unit)
  | [], _, _, h => by simp at h
  | u :: us, os, 0, h => by
    simp only [List.getElem?_cons_zero, Option.some.injEq] at h
    subst h
    cases os <;> rfl
  | u :: us, os, m + 1, h => by
    simp only [List.getElem?_cons_succ] at h
    have := emptied_getD t us os.tail m h
    rw [emptied]
    cases os with
    | nil => simpa [List.getD] using this
    | cons o os => simpa [List.getD] using this

theorem elems_list {v : Val} (h : v.elems.isEmpty = false) : v = .list v.elems := by
  cases v <;> first | rfl | cases h

theorem recEffect_list (c : Cfg) {t : Ty} (ht : repeats t = true) (r : Rec) {cur : Val} (hc : cur = .list cur.elems) :
    recEffect c t r cur = .list (recEffect c t r cur).elems := by
  cases t <;> first | cases ht | skip
  all_goals
    cases r <;> simp only [recEffect] <;> first | rfl | exact hc | skip
  all_goals
    split
    · first | exact hc | rfl
    · rename_i h
      first
      | rfl
      | (split
         · exact elems_list (by simpa using h)
         · rfl)

theorem recsEffect_list (c : Cfg) {fs : List Ty} {m : Nat} {t : Ty} (hm : fs[m]? = some t) (ht : repeats t = true) :
    ∀ (rs : List Rec) (vs : List Val), vs.getD m .unit = .list (vs.getD m .unit).elems →
      (recsEffect c fs rs vs).getD m .unit = .list ((recsEffect c fs rs vs).getD m .unit).elems := by
  intro rs
  induction rs with
  | nil => intro vs h; rw [recsEffect]; exact h
  | cons r rs ih =>
    intro vs h
    rw [recsEffect]
    apply ih
    cases hr : r.member with
    | none => exact h
    | some k =>
      dsimp only
      by_cases hk : k = m
      · subst hk
        have ht' : fs.getD k .empty = t := by simp [List.getD, hm]
        rw [ht']
        by_cases hl : k < vs.length
        · have : (vs.set k (recEffect c t r (vs.getD k .unit))).getD k .unit = recEffect c t r (vs.getD k .unit) := by
            simp [List.getD, hl]
          rw [this]
          exact recEffect_list c ht r h
        · rw [List.set_eq_of_length_le (by omega)]; exact h
      · have : ∀ x, (vs.set k x).getD m .unit = vs.getD m .unit := by
          intro x; simp [List.getD, hk]
        rw [this]; exact h

/-- Containers hold lists. -/
theorem membersAfter_list {c : Cfg} {fs : List Ty} {m : Nat} {t : Ty} (hm : fs[m]? = some t) (ht : repeats t = true)
    (rs : List Rec) (old : Val) :
    (membersAfter c fs rs old).getD m .unit = .list ((membersAfter c fs rs old).getD m .unit).elems := by
  refine recsEffect_list _ hm ht rs _ ?_
  rw [emptied_getD t fs _ m hm]
  cases t <;> first | rfl | cases ht

theorem membersAfter_self {c : Cfg} {fs : List Ty} {m : Nat} {t : Ty} (hm : fs[m]? = some t) (rs : List Rec) (old : Val) :
    (membersAfter c fs rs old).set m ((membersAfter c fs rs old).getD m .unit) = membersAfter c fs rs old := by
  have hlv : (membersAfter c fs rs old).length = fs.length := by rw [membersAfter, recsEffect_length, emptied_length]
  have hm : m < (membersAfter c fs rs old).length := by
    rw [hlv]
    rcases Nat.lt_or_ge m fs.length with h' | h'
    · exact h'
    · simp [List.getElem?_eq_none h'] at hm
  simp [List.getD, List.getElem?_eq_getElem hm]

theorem packed_num {env : Nat → Ty} {maps num i} {t elem : Ty} (hok : pbFieldOk env maps num i t = true)
    (h : packedOf t = some elem) : numTy (packedElem elem) = true := by
  obtain ⟨hpk, ht⟩ := packedOf_eq h
  have hnum : pbElemOk env elem = true → numTy (packedElem elem) = true := by
    intro o3
    simp only [pbElemOk, Bool.or_eq_true] at o3
    rcases o3 with (h | h) | h
    · exact h
    · rw [(repeated_class (Or.inl h)).2.1] at hpk; cases hpk
    · rw [(repeated_class (env := env) (Or.inr h)).2.1] at hpk; cases hpk
  rcases ht with ⟨k, sz, rfl⟩ | ⟨multi, hashed, sz, rfl⟩
  · simp only [pbFieldOk, Bool.and_eq_true] at hok
    exact hnum hok.1.2
  · simp only [pbFieldOk, Bool.and_eq_true] at hok
    exact hnum hok.1.2

/-- How packed members are read. -/
theorem packed_read {c : Cfg} {rec : Ty → Val → Nat → Res} {fresh : Ty → Val} {t elem : Ty} (h : packedOf t = some elem) {wt : Nat}
    {old : Val} {data : List UInt8} {p : Nat} :
    pbDecField c rec fresh t wt old data p = pbDecPacked c rec t (packedElem elem) (fixedElem elem) wt old data p := by
  obtain ⟨hpk, ht⟩ := packedOf_eq h
  have hcl : pbInClass t = pbElemClass elem := by rcases ht with ⟨k, sz, rfl⟩ | ⟨multi, hashed, sz, rfl⟩ <;> rfl
  unfold pbDecField
  rw [hcl]
  cases elem with
  | scalar k n => cases k <;> rfl
  | bool => rfl
  | varint n zz => rfl
  | _ => simp [isPacked] at hpk

/-- How the elements of other repeated members are read. -/
theorem repeated_read {c : Cfg} {rec : Ty → Val → Nat → Res} {fresh : Ty → Val} {t : Ty} (hr : repeats t = true)
    (h : packedOf t = none) {wt : Nat} {old : Val} {data : List UInt8} {p : Nat} :
    pbDecField c rec fresh t wt old data p = (pbFetch c t (rec (elemTy t) (fresh (elemTy t))) old.elems p).toRes ∧
      packedElem (elemTy t) = elemTy t := by
  have key : ∀ e, isPacked e = false → pbElemClass e = .repeated e ∧ packedElem e = e := by
    intro e he
    cases e with
    | scalar k n => cases k <;> cases he
    | bool => cases he
    | varint => cases he
    | _ => exact ⟨rfl, rfl⟩
  have hent : ∀ t, pbEntryTy t = entryMember t := by
    intro t
    cases t with
    | scalar k n => cases k <;> rfl
    | _ => rfl
  cases t <;> first | cases hr | skip
  · rename_i k sz e
    simp only [packedOf] at h
    have he : isPacked e = false := by cases hh : isPacked e <;> simp_all
    refine ⟨?_, (key e he).2⟩
    unfold pbDecField
    simp only [pbInClass, (key e he).1, elemTy]
  · rename_i multi hashed sz ky mp
    cases mp with
    | none =>
      simp only [packedOf] at h
      have he : isPacked ky = false := by cases hh : isPacked ky <;> simp_all
      refine ⟨?_, (key ky he).2⟩
      unfold pbDecField
      simp only [pbInClass, (key ky he).1, elemTy]
    | some mm =>
      refine ⟨?_, rfl⟩
      unfold pbDecField
      simp only [pbInClass, elemTy, pbEntry, hent]

theorem pbDispatch_zero {field : Ty → Nat → Val → Nat → Res} {maps : List (Nat × Nat)} {wt p : Nat} :
    ∀ (nums : List (Option Nat)) (fs : List Ty) (vs : List Val) (i : Nat), 0 ∉ pbNumbers maps i nums →
      vs.length = fs.length →
      pbDispatch field maps 0 wt i nums fs vs p = ⟨.err .protocolError, vs, p⟩ := by
  intro nums
  induction nums with
  | nil => intro fs vs i _ _; cases fs <;> simp [pbDispatch]
  | cons n nums ih =>
    intro fs vs i hn hl
    cases fs with
    | nil => simp [pbDispatch]
    | cons t fs =>
      cases vs with
      | nil => simp at hl
      | cons v vs =>
        simp only [pbNumbers, List.mem_cons, not_or] at hn
        simp only [pbDispatch]
        rw [if_neg (fun e => hn.1 e.symm)]
        simp only [List.tail_cons, List.headD_cons]
        rw [ih fs vs (i + 1) hn.2 (by simpa using hl)]

theorem pbNumbers_pos {c : Cfg} {maps : List (Nat × Nat)} : ∀ (fs : List Ty) (nums : List (Option Nat)) (i : Nat),
    pbFieldsOk c.env maps i nums fs = true → 0 ∉ pbNumbers maps i nums := by
  intro fs
  induction fs with
  | nil =>
    intro nums i h
    cases nums with
    | nil => simp [pbNumbers]
    | cons n nums => simp [pbFieldsOk] at h
  | cons t fs ih =>
    intro nums i h
    cases nums with
    | nil => simp [pbNumbers]
    | cons n nums =>
      obtain ⟨o1, o2, o3, o4, o5, o6, o7⟩ := fieldOk_of h
      simp only [pbNumbers, List.mem_cons, not_or]
      exact ⟨by omega, ih nums (i + 1) o7⟩

end Zpp
