import Verif.Proof.InRecords
import Verif.Proof.InShift
import Verif.Proof.InSafe
/-! # Protobuf messages in two parts -/

namespace Zpp
open Spec

/-- Reading a member that is not a container sees only the bytes from its position on. -/
theorem pbDecField_shift {c : Cfg} {d : Nat} {t : Ty} (ht : repeats t = false) (pre data : List UInt8) (fresh : Ty → Val)
    (wt : Nat) (v : Val) (q : Nat) :
    pbDecField c (fun t v q => decode d c t v (pre ++ data) q) fresh t wt v (pre ++ data) (pre.length + q) =
      (pbDecField c (fun t v q => decode d c t v data q) fresh t wt v data q).shift pre.length := by
  cases t with
  | scalar k n => cases k <;> first | exact getVarint_shift .. | exact decode_shift ..
  | seq k s e => cases ht
  | assoc mu ha s key m => cases ht
  | _ => exact decode_shift ..

theorem pbDispatch_shift {field field' : Ty → Nat → Val → Nat → Res} {maps : List (Nat × Nat)} {num wt k : Nat} :
    ∀ (fs : List Ty) (nums : List (Option Nat)) (i : Nat) (os : List Val) (q : Nat),
    (∀ t ∈ fs, ∀ wt v q, field' t wt v (k + q) = (field t wt v q).shift k) →
    pbDispatch field' maps num wt i nums fs os (k + q) = (pbDispatch field maps num wt i nums fs os q).shift k := by
  intro fs
  induction fs with
  | nil =>
    intro nums i os q _
    cases nums <;> unfold pbDispatch <;> split <;> rfl
  | cons t ts ih =>
    intro nums i os q h
    cases nums with
    | nil => unfold pbDispatch; split <;> rfl
    | cons n ns =>
      simp only [pbDispatch]
      split
      · rw [h t (by simp)]; rfl
      · rw [ih ns (i + 1) os.tail q (fun t' ht => h t' (by simp [ht]))]; rfl

/-- The loop over the records, behind `pre` and with more or less fuel. -/
theorem pbLoop_shift {pre data : List UInt8} {field field' : Ty → Nat → Val → Nat → Res} {maps : List (Nat × Nat)}
    {nums : List (Option Nat)} {fs : List Ty}
    (hs : ∀ t ∈ fs, ∀ wt v p, p ≤ data.length → InStep data.length p (field t wt v p).s (field t wt v p).p)
    (h : ∀ t ∈ fs, ∀ wt v q, field' t wt v (pre.length + q) = (field t wt v q).shift pre.length) :
    ∀ f g vs q, q ≤ data.length → data.length < f + q → data.length < g + q →
    pbLoop field' maps nums fs (pre ++ data) f vs (pre.length + q) =
      (pbLoop field maps nums fs data g vs q).shift pre.length := by
  intro f
  induction f with
  | zero => intro g vs q h1 h2; omega
  | succ f ih =>
    intro g vs q hq hf hg
    cases g with
    | zero => omega
    | succ g =>
      simp only [pbLoop, List.length_append]
      by_cases hl : q < data.length
      · rw [if_pos hl, if_pos (by omega), getVarint_shift]
        have h1 := getVarint_safe (n := 4) (by decide) false (.num 0) hq
        generalize getVarint 4 false (.num 0) data q = r at *
        obtain ⟨s, v, p1⟩ := r
        cases s
        · have h2 := h1.2 rfl
          have h3 := h1.1
          cases v
          case num tag =>
            dsimp only [Res.shift] at h2 h3 ⊢
            rw [pbDispatch_shift fs nums 0 vs p1 h]
            have h4 := pbDispatch_safe (maps := maps) (num := tag >>> 3) (wt := tag &&& 7) fs nums 0 vs p1 hs h3.inb
            generalize pbDispatch field maps (tag >>> 3) (tag &&& 7) 0 nums fs vs p1 = x at *
            obtain ⟨s, vs', p2⟩ := x
            have h5 := h4.mono
            have h6 := h4.inb
            dsimp only at h5 h6
            cases s
            · exact ih g vs' p2 h6 (by omega) (by omega)
            all_goals rfl
          all_goals rfl
        all_goals rfl
      · rw [if_neg hl, if_neg (by omega)]; rfl

/-- Records of members that are no containers leave a start value a start value. -/
theorem startValue_rec {c : Cfg} {env : Nat → Ty} {maps : List (Nat × Nat)} {nums : List (Option Nat)} {fs : List Ty} {m : Nat} {t : Ty}
    (ht : fs[m]? = some t) (hr : repeats t = false) {r : Rec} {bs : List UInt8} (hm : r.member = some m)
    (hb : recBytes env maps nums fs r = some bs) (cur : Val) (hc : startValue t cur = cur) :
    startValue t (recEffect c t r cur) = recEffect c t r cur := by
  cases t with
  | seq k s e => cases hr
  | assoc mu ha s key mm => cases hr
  | empty =>
    cases r <;> simp only [Rec.member, Option.some.injEq, reduceCtorEq] at hm
    all_goals subst hm
    all_goals simp [recBytes, ht, packedOf, msgOf, elemTy, recEffect] at hb ⊢
    exact hc
  | _ => rfl

theorem emptied_of {fs : List Ty} {vs : List Val} (hl : vs.length = fs.length)
    (h : ∀ (m : Nat) t v, fs[m]? = some t → vs[m]? = some v → startValue t v = v) : emptied fs vs = vs := by
  apply List.ext_getElem?
  intro m
  rcases Nat.lt_or_ge m fs.length with hm | hm
  · have hv : vs[m]? = some vs[m] := List.getElem?_eq_getElem (by omega)
    rw [emptied_get fs vs m _ (List.getElem?_eq_getElem hm), hv]
    have := h m _ _ (List.getElem?_eq_getElem hm) hv
    simp only [List.getD, hv, Option.getD_some]
    rw [this]
  · rw [List.getElem?_eq_none (by rw [emptied_length]; omega), List.getElem?_eq_none (by omega)]

/-- What reading a first part leaves is what reading the second part starts from. -/
theorem emptied_recs {c : Cfg} {env : Nat → Ty} {maps : List (Nat × Nat)} {nums : List (Option Nat)} {fs : List Ty}
    (hr : ∀ t ∈ fs, repeats t = false) : ∀ (rs : List Rec) (bs : List UInt8) (vs : List Val), vs.length = fs.length →
    recsBytes env maps nums fs rs = some bs → (∀ (m : Nat) t v, fs[m]? = some t → vs[m]? = some v → startValue t v = v) →
    emptied fs (recsEffect c fs rs vs) = recsEffect c fs rs vs := by
  intro rs
  induction rs with
  | nil => intro bs vs hl _ h; rw [recsEffect]; exact emptied_of hl h
  | cons r rs ih =>
    intro bs vs hl hb h
    rw [recsBytes] at hb
    cases h1 : recBytes env maps nums fs r with
    | none => rw [h1] at hb; cases hb
    | some b1 =>
      cases h2 : recsBytes env maps nums fs rs with
      | none => rw [h1, h2] at hb; cases hb
      | some b2 =>
        rw [recsEffect]
        apply ih b2 _ _ h2
        · intro m t v ht hv
          cases hm : r.member with
          | none => rw [hm] at hv; exact h m t v ht hv
          | some m' =>
            rw [hm] at hv
            dsimp only at hv
            by_cases he : m' = m
            · subst he
              have hlt : m' < vs.length := by
                rw [hl]
                rcases Nat.lt_or_ge m' fs.length with h' | h'
                · exact h'
                · rw [List.getElem?_eq_none h'] at ht; cases ht
              rw [List.getElem?_set_self hlt, Option.some.injEq] at hv
              subst hv
              have hg : fs.getD m' .empty = t := by simp [List.getD, ht]
              have hv : vs[m']? = some (vs.getD m' .unit) := by simp [List.getD, List.getElem?_eq_getElem hlt]
              rw [hg]
              exact startValue_rec ht (hr t (List.mem_of_getElem? ht)) hm h1 _ (h m' t _ ht hv)
            · rw [List.getElem?_set_ne he] at hv
              exact h m t v ht hv
        · split <;> simp [hl]

theorem startValue_twice (t : Ty) (v : Val) : startValue t (startValue t v) = startValue t v := by
  cases t <;> rfl

/-- A message without size prefix in two parts: records, and any bytes. -/
theorem msg_parts (d : Nat) (c : Cfg) (ha : AbiOk c.sizeof) (he : EnvGood c) (henv : ∀ i, widthsOk (c.env i) = true)
    {ok : Bool} {maps : List (Nat × Nat)} {nums : List (Option Nat)} {fs : List Ty} {sz : Option SizeTy} {rs : List Rec}
    {a b : List UInt8} (hsz : sz.getD c.dsz = .none) (hw : ∀ t ∈ fs, widthsOk t = true) (hno : ∀ t ∈ fs, repeats t = false)
    (gt : Good c (.msg sz ok maps nums fs) = true) (hb : recsBytes c.env maps nums fs rs = some a)
    (hro : RecsOk (pbCfg c) maps nums fs rs) (hd : 2 * recDepthL rs ≤ d) (old : Val) (hlen : (a ++ b).length < 2 ^ 64) :
    decode (d + 1) c (.msg sz ok maps nums fs) old (a ++ b) 0 =
      (decode (d + 1) c (.msg sz ok maps nums fs)
        (.list (recsEffect (pbCfg c) fs rs (emptied fs old.elems))) b 0).shift a.length := by
  simp only [Good, nodeOk, Bool.and_eq_true] at gt
  obtain ⟨⟨⟨⟨g1, g2⟩, g3⟩, g4⟩, g5⟩ := gt
  obtain ⟨ihp, ihu⟩ := decode_round d (pbCfg c) ha (EnvGood.pb he)
  have hes : effSz c sz = .none := hsz
  have hsub : ∀ x : List UInt8, x.length < 2 ^ 64 → msgSub x 0 sizeMax = x := by
    intro x hx
    unfold msgSub sizeMax
    simp only [List.drop_zero, Nat.sub_zero]
    exact List.take_of_length_le (by omega)
  have hlb : b.length < 2 ^ 64 := by rw [List.length_append] at hlen; omega
  rw [decode, decode]
  simp only [hes]
  unfold msgRun
  simp only [hsub _ hlen, hsub _ hlb, Nat.not_lt_zero, if_false]
  have hst := recs_steps (c := pbCfg c) (inPb_pbCfg c) ha ihp ihu (decode_recs d (pbCfg c) (inPb_pbCfg c) ha (EnvGood.pb he))
    (sub := a ++ b) hlen (fresh := dflt (pbCfg c) d) (decFresh_dflt (pbCfg c) d) g1 g5 g2 rs
    (pbClear fs old.elems) a b 0 (by rw [pbClear_emptied, emptied_length]) hro hb hd (by omega) (by simp)
  obtain ⟨f', h1, h2⟩ := hst ((a ++ b).length + 1) (by omega)
  rw [h2, pbClear_emptied, pbClear_emptied]
  have h3 := pbLoop_shift (pre := a) (data := b) (maps := maps) (nums := nums)
    (field := fun t wt v q => pbDecField (pbCfg c) (fun t v q => decode d (pbCfg c) t v b q) (dflt (pbCfg c) d) t wt v b q)
    (field' := fun t wt v q => pbDecField (pbCfg c) (fun t v q => decode d (pbCfg c) t v (a ++ b) q) (dflt (pbCfg c) d) t wt v (a ++ b) q)
    (fs := fs)
    (fun t ht wt v q hq => pbDecField_safe hq (hw t ht) (fun t v q hw hq => decode_safe d (pbCfg c) t v b q henv hw hq)
      (fun t hw hn => numDec_safe hw hn))
    (fun t ht wt v q => pbDecField_shift (hno t ht) a b _ wt v q)
    f' (b.length + 1) (recsEffect (pbCfg c) fs rs (emptied fs old.elems)) 0 (by omega)
    (by rw [List.length_append, Nat.zero_add] at h1; omega) (by omega)
  rw [Nat.add_zero] at h3
  rw [Nat.zero_add, h3]
  have h4 := emptied_recs (c := pbCfg c) (env := c.env) hno rs a (emptied fs old.elems) (emptied_length _ _) hb (by
    intro m t v ht hv
    rw [emptied_get fs old.elems m t ht, Option.some.injEq] at hv
    rw [← hv]; exact startValue_twice _ _)
  have h5 : (Val.list (recsEffect (pbCfg c) fs rs (emptied fs old.elems))).elems = recsEffect (pbCfg c) fs rs (emptied fs old.elems) := rfl
  rw [h5, h4]
  simp [ResL.shift, Res.shift]

end Zpp
