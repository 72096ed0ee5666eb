import Verif.Proof.InLeast
/-! # Stack needed to read an input -/

namespace Zpp
open Spec

/-- An outcome other than stack exhaustion, with the position moving forward inside the input. -/
structure NStep (len p : Nat) (s : Status) (p' : Nat) : Prop where
  code : s ≠ .stack
  mono : p ≤ p'
  inb : p' ≤ len

theorem NStep.refl {len p : Nat} {s : Status} (h : s ≠ .stack) (hp : p ≤ len) : NStep len p s p :=
  ⟨h, Nat.le_refl _, hp⟩

theorem NStep.trans {len p p1 p2 : Nat} {s1 s2 : Status} (h1 : NStep len p s1 p1) (h2 : NStep len p1 s2 p2) :
    NStep len p s2 p2 := ⟨h2.code, Nat.le_trans h1.mono h2.mono, h2.inb⟩

theorem NStep.status {len p p' : Nat} {s s' : Status} (h : NStep len p s p') (h' : s' ≠ .stack) : NStep len p s' p' :=
  ⟨h', h.mono, h.inb⟩

theorem InStep.toN {len p p' : Nat} {s : Status} (h : InStep len p s p') (hs : s ≠ .stack) : NStep len p s p' :=
  ⟨hs, h.mono, h.inb⟩

theorem getBytes_n {data : List UInt8} {p : Nat} (n : Nat) (hp : p ≤ data.length) :
    NStep data.length p (getBytes data p n).1 (getBytes data p n).2.2 := by
  refine (getBytes_safe n hp).1.toN ?_
  unfold getBytes
  repeat' split
  all_goals simp

theorem getVarint_n {data : List UInt8} {p n : Nat} (hn : IntWidth n) (zz : Bool) (old : Val) (hp : p ≤ data.length) :
    NStep data.length p (getVarint n zz old data p).s (getVarint n zz old data p).p := by
  refine (getVarint_safe hn zz old hp).1.toN ?_
  unfold getVarint
  repeat' split
  all_goals simp

theorem decHdr_n {c : Cfg} {data : List UInt8} {p : Nat} (sz : SizeTy) (hp : p ≤ data.length) :
    NStep data.length p (decHdr c sz data p).1 (decHdr c sz data p).2.2 := by
  refine (decHdr_safe sz hp).toN ?_
  unfold decHdr
  cases sz with
  | fixed k =>
    dsimp only
    have h := (getBytes_n k hp).code
    generalize getBytes data p k = r at *
    obtain ⟨s, bs, p'⟩ := r
    cases s <;> first | exact h | simp
  | varint =>
    dsimp only
    have h := (getVarint_n intWidth8 false (.num 0) hp).code
    generalize getVarint 8 false (.num 0) data p = r at *
    obtain ⟨s, v, p'⟩ := r
    cases s
    · cases v <;> simp
    all_goals exact h
  | none => simp

theorem decAll_n {len lo : Nat} {rec : Val → Nat → Res}
    (h : ∀ v p, lo ≤ p → p ≤ len → NStep len p (rec v p).s (rec v p).p) :
    ∀ vs p, lo ≤ p → p ≤ len → NStep len p (decAll rec vs p).s (decAll rec vs p).p := by
  intro vs
  induction vs with
  | nil => intro p _ hp; exact .refl (by simp [decAll]) hp
  | cons v vs ih =>
    intro p hl hp
    unfold decAll
    have h1 := h v p hl hp
    generalize rec v p = r at *
    obtain ⟨s, v', p'⟩ := r
    cases s
    · exact h1.trans (ih p' (Nat.le_trans hl h1.mono) h1.inb)
    all_goals exact h1

theorem decRep_n {c : Cfg} {data : List UInt8} {t : Ty} {n : Nat} {olds : List Val} {p : Nat} (hp : p ≤ data.length) :
    NStep data.length p (decRep c t n olds data p).s (decRep c t n olds data p).p := by
  unfold decRep
  split
  · exact .refl (by simp) hp
  · have h := getBytes_n (n * c.sizeof t) hp
    generalize getBytes data p (n * c.sizeof t) = r at *
    obtain ⟨s, bs, p'⟩ := r
    cases s <;> exact h

theorem decAssoc_n {len lo : Nat} {elem : Nat → Res} {ins : Val → List Val → List Val}
    (h : ∀ p, lo ≤ p → p ≤ len → NStep len p (elem p).s (elem p).p) :
    ∀ n vs p, lo ≤ p → p ≤ len → NStep len p (decAssoc elem ins n vs p).s (decAssoc elem ins n vs p).p := by
  intro n
  induction n with
  | zero => intro vs p _ hp; exact .refl (by simp [decAssoc]) hp
  | succ n ih =>
    intro vs p hl hp
    unfold decAssoc
    have h1 := h p hl hp
    generalize elem p = r at *
    obtain ⟨s, v', p'⟩ := r
    cases s
    · exact h1.trans (ih _ p' (Nat.le_trans hl h1.mono) h1.inb)
    all_goals exact h1

theorem decAlt_n {len : Nat} {rec : Val → Nat → Res} {p : Nat}
    (h : ∀ v, NStep len p (rec v p).s (rec v p).p) (dc : Bool) (i : Nat) (dv old : Val) :
    NStep len p (decAlt rec dc i dv old p).s (decAlt rec dc i dv old p).p := by
  unfold decAlt
  cases dc
  · simp only [Bool.false_eq_true, if_false]
    have h1 := h dv
    generalize rec dv p = r at *
    obtain ⟨s, v', p'⟩ := r
    cases s <;> exact h1
  · simp only [if_true]
    exact h _

/-- Members in order: a member is reached without input, or after at least one byte. -/
theorem decFields_n {len lo m : Nat} {rec : Ty → Val → Nat → Res} {so : Ty → Nat} {dsz : SizeTy} {rank : Nat → Nat} :
    ∀ ts vs p,
    (∀ t ∈ ts, ∀ v p, lo ≤ p → p ≤ len → (lo < p ∨ ∀ j ∈ freeRefs so dsz t, rank j < m) →
      NStep len p (rec t v p).s (rec t v p).p) →
    (∀ t ∈ ts, ∀ v p, p ≤ len → (rec t v p).s = .ok → p + leastBytes so dsz t ≤ (rec t v p).p) →
    lo ≤ p → p ≤ len → (lo < p ∨ ∀ j ∈ freeRefsL so dsz ts, rank j < m) →
    NStep len p (decFields rec ts vs p).s (decFields rec ts vs p).p := by
  intro ts
  induction ts with
  | nil => intro vs p _ _ _ hp _; exact .refl (by simp [decFields]) hp
  | cons t ts ih =>
    intro vs p h hle hl hp hf
    unfold decFields
    have h1 := h t (by simp) (vs.headD .unit) p hl hp (hf.imp id fun hf j hj => hf j (by simp [freeRefsL, hj]))
    have h2 := hle t (by simp) (vs.headD .unit) p hp
    generalize rec t (vs.headD .unit) p = r at *
    obtain ⟨s, v', p'⟩ := r
    cases s
    · have h2 := h2 rfl
      have h3 := h1.mono
      dsimp only at h2 h3
      refine h1.trans (ih vs.tail p' (fun t' ht => h t' (by simp [ht])) (fun t' ht => hle t' (by simp [ht]))
        (by omega) h1.inb ?_)
      by_cases h0 : leastBytes so dsz t = 0
      · rcases hf with hf | hf
        · exact .inl (by omega)
        · exact .inr fun j hj => hf j (by simp [freeRefsL, h0, hj])
      · exact .inl (by omega)
    all_goals exact h1

theorem pbFetch_n {len : Nat} {c : Cfg} {t : Ty} {elem : Nat → Res} {vs : List Val} {p : Nat}
    (h : NStep len p (elem p).s (elem p).p) :
    NStep len p (pbFetch c t elem vs p).s (pbFetch c t elem vs p).p ∧
    (pbFetch c t elem vs p).s = (elem p).s ∧ (pbFetch c t elem vs p).p = (elem p).p := by
  unfold pbFetch
  generalize elem p = r at *
  obtain ⟨s, v', p'⟩ := r
  cases s <;> exact ⟨h, rfl, rfl⟩

theorem pbPacked_n {len lo : Nat} {fetch : List Val → Nat → ResL} {endPos : Nat}
    (h : ∀ vs p, lo ≤ p → p ≤ len →
      NStep len p (fetch vs p).s (fetch vs p).p ∧ ((fetch vs p).s = .ok → p < (fetch vs p).p)) :
    ∀ f vs p, lo ≤ p → p ≤ len → len < f + p →
      NStep len p (pbPacked fetch endPos f vs p).s (pbPacked fetch endPos f vs p).p := by
  intro f
  induction f with
  | zero => intro vs p _ hp hf; omega
  | succ f ih =>
    intro vs p hl hp hf
    unfold pbPacked
    split
    · have h1 := h vs p hl hp
      generalize fetch vs p = r at *
      obtain ⟨s, v', p'⟩ := r
      cases s
      · have := h1.2 rfl
        have hin := h1.1.inb
        simp only at this hin
        exact h1.1.trans (ih v' p' (by omega) hin (by omega))
      all_goals exact h1.1
    · exact .refl (by simp) hp

theorem pbDecPacked_n {c : Cfg} {rec : Ty → Val → Nat → Res} {t elemTy : Ty} {fix : Bool} {wt : Nat} {old : Val}
    {data : List UInt8} {lo p : Nat} (hl : lo ≤ p) (hp : p ≤ data.length) (he : Consumes data.length rec elemTy)
    (hen : ∀ v p, lo ≤ p → p ≤ data.length → (rec elemTy v p).s ≠ .stack)
    (ht : ∀ v p, lo ≤ p → p ≤ data.length → NStep data.length p (rec (unsizedTy t) v p).s (rec (unsizedTy t) v p).p) :
    NStep data.length p (pbDecPacked c rec t elemTy fix wt old data p).s (pbDecPacked c rec t elemTy fix wt old data p).p := by
  unfold pbDecPacked
  simp only
  split
  · exact (pbFetch_n ((he _ _ hp).1.toN (hen _ _ hl hp))).1
  · have h1 := decHdr_n (c := c) .varint hp
    generalize decHdr c .varint data p = r at *
    obtain ⟨s, n, p1⟩ := r
    cases s
    · simp only at h1 ⊢
      have h2 := h1.inb
      have h3 := h1.mono
      split
      · split
        · exact ⟨by simp, h1.mono, h2⟩
        · split
          · exact ⟨by simp, h1.mono, h2⟩
          · exact h1.trans (ht _ _ (Nat.le_trans hl h3) h2)
      · split
        · exact ⟨by simp, h1.mono, h2⟩
        · refine h1.trans (pbPacked_n (lo := lo) ?_ _ _ _ (Nat.le_trans hl h3) h2 (by omega))
          intro vs p hl hp
          have := he .unit p hp
          obtain ⟨f1, f2, f3⟩ := pbFetch_n (c := c) (t := t) (vs := vs) (this.1.toN (hen _ _ hl hp))
          exact ⟨f1, by rw [f2, f3]; exact this.2⟩
    all_goals exact h1

theorem pbDispatch_n {len : Nat} {field : Ty → Nat → Val → Nat → Res} {maps : List (Nat × Nat)} {num wt : Nat} :
    ∀ (fs : List Ty) (nums : List (Option Nat)) (i : Nat) (os : List Val) (p : Nat),
    (∀ t ∈ fs, ∀ wt v, NStep len p (field t wt v p).s (field t wt v p).p) → p ≤ len →
    NStep len p (pbDispatch field maps num wt i nums fs os p).s (pbDispatch field maps num wt i nums fs os p).p := by
  intro fs
  induction fs with
  | nil =>
    intro nums i os p _ hp
    cases nums <;> unfold pbDispatch <;> split <;> exact .refl (by simp) hp
  | cons t ts ih =>
    intro nums i os p h hp
    cases nums with
    | nil => unfold pbDispatch; split <;> exact .refl (by simp) hp
    | cons n ns =>
      unfold pbDispatch
      split
      · exact h t (by simp) _ _
      · exact ih ns (i + 1) os.tail p (fun t' ht => h t' (by simp [ht])) hp

theorem pbLoop_n {data : List UInt8} {field : Ty → Nat → Val → Nat → Res} {maps : List (Nat × Nat)}
    {nums : List (Option Nat)} {fs : List Ty}
    (h : ∀ t ∈ fs, ∀ wt v p, 1 ≤ p → p ≤ data.length → NStep data.length p (field t wt v p).s (field t wt v p).p) :
    ∀ f vs p, p ≤ data.length → data.length < f + p →
    NStep data.length p (pbLoop field maps nums fs data f vs p).s (pbLoop field maps nums fs data f vs p).p := by
  intro f
  induction f with
  | zero => intro vs p hp hf; omega
  | succ f ih =>
    intro vs p hp hf
    unfold pbLoop
    split
    · have h1 := getVarint_safe (n := 4) (by decide) false (.num 0) hp
      have h1n := getVarint_n (n := 4) (by decide) false (.num 0) hp
      generalize getVarint 4 false (.num 0) data p = r at *
      obtain ⟨s, v, p1⟩ := r
      cases s
      · have h2 := h1.2 rfl
        cases v
        case num tag =>
          dsimp only at h2 h1n ⊢
          have h4 := pbDispatch_n (maps := maps) (num := tag >>> 3) (wt := tag &&& 7) fs nums 0 vs p1
            (fun t ht wt v => h t ht wt v p1 (by omega) h1n.inb) h1n.inb
          generalize pbDispatch field maps (tag >>> 3) (tag &&& 7) 0 nums fs vs p1 = q at *
          obtain ⟨s, vs', p2⟩ := q
          have h5 := h4.mono
          have h6 := h4.inb
          dsimp only at h5 h6
          cases s
          · exact (h1n.trans h4).trans (ih vs' p2 h6 (by omega))
          all_goals exact h1n.trans h4
        all_goals exact h1n.status (by simp)
      all_goals exact h1n
    · exact .refl (by simp) hp

theorem numDec_n {d : Nat} {c : Cfg} {t : Ty} {data : List UInt8} (hn : isPacked t = true) (hd : 0 < d) (v : Val) (p : Nat)
    (hw : widthsOk t = true) (hp : p ≤ data.length) : (decode d c t v data p).s ≠ .stack := by
  obtain ⟨d, rfl⟩ : ∃ e, d = e + 1 := ⟨d - 1, by omega⟩
  cases t with
  | scalar k n =>
    have h := (getBytes_n n hp).code
    simp only [decode]
    generalize getBytes data p n = r at *
    obtain ⟨s, bs, p'⟩ := r
    cases s <;> first | exact h | simp
  | bool =>
    have h := (getBytes_n 1 hp).code
    simp only [decode]
    generalize getBytes data p 1 = r at *
    obtain ⟨s, bs, p'⟩ := r
    cases s <;> first | exact h | simp
  | varint n zz => exact (getVarint_n (intWidth_iff.mp hw) _ _ hp).code
  | _ => cases hn

theorem height_pos : ∀ t : Ty, 0 < height t := by
  intro t
  cases t with
  | assoc mu hs sz key m => cases m <;> simp only [height] <;> omega
  | _ => simp only [height] <;> omega

theorem height_mem {ts : List Ty} {t : Ty} (h : t ∈ ts) : height t ≤ heightL ts := by
  induction ts with
  | nil => cases h
  | cons a as ih =>
    simp only [heightL]
    rcases List.mem_cons.1 h with e | e
    · subst e; omega
    · have := ih e; omega

theorem freeRefs_any {so : Ty → Nat} {dsz : SizeTy} {ts : List Ty} {t : Ty} (h : t ∈ ts) {j : Nat}
    (hj : j ∈ freeRefs so dsz t) : j ∈ freeRefsAny so dsz ts := by
  induction ts with
  | nil => cases h
  | cons a as ih =>
    simp only [freeRefsAny, List.mem_append]
    rcases List.mem_cons.1 h with e | e
    · subst e; exact .inl hj
    · exact .inr (ih e)

/-- The budget of stack for `r` bytes of input. -/
def budget (S R : Nat) (r : Nat) : Nat := (S + 1) * R * r

theorem height_unsized (t : Ty) : height (unsizedTy t) = height t := by cases t <;> rfl

theorem height_entryTy (t : Ty) : height (pbEntryTy t) = height t := by
  cases t with
  | scalar k n => cases k <;> rfl
  | _ => rfl

/-- Elements and entries of a member are less nested than the member. -/
theorem pbDecField_n {c : Cfg} {rec : Ty → Val → Nat → Res} {fresh : Ty → Val} {t : Ty} {wt : Nat} {old : Val}
    {data : List UInt8} {lo p : Nat} (hl : lo ≤ p) (hp : p ≤ data.length) (hw : widthsOk t = true)
    (hr : ∀ t' v p, widthsOk t' = true → height t' ≤ height t → lo ≤ p → p ≤ data.length →
      NStep data.length p (rec t' v p).s (rec t' v p).p)
    (hc : ∀ t, widthsOk t = true → isPacked t = true → Consumes data.length rec t) :
    NStep data.length p (pbDecField c rec fresh t wt old data p).s (pbDecField c rec fresh t wt old data p).p := by
  have hu := fun v p hl hp => hr (unsizedTy t) v p (widthsOk_unsized hw) (Nat.le_of_eq (height_unsized t)) hl hp
  have elem : ∀ e, widthsOk e = true → height e ≤ height t → pbInClass t = pbElemClass e →
      NStep data.length p (pbDecField c rec fresh t wt old data p).s (pbDecField c rec fresh t wt old data p).p := by
    intro e hwe hhe hcl
    unfold pbDecField
    rw [hcl]
    have hpk : ∀ e', isPacked e' = true → widthsOk e' = true → ∀ fix,
        NStep data.length p (pbDecPacked c rec t e' fix wt old data p).s (pbDecPacked c rec t e' fix wt old data p).p := by
      intro e' hp' hw' fix
      refine pbDecPacked_n hl hp (hc _ hw' hp') (fun v p hl hp => (hr e' v p hw' ?_ hl hp).code) hu
      have : height e' = 1 := by cases e' <;> first | rfl | cases hp'
      have := height_pos t
      omega
    cases e with
    | scalar k n =>
      cases k <;> simp only [pbElemClass]
      case enum => exact hpk (.varint n false) rfl (widthsOk_varint hwe (.inl rfl)) _
      all_goals exact hpk _ rfl hwe _
    | bool => exact hpk _ rfl rfl _
    | varint n zz => exact hpk _ rfl hwe _
    | _ => exact (pbFetch_n (hr _ _ _ hwe hhe hl hp)).1
  cases t with
  | scalar k n =>
    cases k
    case enum => exact getVarint_n (intWidth_iff.mp (widthsOk_varint hw (.inl rfl))) _ _ hp
    case byte => exact getVarint_n (intWidth_iff.mp (widthsOk_varint hw (.inr rfl))) _ _ hp
    all_goals exact hr _ _ _ hw (Nat.le_refl _) hl hp
  | seq k sz e => exact elem e hw (by simp only [height]; omega) rfl
  | assoc mu ha sz key m =>
    cases m with
    | none => exact elem key hw (by simp only [height]; omega) rfl
    | some m =>
      simp only [widthsOk, Bool.and_eq_true] at hw
      refine (pbFetch_n (hr _ _ _ (widthsOk_entry hw.1 hw.2) ?_ hl hp)).1
      simp only [pbEntry, height, heightL, height_entryTy]
      omega
  | _ => exact hr _ _ _ hw (Nat.le_refl _) hl hp

theorem msgRun_n {c' : Cfg} {rec : Ty → Val → List UInt8 → Nat → Res} {fresh : Ty → Val} {maps : List (Nat × Nat)}
    {nums : List (Option Nat)} {fs : List Ty} {old : Val} {data : List UInt8} (size p H : Nat) (hp : p ≤ data.length)
    (hw : ∀ t ∈ fs, widthsOk t = true) (hh : heightL fs ≤ H)
    (hr : ∀ t v sub q, widthsOk t = true → height t ≤ H → 1 ≤ q → q ≤ sub.length → sub.length ≤ data.length - p →
      NStep sub.length q (rec t v sub q).s (rec t v sub q).p)
    (hc : ∀ t, widthsOk t = true → isPacked t = true → ∀ sub : List UInt8, Consumes sub.length (fun t v p => rec t v sub p) t) :
    NStep data.length p (msgRun c' rec fresh maps nums fs old data size p).s
      (msgRun c' rec fresh maps nums fs old data size p).p := by
  unfold msgRun
  rw [if_neg (by omega)]
  have hlen := msgSub_length (data := data) (p := p) (size := size)
  have h := pbLoop_n (data := msgSub data p size) (maps := maps) (nums := nums) (fs := fs)
    (field := fun t wt v q => pbDecField c' (fun t v q => rec t v (msgSub data p size) q) fresh t wt v (msgSub data p size) q)
    (fun t ht wt v q hl hq => pbDecField_n (lo := 1) hl hq (hw t ht)
      (fun t' v q hw' hh' hl hq => hr t' v _ q hw' (Nat.le_trans hh' (Nat.le_trans (height_mem ht) hh)) hl hq (by omega))
      (fun t hw hn => hc t hw hn _))
    ((msgSub data p size).length + 1) (pbClear fs old.elems) 0 (by omega) (by omega)
  have h1 := h.inb
  have h2 := Nat.le_trans h1 (Nat.le_of_eq msgSub_length)
  exact ⟨h.code, by dsimp only; omega, by dsimp only; omega⟩

theorem seqBody_n {c : Cfg} {k : SeqKind} {t : Ty} {data : List UInt8} {rec : Val → Nat → Res} {lo : Nat}
    (h : ∀ v p, lo ≤ p → p ≤ data.length → NStep data.length p (rec v p).s (rec v p).p) (olds : List Val) (p : Nat)
    (hl : lo ≤ p) (hp : p ≤ data.length) :
    NStep data.length p (seqBody c k t rec olds data p).s (seqBody c k t rec olds data p).p := by
  unfold seqBody
  split
  · exact decRep_n hp
  · exact decAll_n h _ _ hl hp

theorem seqFill_n {c : Cfg} {k : SeqKind} {t : Ty} {data : List UInt8} {rec : Val → Nat → Res} {lo : Nat}
    (h : ∀ v p, lo ≤ p → p ≤ data.length → NStep data.length p (rec v p).s (rec v p).p) (dv old : Val) (n p : Nat)
    (hl : lo ≤ p) (hp : p ≤ data.length) :
    NStep data.length p (seqFill c k t rec dv old data n p).s (seqFill c k t rec dv old data n p).p := by
  unfold seqFill
  split
  · rw [subSz_of_le hp]
    split
    · exact .refl (by simp) hp
    · rw [if_pos (by omega)]
      exact ⟨by simp, by dsimp only; omega, by dsimp only; omega⟩
  · split
    · exact .refl (by simp) hp
    · exact seqBody_n h _ _ hl hp
  · split
    · exact .refl (by simp) hp
    · split
      · exact .refl (by simp) hp
      · exact seqBody_n h _ _ hl hp

theorem cyclesCost_pb {c : Cfg} {R S : Nat} {rank : Nat → Nat} (h : CyclesCost c R S rank) :
    CyclesCost (pbCfg c) R S rank := ⟨h.below, h.nesting, h.inside, h.inside⟩

theorem budget_step {S R r r' : Nat} (h : r' < r) : (S + 1) * R + budget S R r' ≤ budget S R r := by
  unfold budget
  calc (S + 1) * R + (S + 1) * R * r' = (S + 1) * R * (r' + 1) := by rw [Nat.mul_add, Nat.mul_one, Nat.add_comm]
    _ ≤ (S + 1) * R * r := Nat.mul_le_mul_left _ h

theorem budget_mono {S R r r' : Nat} (h : r' ≤ r) : budget S R r' ≤ budget S R r := Nat.mul_le_mul_left _ h

/-- With stack for the nesting of the type, for `m` ranks of classes reachable without input, and for all ranks once
per byte of input, reading does not exhaust the stack. -/
theorem decode_n {R S : Nat} {rank : Nat → Nat} : ∀ (d : Nat) (c : Cfg) (t : Ty) (old : Val) (data : List UInt8) (p m : Nat),
    AbiOk c.sizeof → (∀ i, widthsOk (c.env i) = true) → CyclesCost c R S rank → widthsOk t = true → p ≤ data.length →
    (∀ j ∈ freeRefs c.sizeof c.dsz t, rank j < m) → m ≤ R →
    height t + (S + 1) * m + budget S R (data.length - p) ≤ d →
    NStep data.length p (decode d c t old data p).s (decode d c t old data p).p := by
  intro d
  induction d with
  | zero => intro c t old data p m _ _ _ _ _ _ _ hd; have := height_pos t; omega
  | succ d ih =>
    intro c t old data p m ha henv hcc hw hp hfree hm hd
    -- a part of the object, reached without input or after at least one byte
    have hrec : ∀ t' v q, widthsOk t' = true → height t' < height t → p ≤ q → q ≤ data.length →
        (p < q ∨ ∀ j ∈ freeRefs c.sizeof c.dsz t', rank j < m) →
        NStep data.length q (decode d c t' v data q).s (decode d c t' v data q).p := by
      intro t' v q hw' hh hq1 hq2 hor
      rcases hor with h | h
      · refine ih c t' v data q R ha henv hcc hw' hq2 (fun j _ => hcc.below j) (Nat.le_refl _) ?_
        have := budget_step (S := S) (R := R) (r' := data.length - q) (r := data.length - p) (by omega)
        omega
      · refine ih c t' v data q m ha henv hcc hw' hq2 h hm ?_
        have := budget_mono (S := S) (R := R) (r' := data.length - q) (r := data.length - p) (by omega)
        omega
    cases t with
    | scalar k n => exact (decode_safe (d + 1) c _ old data p henv hw hp).toN (numDec_n rfl (by omega) _ _ hw hp)
    | bool => exact (decode_safe (d + 1) c _ old data p henv hw hp).toN (numDec_n rfl (by omega) _ _ hw hp)
    | varint n zz => exact (decode_safe (d + 1) c _ old data p henv hw hp).toN (numDec_n rfl (by omega) _ _ hw hp)
    | empty => exact .refl (by simp [decode]) hp
    | struct ok fs =>
      simp only [decode]
      split
      · exact decRep_n hp
      · refine decFields_n (lo := p) (m := m) (so := c.sizeof) (dsz := c.dsz) (rank := rank) fs _ p ?_ ?_
          (Nat.le_refl _) hp (.inr fun j hj => hfree j (by simpa [freeRefs] using hj))
        · intro t' ht v q hl hq hor
          refine hrec t' v q (widthsOkL_mem hw t' ht) ?_ hl hq hor
          have := height_mem ht
          simp only [height]; omega
        · intro t' ht v q hq hok
          exact decode_least d c t' v data q ha henv (widthsOkL_mem hw t' ht) hq hok
    | array n t' =>
      simp only [decode]
      split
      · exact decRep_n hp
      · exact decAll_n (lo := p) (fun v q hl hq => hrec t' v q hw (by simp only [height]; omega) hl hq
          (.inr fun j hj => hfree j (by simpa [freeRefs] using hj))) _ _ (Nat.le_refl _) hp
    | seq k sz t' =>
      have hh : height t' < height (.seq k sz t') := by simp only [height]; omega
      have he : effSz c sz = sz.getD c.dsz := rfl
      simp only [decode]
      cases hsz : effSz c sz with
      | none =>
        have hb := fun olds => seqBody_n (c := c) (k := k) (t := t') (lo := p)
          (fun v q hl hq => hrec t' v q hw hh hl hq (.inr fun j hj => hfree j (by
            simp only [freeRefs, ← he, hsz, prefixLeast, if_true]; exact hj))) olds p (Nat.le_refl _) hp
        cases k <;> first | exact hb _ | skip
        unfold seqUnsized
        dsimp only
        rw [if_neg (by omega)]
        exact ⟨by simp, hp, Nat.le_refl _⟩
      | _ =>
        dsimp only
        have h1 := decHdr_n (c := c) (effSz c sz) hp
        have h2 := decHdr_least (c := c) (effSz c sz) hp
        rw [hsz] at h1 h2
        generalize decHdr c _ data p = r at *
        obtain ⟨s, n, p1⟩ := r
        cases s
        · refine h1.trans (seqFill_n (lo := p1) ?_ _ _ _ _ (Nat.le_refl _) h1.inb)
          intro v q hl hq
          have h3 := h2 rfl
          dsimp only at h3
          refine hrec t' v q hw hh (by omega) hq ?_
          simp only [freeRefs, ← he, hsz] at hfree
          by_cases h0 : prefixLeast (effSz c sz) = 0
          · rw [hsz] at h0
            rw [if_pos h0] at hfree; exact .inr hfree
          · rw [hsz] at h0; exact .inl (by omega)
        all_goals exact h1
    | assoc mu hs sz key mapped =>
      have he : effSz c sz = sz.getD c.dsz := rfl
      simp only [decode]
      have h1 := decHdr_n (c := c) (effSz c sz) hp
      have h2 := decHdr_least (c := c) (effSz c sz) hp
      generalize decHdr c (effSz c sz) data p = r at *
      obtain ⟨s, n, p1⟩ := r
      cases s
      · have h3 := h2 rfl
        dsimp only at h3
        refine h1.trans (s2 := (ResL.toRes _).s) (p2 := (ResL.toRes _).p)
          (decAssoc_n (lo := p1) ?_ _ _ _ (Nat.le_refl _) h1.inb)
        intro q hl hq
        have hor : ∀ t', (∀ j ∈ freeRefs c.sizeof c.dsz t', prefixLeast (effSz c sz) = 0 → rank j < m) →
            (p < q ∨ ∀ j ∈ freeRefs c.sizeof c.dsz t', rank j < m) := by
          intro t' h
          by_cases h0 : prefixLeast (effSz c sz) = 0
          · exact .inr fun j hj => h j hj h0
          · exact .inl (by omega)
        cases mapped with
        | none =>
          refine hrec key _ q hw (by simp only [height]; omega) (by omega) hq (hor key fun j hj h0 => hfree j ?_)
          rw [he] at h0
          simp only [freeRefs, h0, if_true]; exact hj
        | some mp =>
          simp only [widthsOk, Bool.and_eq_true] at hw
          have hk : ∀ t', t' = key ∨ t' = mp → ∀ v q', q ≤ q' → q' ≤ data.length →
              NStep data.length q' (decode d c t' v data q').s (decode d c t' v data q').p := by
            intro t' ht v q' hq1 hq2
            refine hrec t' v q' ?_ ?_ (by omega) hq2 ?_
            · rcases ht with rfl | rfl
              · exact hw.1
              · exact hw.2
            · rcases ht with rfl | rfl <;> simp only [height] <;> omega
            · by_cases h0 : prefixLeast (effSz c sz) = 0
              · refine .inr fun j hj => hfree j ?_
                rw [he] at h0
                simp only [freeRefs, h0, if_true, List.mem_append]
                rcases ht with rfl | rfl
                · exact .inl hj
                · exact .inr hj
              · exact .inl (by omega)
          refine decFields_n (lo := q) (m := 1) (so := c.sizeof) (dsz := c.dsz) (rank := fun _ => 0) [key, mp] _ q ?_ ?_
            (Nat.le_refl _) hq ?_
          · intro t' ht v q' hl' hq' _
            exact hk t' (by simpa using ht) v q' hl' hq'
          · intro t' ht v q' hq' hok
            simp only [List.mem_cons, List.not_mem_nil, or_false] at ht
            refine decode_least d c t' v data q' ha henv ?_ hq' hok
            rcases ht with rfl | rfl
            · exact hw.1
            · exact hw.2
          · exact .inr fun _ _ => Nat.one_pos
      all_goals exact h1
    | optional dc t' =>
      have hh : height t' < height (.optional dc t') := by simp only [height]; omega
      simp only [decode]
      have h1 := getBytes_n 1 hp
      have h0 := (getBytes_safe 1 hp).2
      generalize getBytes data p 1 = r at *
      obtain ⟨s, bs, p1⟩ := r
      cases s
      · have h0 := (h0 rfl).1
        dsimp only at h0 h1 ⊢
        split
        · exact h1
        · have h2 := fun v => hrec t' v p1 hw hh (by omega) h1.inb (.inl (by omega))
          cases dc
          · have h2 := h2 (dflt c d t')
            simp only [Bool.false_eq_true, if_false]
            generalize decode d c t' (dflt c d t') data p1 = r at *
            obtain ⟨s, v, p2⟩ := r
            cases s <;> exact h1.trans h2
          · exact h1.trans (h2 _)
      all_goals exact h1
    | optPtr t' =>
      have hh : height t' < height (.optPtr t') := by simp only [height]; omega
      simp only [decode]
      have h1 := getBytes_n 1 hp
      have h0 := (getBytes_safe 1 hp).2
      generalize getBytes data p 1 = r at *
      obtain ⟨s, bs, p1⟩ := r
      cases s
      · have h0 := (h0 rfl).1
        dsimp only at h0 h1 ⊢
        split
        · exact h1
        · have h2 := hrec t' (dflt c d t') p1 hw hh (by omega) h1.inb (.inl (by omega))
          generalize decode d c t' (dflt c d t') data p1 = r at *
          obtain ⟨s, v, p2⟩ := r
          cases s <;> exact h1.trans h2
      all_goals exact h1
    | uptr t' =>
      have hh : height t' < height (.uptr t') := by simp only [height]; omega
      simp only [decode]
      have h2 := hrec t' (dflt c d t') p hw hh (Nat.le_refl _) hp (.inr fun j hj => hfree j (by simpa [freeRefs] using hj))
      generalize decode d c t' (dflt c d t') data p = r at *
      obtain ⟨s, v, p2⟩ := r
      cases s <;> exact h2
    | variant idTy ids dcs alts =>
      simp only [widthsOk, Bool.and_eq_true] at hw
      simp only [decode]
      have h1 := hrec idTy (dflt c d idTy) p hw.1 (by simp only [height]; omega) (Nat.le_refl _) hp
        (.inr fun j hj => hfree j (by simp [freeRefs, hj]))
      have h0 := decode_least d c idTy (dflt c d idTy) data p ha henv hw.1 hp
      generalize decode d c idTy (dflt c d idTy) data p = r at *
      obtain ⟨s, id, p1⟩ := r
      cases s
      · have h0 := h0 rfl
        dsimp only at h0 h1 ⊢
        split
        · exact h1.status (by simp)
        · split
          · next i _ _ _ t' dc ht _ =>
            have hmem := List.mem_of_getElem? ht
            refine h1.trans (decAlt_n (fun v => hrec t' v p1 (widthsOkL_mem hw.2 t' hmem) ?_ (by omega) h1.inb ?_) _ _ _ _)
            · have := height_mem hmem
              simp only [height]; omega
            · by_cases hz : leastBytes c.sizeof c.dsz idTy = 0
              · exact .inr fun j hj => hfree j (by simp [freeRefs, hz, freeRefs_any hmem hj])
              · exact .inl (by omega)
          · exact h1.status (by simp)
      all_goals exact h1
    | bitset n =>
      simp only [decode]
      have h1 := getBytes_n ((n + 7) / 8) hp
      generalize getBytes data p ((n + 7) / 8) = r at *
      obtain ⟨s, bs, p1⟩ := r
      cases s <;> exact h1
    | msg sz ok maps nums fs =>
      have hrun : ∀ size q, p ≤ q → q ≤ data.length → _ := fun size q hpq hq =>
        msgRun_n (c' := pbCfg c) (fresh := dflt (pbCfg c) d) (maps := maps) (nums := nums) (fs := fs) (old := old)
          (data := data) (rec := decode d (pbCfg c)) size q (heightL fs) hq (widthsOkL_mem hw) (Nat.le_refl _)
          (fun t v sub q' hw' hh h1 hq' hsub => by
            refine ih (pbCfg c) t v sub q' R ha henv (cyclesCost_pb hcc) hw' hq' (fun j _ => hcc.below j) (Nat.le_refl _) ?_
            have := budget_step (S := S) (R := R) (r' := sub.length - q') (r := data.length - p) (by omega)
            simp only [height] at hd
            omega)
          (fun t hw hn sub => numDec_safe (d := d) hw hn)
      simp only [decode]
      split
      · exact hrun _ _ (Nat.le_refl _) hp
      · have h1 := decHdr_n (c := c) (effSz c sz) hp
        generalize decHdr c (effSz c sz) data p = r at *
        obtain ⟨s, n, p1⟩ := r
        cases s
        · exact h1.trans (hrun _ _ h1.mono h1.inb)
        all_goals exact h1
    | ref i =>
      have hi : rank i < m := hfree i (by simp [freeRefs])
      refine ih c (c.env i) old data p (rank i) ha henv hcc (henv i) hp (hcc.outside i) (Nat.le_of_lt (hcc.below i)) ?_
      have h1 := hcc.nesting i
      have h2 : (S + 1) * (rank i + 1) ≤ (S + 1) * m := Nat.mul_le_mul_left _ hi
      rw [Nat.mul_add, Nat.mul_one] at h2
      simp only [height] at hd
      omega

end Zpp
