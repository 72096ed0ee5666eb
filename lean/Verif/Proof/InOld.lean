import Verif.Proof.InSafe
/-! # Reading does not depend on the previous contents of the destination -/

namespace Zpp
open Spec

/-- Same outcome and position; same object if successful. -/
structure Same (r r' : Res) : Prop where
  s : r.s = r'.s
  p : r.p = r'.p
  v : r.s = .ok → r.v = r'.v

/-- `Same` for lists of objects. -/
structure SameL (r r' : ResL) : Prop where
  s : r.s = r'.s
  p : r.p = r'.p
  v : r.s = .ok → r.vs = r'.vs

theorem Same.rfl' (r : Res) : Same r r := ⟨rfl, rfl, fun _ => rfl⟩
theorem SameL.rfl' (r : ResL) : SameL r r := ⟨rfl, rfl, fun _ => rfl⟩
theorem SameL.toRes {r r' : ResL} (h : SameL r r') : Same r.toRes r'.toRes :=
  ⟨h.s, h.p, fun hs => congrArg Val.list (h.v hs)⟩

theorem getVarint_old (n : Nat) (zz : Bool) (o o' : Val) (data : List UInt8) (p : Nat) :
    Same (getVarint n zz o data p) (getVarint n zz o' data p) := by
  unfold getVarint
  split
  · exact ⟨rfl, rfl, by simp⟩
  · split
    · exact .rfl' _
    all_goals exact ⟨rfl, rfl, by simp⟩

theorem decAll_old {rec : Val → Nat → Res} (h : ∀ v v' p, Same (rec v p) (rec v' p)) :
    ∀ vs vs' p, vs.length = vs'.length → SameL (decAll rec vs p) (decAll rec vs' p) := by
  intro vs
  induction vs with
  | nil => intro vs' p hl; cases vs' with
    | nil => exact .rfl' _
    | cons => simp at hl
  | cons v vs ih =>
    intro vs' p hl
    cases vs' with
    | nil => simp at hl
    | cons v' vs' =>
      unfold decAll
      have h1 := h v v' p
      generalize rec v p = r at *
      generalize rec v' p = r' at *
      obtain ⟨s, w, q⟩ := r
      obtain ⟨s', w', q'⟩ := r'
      obtain ⟨hs, hp, hv⟩ := h1
      dsimp only at hs hp hv
      subst hs hp
      cases s
      · have h2 := ih vs' q (by simpa using hl)
        have h3 := hv rfl
        subst h3
        exact ⟨h2.s, h2.p, fun e => by simp only [List.cons.injEq, true_and]; exact h2.v e⟩
      all_goals exact ⟨rfl, rfl, by simp⟩

theorem decFields_old {rec : Ty → Val → Nat → Res} : ∀ ts vs vs' p,
    (∀ t ∈ ts, ∀ v v' p, Same (rec t v p) (rec t v' p)) →
    SameL (decFields rec ts vs p) (decFields rec ts vs' p) := by
  intro ts
  induction ts with
  | nil => intro vs vs' p _; exact .rfl' _
  | cons t ts ih =>
    intro vs vs' p h
    unfold decFields
    have h1 := h t (by simp) (vs.headD .unit) (vs'.headD .unit) p
    generalize rec t (vs.headD .unit) p = r at *
    generalize rec t (vs'.headD .unit) p = r' at *
    obtain ⟨s, w, q⟩ := r
    obtain ⟨s', w', q'⟩ := r'
    obtain ⟨hs, hp, hv⟩ := h1
    dsimp only at hs hp hv
    subst hs hp
    cases s
    · have h2 := ih vs.tail vs'.tail q (fun t' ht => h t' (by simp [ht]))
      have h3 := hv rfl
      subst h3
      exact ⟨h2.s, h2.p, fun e => by simp only [List.cons.injEq, true_and]; exact h2.v e⟩
    all_goals exact ⟨rfl, rfl, by simp⟩

theorem decRep_old {c : Cfg} {t : Ty} {n : Nat} {o o' : List Val} {data : List UInt8} {p : Nat}
    (hso : 0 < c.sizeof t) (h : o.length = n) (h' : o'.length = n) :
    SameL (decRep c t n o data p) (decRep c t n o' data p) := by
  unfold decRep
  split
  · next hz =>
    have : n = 0 := by
      rcases Nat.mul_eq_zero.mp hz with h | h <;> omega
    have e1 : o = [] := List.eq_nil_of_length_eq_zero (by omega)
    have e2 : o' = [] := List.eq_nil_of_length_eq_zero (by omega)
    rw [e1, e2]
    exact .rfl' _
  · generalize getBytes data p (n * c.sizeof t) = r at *
    obtain ⟨s, bs, p'⟩ := r
    cases s
    · exact .rfl' _
    all_goals exact ⟨rfl, rfl, by simp⟩

theorem seqBody_old {c : Cfg} {k : SeqKind} {t : Ty} {rec : Val → Nat → Res} {o o' : List Val} {data : List UInt8} {p : Nat}
    (hso : 0 < c.sizeof t) (h : ∀ v v' p, Same (rec v p) (rec v' p)) (hl : o.length = o'.length) :
    Same (seqBody c k t rec o data p) (seqBody c k t rec o' data p) := by
  unfold seqBody
  split
  · rw [hl]
    exact (decRep_old hso hl rfl).toRes
  · exact (decAll_old h _ _ _ hl).toRes

@[simp] theorem resizeVals_length (vs : List Val) (n : Nat) (dv : Val) : (resizeVals vs n dv).length = n := by
  simp [resizeVals]; omega

theorem oldFreeL_mem {dsz : SizeTy} {ts : List Ty} (h : oldFreeL dsz ts = true) : ∀ t ∈ ts, oldFree dsz t = true := by
  induction ts with
  | nil => intro t ht; cases ht
  | cons a as ih =>
    simp only [oldFreeL, Bool.and_eq_true] at h
    intro t ht
    rcases List.mem_cons.mp ht with e | e
    · subst e; exact h.1
    · exact ih h.2 t e

theorem decode_old (c : Cfg) (habi : ∀ t, 0 < c.sizeof t) (henv : ∀ i, oldFree c.dsz (c.env i) = true) :
    ∀ (d : Nat) (t : Ty) (data : List UInt8) (old old' : Val) (p : Nat), oldFree c.dsz t = true →
    Same (decode d c t old data p) (decode d c t old' data p) := by
  intro d
  induction d with
  | zero => intro t data old old' p _; exact ⟨rfl, rfl, by simp [decode]⟩
  | succ d ih =>
    intro t data old old' p hf
    cases t with
    | scalar k n =>
      simp only [decode]
      generalize getBytes data p n = r at *
      obtain ⟨s, bs, p'⟩ := r
      cases s
      · exact .rfl' _
      all_goals exact ⟨rfl, rfl, by simp⟩
    | bool =>
      simp only [decode]
      generalize getBytes data p 1 = r at *
      obtain ⟨s, bs, p'⟩ := r
      cases s
      · exact .rfl' _
      all_goals exact ⟨rfl, rfl, by simp⟩
    | varint n zz => exact getVarint_old n zz _ _ data p
    | empty => exact .rfl' _
    | struct ok fs =>
      simp only [decode]
      split
      · have h := decRep_old (c := c) (t := .struct ok fs) (n := 1) (o := [old]) (o' := [old']) (data := data) (p := p)
          (habi _) rfl rfl
        exact ⟨h.s, h.p, fun e => by simp only; rw [h.v e]⟩
      · exact (decFields_old fs _ _ p (fun t ht v v' p => ih t data v v' p (oldFreeL_mem hf t ht))).toRes
    | array n t' =>
      simp only [decode]
      split
      · exact (decRep_old (habi _) (by simp) (by simp)).toRes
      · exact (decAll_old (fun v v' p => ih t' data v v' p hf) _ _ _ (by simp)).toRes
    | seq k sz t' =>
      simp only [oldFree, Bool.and_eq_true, Bool.or_eq_true, beq_iff_eq, bne_iff_ne] at hf
      have hb := fun o o' p hl => seqBody_old (c := c) (k := k) (t := t') (data := data) (o := o) (o' := o') (p := p) (habi _)
        (fun v v' p => ih t' data v v' p hf.2) hl
      simp only [decode]
      split
      · next he =>
        rcases hf.1 with e | e
        · subst e
          unfold seqUnsized
          simp only
          split
          · exact ⟨rfl, rfl, by simp⟩
          · exact .rfl' _
        · exact absurd he e.2
      · generalize decHdr c (effSz c sz) data p = r at *
        obtain ⟨s, n, p1⟩ := r
        cases s
        · dsimp only
          unfold seqFill
          cases k
          case view =>
            simp only
            split
            · exact ⟨rfl, rfl, by simp⟩
            · split
              · exact .rfl' _
              · exact ⟨rfl, rfl, by simp⟩
          case span => rcases hf.1 with e | e <;> simp at e
          all_goals
            simp only
            split
            · exact ⟨rfl, rfl, by simp⟩
            · split
              · exact ⟨rfl, rfl, by simp⟩
              · exact hb _ _ _ (by simp)
        all_goals exact ⟨rfl, rfl, by simp⟩
    | assoc mu ha sz key m =>
      simp only [decode]
      generalize decHdr c (effSz c sz) data p = r at *
      obtain ⟨s, n, p1⟩ := r
      cases s
      · exact .rfl' _
      all_goals exact ⟨rfl, rfl, by simp⟩
    | optional dc t' =>
      simp only [decode]
      generalize getBytes data p 1 = r at *
      obtain ⟨s, bs, p1⟩ := r
      cases s
      · dsimp only
        split
        · exact .rfl' _
        · cases dc
          · simp only [Bool.false_eq_true, if_false]
            generalize decode d c t' (dflt c d t') data p1 = r at *
            obtain ⟨s, v, p2⟩ := r
            cases s
            · exact .rfl' _
            all_goals exact ⟨rfl, rfl, by simp⟩
          · have h := fun o o' => ih t' data o o' p1 hf
            simp only [if_true]
            exact ⟨(h _ _).s, (h _ _).p, fun e => congrArg Val.some ((h _ _).v e)⟩
      all_goals exact ⟨rfl, rfl, by simp⟩
    | optPtr t' =>
      simp only [decode]
      generalize getBytes data p 1 = r at *
      obtain ⟨s, bs, p1⟩ := r
      cases s
      · dsimp only
        split
        · exact .rfl' _
        · generalize decode d c t' (dflt c d t') data p1 = r at *
          obtain ⟨s, v, p2⟩ := r
          cases s
          · exact .rfl' _
          all_goals exact ⟨rfl, rfl, by simp⟩
      all_goals exact ⟨rfl, rfl, by simp⟩
    | uptr t' =>
      simp only [decode]
      generalize decode d c t' (dflt c d t') data p = r at *
      obtain ⟨s, v, p2⟩ := r
      cases s
      · exact .rfl' _
      all_goals exact ⟨rfl, rfl, by simp⟩
    | variant idTy ids dcs alts =>
      simp only [decode]
      generalize decode d c idTy (dflt c d idTy) data p = r at *
      obtain ⟨s, id, p1⟩ := r
      cases s
      · dsimp only
        split
        · exact ⟨rfl, rfl, by simp⟩
        · split
          · next i _ _ _ t' dc ht _ =>
            have h := fun o o' => ih t' data o o' p1 (oldFreeL_mem hf t' (List.mem_of_getElem? ht))
            unfold decAlt
            cases dc
            · simp only [Bool.false_eq_true, if_false]
              generalize decode d c t' (dflt c d t') data p1 = r at *
              obtain ⟨s, v, p2⟩ := r
              cases s
              · exact .rfl' _
              all_goals exact ⟨rfl, rfl, by simp⟩
            · simp only [if_true]
              exact ⟨(h _ _).s, (h _ _).p, fun e => congrArg (Val.alt _) ((h _ _).v e)⟩
          · exact ⟨rfl, rfl, by simp⟩
      all_goals exact ⟨rfl, rfl, by simp⟩
    | bitset n =>
      simp only [decode]
      generalize getBytes data p ((n + 7) / 8) = r at *
      obtain ⟨s, bs, p'⟩ := r
      cases s
      · exact .rfl' _
      all_goals exact ⟨rfl, rfl, by simp⟩
    | msg => cases hf
    | ref i => exact ih (c.env i) data old old' p (henv i)

end Zpp
