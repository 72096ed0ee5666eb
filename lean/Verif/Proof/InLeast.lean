import Verif.Spec.Depth
import Verif.Proof.InSafe
/-! # A successful read consumes at least the least size of the type -/

namespace Zpp
open Spec

mutual
theorem least_le_so (so : Ty → Nat) (dsz : SizeTy) (ha : AbiOk so) :
    ∀ t : Ty, widthsOk t = true → oneBlock so t = true → leastBytes so dsz t ≤ so t
  | .scalar k n, hw, _ => by
    have hn : 0 < n := by simp [widthsOk] at hw; exact hw.1
    simp only [leastBytes]
    exact Nat.le_of_eq (ha.scalar k n hn).symm
  | .bool, _, _ => by simp only [leastBytes]; exact Nat.le_of_eq ha.bool.symm
  | .empty, _, _ => by simp only [leastBytes]; exact Nat.zero_le _
  | .array n t, hw, h => by
    have ih := least_le_so so dsz ha t hw (by simpa [oneBlock] using h)
    simp only [leastBytes]
    rcases Nat.eq_zero_or_pos n with h0 | h0
    · subst h0; simp
    · rw [ha.array n t h0]; exact Nat.mul_le_mul_left n ih
  | .struct ok fs, hw, h => by
    simp only [oneBlock, Bool.and_eq_true, beq_iff_eq] at h
    have ih := least_le_soL so dsz ha fs hw h.1.2
    simp only [leastBytes]
    rw [← h.2]; exact ih
  | .msg sz ok maps nums fs, _, h => by
    simp only [leastBytes]
    rw [if_pos h]; exact Nat.zero_le _
  | .varint _ _, _, h => by simp [oneBlock] at h
  | .seq _ _ _, _, h => by simp [oneBlock] at h
  | .assoc _ _ _ _ _, _, h => by simp [oneBlock] at h
  | .optional _ _, _, h => by simp [oneBlock] at h
  | .optPtr _, _, h => by simp [oneBlock] at h
  | .uptr _, _, h => by simp [oneBlock] at h
  | .variant _ _ _ _, _, h => by simp [oneBlock] at h
  | .bitset _, _, h => by simp [oneBlock] at h
  | .ref _, _, h => by simp [oneBlock] at h
theorem least_le_soL (so : Ty → Nat) (dsz : SizeTy) (ha : AbiOk so) :
    ∀ ts : List Ty, widthsOkL ts = true → blocks so ts = true → leastBytesL so dsz ts ≤ (ts.map so).sum
  | [], _, _ => by simp [leastBytesL]
  | t :: ts, hw, h => by
    simp only [blocks, Bool.and_eq_true] at h
    simp only [widthsOkL, Bool.and_eq_true] at hw
    have h1 := least_le_so so dsz ha t hw.1 h.1.1
    have h2 := least_le_soL so dsz ha ts hw.2 h.2
    simp only [leastBytesL, List.map_cons, List.sum_cons]
    omega
end

theorem byteSer_endianIndep' (so : Ty → Nat) : ∀ t : Ty, t.endianIndep = true → t.byteSer so = true
  | .scalar _ _, _ => rfl
  | .array _ t, h => by simpa [Ty.byteSer] using byteSer_endianIndep' so t (by simpa [Ty.endianIndep] using h)
  | .bool, h | .varint _ _, h | .empty, h | .struct _ _, h | .seq _ _ _, h | .assoc _ _ _ _ _, h | .optional _ _, h
  | .optPtr _, h | .uptr _, h | .variant _ _ _ _, h | .bitset _, h | .msg _ _ _ _ _, h | .ref _, h => by
    simp [Ty.endianIndep] at h

theorem asBytes_oneBlock {c : Cfg} {t : Ty} (h : asBytes c t = true) : oneBlock c.sizeof t = true := by
  apply oneBlock_of_byteSer
  simp only [asBytes, Bool.or_eq_true, Bool.and_eq_true] at h
  rcases h with h | h
  · exact byteSer_endianIndep' _ t h
  · exact h.2

theorem leastMin_le {so : Ty → Nat} {dsz : SizeTy} : ∀ {ts : List Ty} {t : Ty}, t ∈ ts →
    leastBytesMin so dsz ts ≤ leastBytes so dsz t := by
  intro ts
  induction ts with
  | nil => intro t h; cases h
  | cons a as ih =>
    intro t h
    cases as with
    | nil =>
      simp only [List.mem_singleton] at h
      subst h; simp [leastBytesMin]
    | cons b bs =>
      simp only [leastBytesMin]
      rcases List.mem_cons.1 h with e | e
      · subst e; exact Nat.min_le_left _ _
      · exact Nat.le_trans (Nat.min_le_right _ _) (ih e)

theorem decHdr_least {c : Cfg} {data : List UInt8} {p : Nat} (sz : SizeTy) (hp : p ≤ data.length)
    (hok : (decHdr c sz data p).1 = .ok) : p + prefixLeast sz ≤ (decHdr c sz data p).2.2 := by
  unfold decHdr at hok ⊢
  cases sz with
  | fixed k =>
    dsimp only [prefixLeast] at *
    have h := (getBytes_safe k hp).2
    generalize getBytes data p k = r at *
    obtain ⟨s, bs, p'⟩ := r
    cases s <;> first | (cases hok; done) | skip
    exact Nat.le_of_eq (h rfl).1.symm
  | varint =>
    dsimp only [prefixLeast] at *
    have h := (getVarint_safe intWidth8 false (.num 0) hp).2
    generalize getVarint 8 false (.num 0) data p = r at *
    obtain ⟨s, v, p'⟩ := r
    cases s
    · cases v <;> first | (cases hok; done) | exact h rfl
    all_goals cases hok
  | none => cases hok

theorem decAll_least {len k : Nat} {rec : Val → Nat → Res}
    (hs : ∀ v p, p ≤ len → InStep len p (rec v p).s (rec v p).p)
    (h : ∀ v p, p ≤ len → (rec v p).s = .ok → p + k ≤ (rec v p).p) :
    ∀ vs p, p ≤ len → (decAll rec vs p).s = .ok →
      p + vs.length * k ≤ (decAll rec vs p).p ∧ (decAll rec vs p).vs.length = vs.length := by
  intro vs
  induction vs with
  | nil => intro p hp _; simp [decAll]
  | cons v vs ih =>
    intro p hp hok
    unfold decAll at hok ⊢
    have h1 := h v p hp
    have h2 := (hs v p hp).inb
    generalize rec v p = r at *
    obtain ⟨s, v', p'⟩ := r
    cases s <;> first | (cases hok; done) | skip
    obtain ⟨h3, h4⟩ := ih p' h2 hok
    have h1 := h1 rfl
    dsimp only at *
    simp only [List.length_cons, Nat.add_mul, Nat.one_mul]
    exact ⟨by omega, by rw [h4]⟩

theorem decFields_least {len : Nat} {rec : Ty → Val → Nat → Res} {so : Ty → Nat} {dsz : SizeTy} : ∀ ts vs p,
    (∀ t ∈ ts, ∀ v p, p ≤ len → InStep len p (rec t v p).s (rec t v p).p) →
    (∀ t ∈ ts, ∀ v p, p ≤ len → (rec t v p).s = .ok → p + leastBytes so dsz t ≤ (rec t v p).p) →
    p ≤ len → (decFields rec ts vs p).s = .ok → p + leastBytesL so dsz ts ≤ (decFields rec ts vs p).p := by
  intro ts
  induction ts with
  | nil => intro vs p _ _ hp _; simp [decFields, leastBytesL]
  | cons t ts ih =>
    intro vs p hs h hp hok
    unfold decFields at hok ⊢
    have h1 := h t (by simp) (vs.headD .unit) p hp
    have h2 := (hs t (by simp) (vs.headD .unit) p hp).inb
    generalize rec t (vs.headD .unit) p = r at *
    obtain ⟨s, v', p'⟩ := r
    cases s <;> first | (cases hok; done) | skip
    have h3 := ih vs.tail p' (fun t' ht => hs t' (by simp [ht])) (fun t' ht => h t' (by simp [ht])) h2 hok
    have h1 := h1 rfl
    dsimp only at *
    simp only [leastBytesL]
    omega

theorem decAssoc_least {len k : Nat} {elem : Nat → Res} {ins : Val → List Val → List Val}
    (hs : ∀ p, p ≤ len → InStep len p (elem p).s (elem p).p)
    (h : ∀ p, p ≤ len → (elem p).s = .ok → p + k ≤ (elem p).p)
    (hi : ∀ v vs, (ins v vs).length ≤ vs.length + 1) :
    ∀ n vs p, p ≤ len → (decAssoc elem ins n vs p).s = .ok →
      p + n * k ≤ (decAssoc elem ins n vs p).p ∧ (decAssoc elem ins n vs p).vs.length ≤ vs.length + n := by
  intro n
  induction n with
  | zero => intro vs p hp _; simp [decAssoc]
  | succ n ih =>
    intro vs p hp hok
    unfold decAssoc at hok ⊢
    have h1 := h p hp
    have h2 := (hs p hp).inb
    generalize elem p = r at *
    obtain ⟨s, v', p'⟩ := r
    cases s <;> first | (cases hok; done) | skip
    obtain ⟨h3, h4⟩ := ih _ p' h2 hok
    have h1 := h1 rfl
    have h5 := hi v' vs
    dsimp only at *
    simp only [Nat.add_mul, Nat.one_mul]
    exact ⟨by omega, by omega⟩

theorem decRep_least {c : Cfg} {data : List UInt8} {t : Ty} {n : Nat} {olds : List Val} {p : Nat} (hp : p ≤ data.length)
    (hok : (decRep c t n olds data p).s = .ok) : (decRep c t n olds data p).p = p + n * c.sizeof t := by
  unfold decRep at hok ⊢
  split
  · next h => simp [h]
  · next h =>
    rw [if_neg h] at hok
    have h := (getBytes_safe (n * c.sizeof t) hp).2
    generalize getBytes data p (n * c.sizeof t) = r at *
    obtain ⟨s, bs, p'⟩ := r
    cases s <;> first | (cases hok; done) | skip
    exact (h rfl).1

theorem decRep_count {c : Cfg} {data : List UInt8} {t : Ty} {n : Nat} {olds : List Val} {p : Nat} (ho : olds.length = n)
    (hok : (decRep c t n olds data p).s = .ok) : (decRep c t n olds data p).vs.length = n := by
  have hch : ∀ (f : List UInt8 → Val) sz n bs, (chunks f sz n bs).length = n := by
    intro f sz n
    induction n with
    | zero => intro bs; rfl
    | succ n ih => intro bs; simp [chunks, ih]
  unfold decRep at hok ⊢
  split
  · exact ho
  · next h =>
    rw [if_neg h] at hok
    generalize getBytes data p (n * c.sizeof t) = r at *
    obtain ⟨s, bs, p'⟩ := r
    cases s <;> first | (cases hok; done) | skip
    exact hch _ _ _ _

theorem decAlt_least {len k : Nat} {rec : Val → Nat → Res}
    (h : ∀ v p, p ≤ len → (rec v p).s = .ok → p + k ≤ (rec v p).p) (dc : Bool) (i : Nat) (dv old : Val) {p : Nat}
    (hp : p ≤ len) (hok : (decAlt rec dc i dv old p).s = .ok) : p + k ≤ (decAlt rec dc i dv old p).p := by
  unfold decAlt at hok ⊢
  cases dc
  · simp only [Bool.false_eq_true, if_false] at *
    have h1 := h dv p hp
    generalize rec dv p = r at *
    obtain ⟨s, v', p'⟩ := r
    cases s <;> first | (cases hok; done) | exact h1 rfl
  · simp only [if_true] at *
    exact h _ p hp hok

/-- A successful read of any type consumes at least the least size of the type. -/
theorem decode_least : ∀ (d : Nat) (c : Cfg) (t : Ty) (old : Val) (data : List UInt8) (p : Nat), AbiOk c.sizeof →
    (∀ i, widthsOk (c.env i) = true) → widthsOk t = true → p ≤ data.length → (decode d c t old data p).s = .ok →
    p + leastBytes c.sizeof c.dsz t ≤ (decode d c t old data p).p := by
  intro d
  induction d with
  | zero => intro c t old data p _ _ _ _ hok; cases hok
  | succ d ih =>
    intro c t old data p ha henv hw hp hok
    have hst := fun t' (hw : widthsOk t' = true) v q (hq : q ≤ data.length) => decode_safe d c t' v data q henv hw hq
    have hle := fun t' (hw : widthsOk t' = true) v q (hq : q ≤ data.length) => ih c t' v data q ha henv hw hq
    cases t with
    | scalar k n =>
      simp only [decode, leastBytes] at *
      have h := (getBytes_safe n hp).2
      generalize getBytes data p n = r at *
      obtain ⟨s, bs, p'⟩ := r
      cases s <;> first | (cases hok; done) | exact Nat.le_of_eq (h rfl).1.symm
    | bool =>
      simp only [decode, leastBytes] at *
      have h := (getBytes_safe 1 hp).2
      generalize getBytes data p 1 = r at *
      obtain ⟨s, bs, p'⟩ := r
      cases s <;> first | (cases hok; done) | exact Nat.le_of_eq (h rfl).1.symm
    | varint n zz =>
      simp only [decode, leastBytes] at *
      exact (getVarint_safe (intWidth_iff.mp hw) zz old hp).2 hok
    | empty => simp [decode, leastBytes]
    | struct ok fs =>
      simp only [decode] at *
      by_cases hb : asBytes c (.struct ok fs) = true
      · rw [if_pos hb] at hok ⊢
        have h := decRep_least hp hok
        have h2 := least_le_so c.sizeof c.dsz ha _ hw (asBytes_oneBlock hb)
        dsimp only; rw [h]; omega
      · rw [if_neg hb] at hok ⊢
        simp only [leastBytes]
        exact decFields_least fs _ p (fun t ht => hst t (widthsOkL_mem hw t ht)) (fun t ht => hle t (widthsOkL_mem hw t ht)) hp hok
    | array n t' =>
      simp only [decode, leastBytes] at *
      by_cases hb : asBytes c t' = true
      · rw [if_pos hb] at hok ⊢
        have h := decRep_least hp hok
        have h2 := Nat.mul_le_mul_left n (least_le_so c.sizeof c.dsz ha t' hw (asBytes_oneBlock hb))
        show _ ≤ (decRep c t' n _ data p).p
        rw [h]; omega
      · rw [if_neg hb] at hok ⊢
        have h := (decAll_least (hst t' hw) (hle t' hw) _ p hp hok).1
        simp only [resizeVals, List.length_append, List.length_take, List.length_replicate] at h
        rw [show min n old.elems.length + (n - old.elems.length) = n by omega] at h
        exact h
    | seq k sz t' =>
      have hmono : (decode (d + 1) c (.seq k sz t') old data p).s = .ok → p + leastBytes c.sizeof c.dsz (.seq k sz t') ≤
          (decode (d + 1) c (.seq k sz t') old data p).p := by
        intro hok
        simp only [decode, leastBytes] at *
        have he : effSz c sz = sz.getD c.dsz := rfl
        cases hsz : effSz c sz with
        | none =>
          have hm := (decode_safe (d + 1) c (.seq k sz t') old data p henv hw hp).mono
          simp only [decode, hsz] at hm
          rw [← he, hsz]; simpa [prefixLeast] using hm
        | _ =>
          simp only [hsz] at hok ⊢
          rw [← he, hsz]
          have h1 := decHdr_safe (c := c) (effSz c sz) hp
          have h2 := decHdr_least (c := c) (effSz c sz) hp
          rw [hsz] at h1 h2
          generalize decHdr c _ data p = r at *
          obtain ⟨s, n, p1⟩ := r
          cases s <;> first | (cases hok; done) | skip
          have h3 := (seqFill_safe (c := c) (k := k) (t := t') (fun v p hp => hst t' hw v p hp) (dflt c d t') old n p1 h1.inb).mono
          exact Nat.le_trans (h2 rfl) h3
      exact hmono hok
    | assoc mu hs sz key m =>
      simp only [decode, leastBytes] at hok ⊢
      have h1 := decHdr_safe (c := c) (effSz c sz) hp
      have h2 : (decHdr c (effSz c sz) data p).1 = .ok → p + prefixLeast (sz.getD c.dsz) ≤ _ :=
        decHdr_least (c := c) (effSz c sz) hp
      generalize decHdr c (effSz c sz) data p = r at *
      obtain ⟨s, n, p1⟩ := r
      cases s <;> first | (cases hok; done) | skip
      refine Nat.le_trans (h2 rfl) ?_
      refine (toRes_safe (decAssoc_safe ?_ _ _ _ h1.inb)).mono
      intro p hp
      cases m with
      | none => exact hst key hw _ p hp
      | some m =>
        simp only [widthsOk, Bool.and_eq_true] at hw
        refine toRes_safe (decFields_safe _ _ p ?_ hp)
        intro t ht v p hp
        simp only [List.mem_cons, List.not_mem_nil, or_false] at ht
        rcases ht with rfl | rfl
        · exact hst _ hw.1 v p hp
        · exact hst _ hw.2 v p hp
    | optional dc t' =>
      simp only [decode, leastBytes] at *
      have h1 := getBytes_safe 1 hp
      generalize getBytes data p 1 = r at *
      obtain ⟨s, bs, p1⟩ := r
      cases s <;> first | (cases hok; done) | skip
      have h2 := (h1.2 rfl).1
      have h3 := h1.1.inb
      dsimp only at *
      split
      · exact Nat.le_of_eq h2.symm
      · next hz =>
        rw [if_neg hz] at hok
        have h4 := fun v => (hst t' hw v p1 h3).mono
        cases dc
        · simp only [Bool.false_eq_true, if_false] at *
          have h4 := h4 (dflt c d t')
          generalize decode d c t' (dflt c d t') data p1 = r at *
          obtain ⟨s, v, p2⟩ := r
          cases s <;> (dsimp only at *; omega)
        · rw [← h2]; exact h4 _
    | optPtr t' =>
      simp only [decode, leastBytes] at *
      have h1 := getBytes_safe 1 hp
      generalize getBytes data p 1 = r at *
      obtain ⟨s, bs, p1⟩ := r
      cases s <;> first | (cases hok; done) | skip
      have h2 := (h1.2 rfl).1
      have h3 := h1.1.inb
      dsimp only at *
      split
      · exact Nat.le_of_eq h2.symm
      · next hz =>
        rw [if_neg hz] at hok
        have h4 := (hst t' hw (dflt c d t') p1 h3).mono
        generalize decode d c t' (dflt c d t') data p1 = r at *
        obtain ⟨s, v, p2⟩ := r
        cases s <;> (dsimp only at *; omega)
    | uptr t' =>
      simp only [decode, leastBytes] at *
      have h4 := hle t' hw (dflt c d t') p hp
      generalize decode d c t' (dflt c d t') data p = r at *
      obtain ⟨s, v, p2⟩ := r
      cases s <;> first | (cases hok; done) | exact h4 rfl
    | variant idTy ids dcs alts =>
      simp only [widthsOk, Bool.and_eq_true] at hw
      simp only [decode, leastBytes] at *
      have h1 := hst idTy hw.1 (dflt c d idTy) p hp
      have h2 := hle idTy hw.1 (dflt c d idTy) p hp
      generalize decode d c idTy (dflt c d idTy) data p = r at *
      obtain ⟨s, id, p1⟩ := r
      cases s <;> first | (cases hok; done) | skip
      have h3 := h2 rfl
      have h4 := h1.inb
      dsimp only at hok h3 h4 ⊢
      cases hi : findId id ids 0 with
      | none => rw [hi] at hok; cases hok
      | some i =>
        rw [hi] at hok
        dsimp only at hok ⊢
        cases ht : alts[i]? with
        | none => rw [ht] at hok; cases hok
        | some t' =>
          cases hdc : dcs[i]? with
          | none => rw [ht, hdc] at hok; cases hok
          | some dc =>
            rw [ht, hdc] at hok
            have hm := List.mem_of_getElem? ht
            have h5 := decAlt_least (hle t' (widthsOkL_mem hw.2 t' hm)) dc i (dflt c d t') old h4 hok
            have h6 := leastMin_le (so := c.sizeof) (dsz := c.dsz) hm
            exact Nat.le_trans (m := p1 + leastBytes c.sizeof c.dsz t') (by omega) h5
    | bitset n =>
      simp only [decode, leastBytes] at *
      have h := (getBytes_safe ((n + 7) / 8) hp).2
      generalize getBytes data p ((n + 7) / 8) = r at *
      obtain ⟨s, bs, p'⟩ := r
      cases s <;> first | (cases hok; done) | exact Nat.le_of_eq (h rfl).1.symm
    | msg sz ok maps nums fs =>
      have hrun : ∀ size p, p ≤ data.length → _ := fun size p hp =>
        msgRun_safe (c' := pbCfg c) (fresh := dflt (pbCfg c) d) (maps := maps) (nums := nums) (fs := fs) (old := old)
          (data := data) size p hp (widthsOkL_mem hw)
          (fun t v sub p hw hp => decode_safe d (pbCfg c) t v sub p henv hw hp)
          (fun t hw hn sub => numDec_safe (d := d) hw hn)
      have hpre : leastBytes c.sizeof c.dsz (.msg sz ok maps nums fs) ≤ prefixLeast (sz.getD c.dsz) := by
        simp only [leastBytes]; split <;> omega
      refine Nat.le_trans (Nat.add_le_add_left hpre p) ?_
      simp only [decode] at *
      have he : effSz c sz = sz.getD c.dsz := rfl
      cases hsz : effSz c sz with
      | none =>
        rw [← he, hsz]
        simpa [prefixLeast] using (hrun _ _ hp).mono
      | _ =>
        simp only [hsz] at hok ⊢
        rw [← he, hsz]
        have h1 := decHdr_safe (c := c) (effSz c sz) hp
        have h2 := decHdr_least (c := c) (effSz c sz) hp
        rw [hsz] at h1 h2
        generalize decHdr c _ data p = r at *
        obtain ⟨s, n, p1⟩ := r
        cases s <;> first | (cases hok; done) | skip
        exact Nat.le_trans (h2 rfl) (hrun _ _ h1.inb).mono
    | ref i => simpa [leastBytes] using (decode_safe (d + 1) c (.ref i) old data p henv hw hp).mono


theorem resizeVals_length (olds : List Val) (n : Nat) (dv : Val) : (resizeVals olds n dv).length = n := by
  simp only [resizeVals, List.length_append, List.length_take, List.length_replicate]; omega

theorem seqBody_least {c : Cfg} {k : SeqKind} {t : Ty} {data : List UInt8} {rec : Val → Nat → Res} (ha : AbiOk c.sizeof)
    (hw : widthsOk t = true) (hs : ∀ v p, p ≤ data.length → InStep data.length p (rec v p).s (rec v p).p)
    (h : ∀ v p, p ≤ data.length → (rec v p).s = .ok → p + leastBytes c.sizeof c.dsz t ≤ (rec v p).p)
    (olds : List Val) (p : Nat) (hp : p ≤ data.length) (hok : (seqBody c k t rec olds data p).s = .ok) :
    ∃ vs, (seqBody c k t rec olds data p).v = .list vs ∧ vs.length = olds.length ∧
      p + vs.length * leastBytes c.sizeof c.dsz t ≤ (seqBody c k t rec olds data p).p := by
  unfold seqBody at hok ⊢
  by_cases hb : k ≠ .list ∧ asBytes c t = true
  · rw [if_pos hb] at hok ⊢
    have hl := decRep_count (c := c) (t := t) (data := data) (p := p) (rfl : olds.length = olds.length) hok
    refine ⟨_, rfl, hl, ?_⟩
    rw [hl]
    have h1 := decRep_least hp hok
    have h2 := Nat.mul_le_mul_left olds.length (least_le_so c.sizeof c.dsz ha t hw (asBytes_oneBlock hb.2))
    show _ ≤ (decRep c t olds.length olds data p).p
    rw [h1]; omega
  · rw [if_neg hb] at hok ⊢
    have h1 := decAll_least hs h olds p hp hok
    exact ⟨_, rfl, h1.2, by rw [h1.2]; exact h1.1⟩

theorem decode_elements (d : Nat) (c : Cfg) (k : SeqKind) (sz : Option SizeTy) (t : Ty) (old : Val) (data : List UInt8)
    (p : Nat) (ha : AbiOk c.sizeof) (henv : ∀ i, widthsOk (c.env i) = true) (hw : widthsOk t = true)
    (hp : p ≤ data.length) (hk : k ≠ .view) (hsz : sz.getD c.dsz ≠ .none)
    (hok : (decode d c (.seq k sz t) old data p).s = .ok) :
    ∃ vs, (decode d c (.seq k sz t) old data p).v = .list vs ∧
      p + prefixLeast (sz.getD c.dsz) + vs.length * leastBytes c.sizeof c.dsz t ≤
        (decode d c (.seq k sz t) old data p).p := by
  cases d with
  | zero => cases hok
  | succ d =>
  have hst := fun v q (hq : q ≤ data.length) => decode_safe d c t v data q henv hw hq
  have hle := fun v q (hq : q ≤ data.length) => decode_least d c t v data q ha henv hw hq
  have he : effSz c sz = sz.getD c.dsz := rfl
  simp only [decode] at hok ⊢
  rw [← he] at hsz ⊢
  cases hz : effSz c sz with
  | none => exact absurd hz hsz
  | _ =>
    simp only [hz] at hok ⊢
    have h1 := decHdr_safe (c := c) (effSz c sz) hp
    have h2 := decHdr_least (c := c) (effSz c sz) hp
    rw [hz] at h1 h2
    generalize decHdr c _ data p = r at *
    obtain ⟨s, n, p1⟩ := r
    cases s <;> first | (cases hok; done) | skip
    have h2 := h2 rfl
    have h3 := h1.inb
    dsimp only at h2 h3 hok ⊢
    unfold seqFill at hok ⊢
    have body : ∀ k' olds, (seqBody c k' t (fun v p => decode d c t v data p) olds data p1).s = .ok →
        ∃ vs, (seqBody c k' t (fun v p => decode d c t v data p) olds data p1).v = .list vs ∧
        p + prefixLeast (effSz c sz) + vs.length * leastBytes c.sizeof c.dsz t ≤
          (seqBody c k' t (fun v p => decode d c t v data p) olds data p1).p := by
      intro k' olds hok
      obtain ⟨vs, e1, e2, e3⟩ := seqBody_least (c := c) (k := k') ha hw hst hle olds p1 h3 hok
      exact ⟨vs, e1, by rw [hz]; exact Nat.le_trans (Nat.add_le_add_right h2 _) e3⟩
    rw [hz] at body
    cases k with
    | view => exact absurd rfl hk
    | span =>
      dsimp only at hok ⊢
      split
      · next h => rw [if_pos h] at hok; cases hok
      · next h => rw [if_neg h] at hok; exact body _ _ hok
    | _ =>
      dsimp only at hok ⊢
      split
      · next h => rw [if_pos h] at hok; cases hok
      · next h =>
        rw [if_neg h] at hok
        split
        · next h => rw [if_pos h] at hok; cases hok
        · next h => rw [if_neg h] at hok; exact body _ _ hok

theorem insertSorted_length (lt : Val → Val → Bool) (isMap : Bool) (e : Val) (vs : List Val) :
    (insertSorted lt isMap e vs).length = vs.length + 1 := by
  induction vs with
  | nil => rfl
  | cons x xs ih => unfold insertSorted; split <;> simp [ih]

theorem assocInsert_length (lt : Val → Val → Bool) (multi hashed isMap : Bool) (e : Val) (vs : List Val) :
    (assocInsert lt multi hashed isMap e vs).length ≤ vs.length + 1 := by
  unfold assocInsert
  repeat' split
  all_goals simp [insertSorted_length]

theorem decode_entries (d : Nat) (c : Cfg) (mu hs : Bool) (sz : Option SizeTy) (key : Ty) (mapped : Option Ty) (old : Val)
    (data : List UInt8) (p : Nat) (ha : AbiOk c.sizeof) (henv : ∀ i, widthsOk (c.env i) = true)
    (hw : widthsOk (.assoc mu hs sz key mapped) = true) (hp : p ≤ data.length)
    (hok : (decode d c (.assoc mu hs sz key mapped) old data p).s = .ok) :
    ∃ vs, (decode d c (.assoc mu hs sz key mapped) old data p).v = .list vs ∧
      p + prefixLeast (sz.getD c.dsz) + vs.length * leastBytesL c.sizeof c.dsz (key :: mapped.toList) ≤
        (decode d c (.assoc mu hs sz key mapped) old data p).p := by
  cases d with
  | zero => cases hok
  | succ d =>
  have hst := fun t (hw : widthsOk t = true) v q (hq : q ≤ data.length) => decode_safe d c t v data q henv hw hq
  have hle := fun t (hw : widthsOk t = true) v q (hq : q ≤ data.length) => decode_least d c t v data q ha henv hw hq
  simp only [decode] at hok ⊢
  have h1 := decHdr_safe (c := c) (effSz c sz) hp
  have h2 : (decHdr c (effSz c sz) data p).1 = .ok → p + prefixLeast (sz.getD c.dsz) ≤ _ :=
    decHdr_least (c := c) (effSz c sz) hp
  generalize decHdr c (effSz c sz) data p = r at *
  obtain ⟨s, n, p1⟩ := r
  cases s <;> first | (cases hok; done) | skip
  have h2 := h2 rfl
  have h3 := h1.inb
  dsimp only at h2 h3 hok ⊢
  refine ⟨_, rfl, ?_⟩
  have h4 := decAssoc_least (len := data.length) (k := leastBytesL c.sizeof c.dsz (key :: mapped.toList)) ?_ ?_
    (fun v vs => assocInsert_length _ _ _ _ v vs) n [] p1 h3 hok
  · refine Nat.le_trans (Nat.le_trans (Nat.add_le_add h2 (Nat.mul_le_mul_right _ h4.2)) ?_) h4.1
    simp
  · intro q hq
    cases mapped with
    | none => exact hst key hw _ q hq
    | some m =>
      simp only [widthsOk, Bool.and_eq_true] at hw
      refine toRes_safe (decFields_safe _ _ q ?_ hq)
      intro t ht v p hp
      simp only [List.mem_cons, List.not_mem_nil, or_false] at ht
      rcases ht with rfl | rfl
      · exact hst _ hw.1 v p hp
      · exact hst _ hw.2 v p hp
  · intro q hq hok
    cases mapped with
    | none => simpa [leastBytesL] using hle key hw _ q hq hok
    | some m =>
      simp only [widthsOk, Bool.and_eq_true] at hw
      refine decFields_least [key, m] _ q ?_ ?_ hq hok
      all_goals
        intro t ht v p hp
        simp only [List.mem_cons, List.not_mem_nil, or_false] at ht
        rcases ht with rfl | rfl
      · exact hst _ hw.1 v p hp
      · exact hst _ hw.2 v p hp
      · exact hle _ hw.1 v p hp
      · exact hle _ hw.2 v p hp

theorem decMany_least {d : Nat} {c : Cfg} {data : List UInt8} (ha : AbiOk c.sizeof) (henv : ∀ i, widthsOk (c.env i) = true) :
    ∀ (items : List (Ty × Val)) (p : Nat), (∀ it ∈ items, widthsOk it.1 = true) → p ≤ data.length →
    (decMany d c data items p).s = .ok →
    p + leastBytesL c.sizeof c.dsz (items.map Prod.fst) ≤ (decMany d c data items p).p := by
  intro items
  induction items with
  | nil => intro p _ _ _; simp [decMany, leastBytesL]
  | cons it items ih =>
    obtain ⟨t, o⟩ := it
    intro p hw hp hok
    unfold decMany at hok ⊢
    have hwt : widthsOk t = true := hw (t, o) (by simp)
    have h1 := decode_safe d c t o data p henv hwt hp
    have h2 := decode_least d c t o data p ha henv hwt hp
    generalize decode d c t o data p = r at *
    obtain ⟨s, v, p'⟩ := r
    cases s <;> first | (cases hok; done) | skip
    have h3 := ih p' (fun it hit => hw it (by simp [hit])) h1.inb hok
    have h2 := h2 rfl
    dsimp only at h2 h3 ⊢
    simp only [List.map_cons, leastBytesL]
    omega

end Zpp
