import Verif.Spec.Fetch
import Verif.Proof.InSafe
import Verif.Proof.Varint
/-! # Reading never leaves memory that changes while it is read -/

namespace Zpp
open Spec

variable {inl : Bool}

theorem decodeVarint_of {n : Nat} (hn : IntWidth n) {data : List UInt8} :
    decodeVarint n data ≠ .ub ∧ (∀ x len, decodeVarint n data = .ok x len → 0 < len ∧ len ≤ data.length) ∧ ∀ e, decodeVarint n data = .err e → InOutcome (.err e) := by
  have hraw := (readVarintRaw_eq_decode n hn data).symm
  rw [hraw]
  obtain ⟨h1, _, h2⟩ := Props.C23_varint_no_ub n hn data
  have h3 := (Props.C21_varint_decoder n hn data).2
  refine ⟨h1, fun x len h => (h2 x len h).2, fun e hr => ?_⟩
  rw [h3] at hr
  split at hr <;> split at hr <;> cases hr <;> trivial

theorem getBytesT_safe {L : Nat} {data : List UInt8} (hL : data.length = L) {p : Nat} (n : Nat) (hp : p ≤ L) :
    InStep L p (getBytes data p n).1 (getBytes data p n).2.2 ∧
    ((getBytes data p n).1 = .ok → (getBytes data p n).2.2 = p + n ∧ p + n ≤ L ∧
      (getBytes data p n).2.1 = (data.drop p).take n) := by
  subst hL
  exact getBytes_safe n hp

theorem decRepT_safe {L : Nat} {c : Cfg} {data : List UInt8} (hL : data.length = L) {t : Ty} {n : Nat} {olds : List Val} {p : Nat}
    (hp : p ≤ L) : InStep L p (decRep c t n olds data p).s (decRep c t n olds data p).p := by
  subst hL
  exact decRep_safe hp

theorem seqBodyT_safe {L : Nat} {c : Cfg} {k : SeqKind} {t : Ty} {data : List UInt8} (hL : data.length = L) {rec : Val → Nat → Res}
    (h : ∀ v p, p ≤ L → InStep L p (rec v p).s (rec v p).p) (olds : List Val) (p : Nat) (hp : p ≤ L) :
    InStep L p (seqBody c k t rec olds data p).s (seqBody c k t rec olds data p).p := by
  subst hL
  exact seqBody_safe h olds p hp

theorem seqFillT_safe {L : Nat} {c : Cfg} {k : SeqKind} {t : Ty} {data : List UInt8} (hL : data.length = L) {rec : Val → Nat → Res}
    (h : ∀ v p, p ≤ L → InStep L p (rec v p).s (rec v p).p) (dv old : Val) (n p : Nat) (hp : p ≤ L) :
    InStep L p (seqFill c k t rec dv old data n p).s (seqFill c k t rec dv old data n p).p := by
  subst hL
  exact seqFill_safe h dv old n p hp

theorem getVarintT_safe {L : Nat} {m : Nat → List UInt8} {p n : Nat} (hL : ∀ j, (m j).length = L) (hn : IntWidth n) (zz : Bool) (old : Val) (hp : p ≤ L) :
    InStep L p (getVarintT inl n zz old m p).s (getVarintT inl n zz old m p).p ∧
    ((getVarintT inl n zz old m p).s = .ok → p < (getVarintT inl n zz old m p).p) := by
  have key : ∀ j, InStep L p (match decodeVarint n ((m j).drop p) with
        | .ok x len => (⟨.ok, .num (varintStore n zz x), p + len⟩ : Res)
        | .err e => ⟨.err e, old, p⟩
        | .ub => ⟨.ub, old, p⟩).s (match decodeVarint n ((m j).drop p) with
        | .ok x len => (⟨.ok, .num (varintStore n zz x), p + len⟩ : Res)
        | .err e => ⟨.err e, old, p⟩
        | .ub => ⟨.ub, old, p⟩).p ∧ ((match decodeVarint n ((m j).drop p) with
        | .ok x len => (⟨.ok, .num (varintStore n zz x), p + len⟩ : Res)
        | .err e => ⟨.err e, old, p⟩
        | .ub => ⟨.ub, old, p⟩).s = .ok → p < (match decodeVarint n ((m j).drop p) with
        | .ok x len => (⟨.ok, .num (varintStore n zz x), p + len⟩ : Res)
        | .err e => ⟨.err e, old, p⟩
        | .ub => ⟨.ub, old, p⟩).p) := by
    intro j
    obtain ⟨h1, h2, h3⟩ := decodeVarint_of hn (data := (m j).drop p)
    cases hr : decodeVarint n ((m j).drop p) with
    | ok x len =>
      obtain ⟨h4, h5⟩ := h2 x len hr
      simp only [List.length_drop, hL] at h5
      exact ⟨⟨trivial, by simp, by simp only; omega⟩, fun _ => by simp only; omega⟩
    | err e => exact ⟨.refl (h3 e hr) hp, by simp⟩
    | ub => exact absurd hr h1
  unfold getVarintT
  rw [if_neg (by rw [hL]; omega)]
  split
  · exact key 0
  split
  · next b rest hb =>
    have hl := congrArg List.length hb
    simp only [List.length_drop, hL, List.length_cons] at hl
    split
    · exact ⟨⟨trivial, by simp, by simp only; omega⟩, fun _ => by simp only; omega⟩
    · exact key 2
  · exact key 2

theorem decHdrT_safe {c : Cfg} {L : Nat} {mem : Mem} (hL : Sized L mem) {p : Nat} (sz : SizeTy) (hp : p ≤ L) :
    InStep L p (decHdrT inl c sz mem p).1 (decHdrT inl c sz mem p).2.2 := by
  unfold decHdrT
  cases sz with
  | fixed k =>
    dsimp only
    have h := (getBytesT_safe (hL p 0) k hp).1
    generalize getBytes (mem p 0) p k = r at *
    obtain ⟨s, bs, p'⟩ := r
    cases s <;> first | exact h | exact ⟨trivial, h.mono, h.inb⟩
  | varint =>
    dsimp only
    have h := (getVarintT_safe (inl := inl) (hL p) intWidth8 false (.num 0) hp).1
    generalize getVarintT inl 8 false (.num 0) (mem p) p = r at *
    obtain ⟨s, v, p'⟩ := r
    cases s
    · cases v <;> exact ⟨trivial, h.mono, h.inb⟩
    all_goals exact h
  | none => exact .refl trivial hp

theorem pbDecPackedT_safe {c : Cfg} {rec : Ty → Val → Nat → Res} {t elemTy : Ty} {fix : Bool} {wt : Nat} {old : Val}
    {L : Nat} {mem : Mem} (hL : Sized L mem) {p : Nat} (hp : p ≤ L) (he : Consumes L rec elemTy)
    (ht : ∀ v p, p ≤ L → InStep L p (rec (unsizedTy t) v p).s (rec (unsizedTy t) v p).p) :
    InStep L p (pbDecPackedT inl c rec t elemTy fix wt old mem p).s (pbDecPackedT inl c rec t elemTy fix wt old mem p).p := by
  unfold pbDecPackedT
  simp only
  split
  · exact (pbFetch_safe (he _ _ hp).1).1
  · have h1 := decHdrT_safe (inl := inl) hL (c := c) .varint hp
    generalize decHdrT inl c .varint mem p = r at *
    obtain ⟨s, n, p1⟩ := r
    cases s
    · simp only at h1 ⊢
      have h2 := h1.inb
      split
      · split
        · exact ⟨trivial, h1.mono, h2⟩
        · split
          · exact ⟨trivial, h1.mono, h2⟩
          · exact h1.trans (ht _ _ h2)
      · split
        · exact ⟨trivial, h1.mono, h2⟩
        · refine h1.trans (pbPacked_safe ?_ _ _ _ h2 (by rw [hL]; omega))
          intro vs p hp
          have := he .unit p hp
          obtain ⟨f1, f2, f3⟩ := pbFetch_safe (c := c) (t := t) (vs := vs) this.1
          exact ⟨f1, by rw [f2, f3]; exact this.2⟩
    all_goals exact h1

theorem pbElemT_safe {c : Cfg} {rec : Ty → Val → Nat → Res} {fresh : Ty → Val} {t e : Ty} {wt : Nat} {old : Val}
    {L : Nat} {mem : Mem} (hL : Sized L mem) {p : Nat} (hp : p ≤ L) (hw : widthsOk t = true) (hwe : widthsOk e = true)
    (hcl : pbInClass t = pbElemClass e)
    (hr : ∀ t v p, widthsOk t = true → p ≤ L → InStep L p (rec t v p).s (rec t v p).p)
    (hc : ∀ t, widthsOk t = true → isPacked t = true → Consumes L rec t) :
    InStep L p (pbDecFieldT inl c rec fresh t wt old mem p).s (pbDecFieldT inl c rec fresh t wt old mem p).p := by
  unfold pbDecFieldT
  rw [hcl]
  have hu := fun v p hp => hr (unsizedTy t) v p (widthsOk_unsized hw) hp
  cases e with
  | scalar k n =>
    cases k <;> simp only [pbElemClass]
    case enum => exact pbDecPackedT_safe (inl := inl) hL hp (hc _ (widthsOk_varint hwe (.inl rfl)) rfl) hu
    all_goals exact pbDecPackedT_safe (inl := inl) hL hp (hc _ hwe rfl) hu
  | bool => exact pbDecPackedT_safe (inl := inl) hL hp (hc _ rfl rfl) hu
  | varint n zz => exact pbDecPackedT_safe (inl := inl) hL hp (hc _ hwe rfl) hu
  | _ => exact (pbFetch_safe (hr _ _ _ hwe hp)).1

theorem pbDecFieldT_safe {c : Cfg} {rec : Ty → Val → Nat → Res} {fresh : Ty → Val} {t : Ty} {wt : Nat} {old : Val}
    {L : Nat} {mem : Mem} (hL : Sized L mem) {p : Nat} (hp : p ≤ L) (hw : widthsOk t = true)
    (hr : ∀ t v p, widthsOk t = true → p ≤ L → InStep L p (rec t v p).s (rec t v p).p)
    (hc : ∀ t, widthsOk t = true → isPacked t = true → Consumes L rec t) :
    InStep L p (pbDecFieldT inl c rec fresh t wt old mem p).s (pbDecFieldT inl c rec fresh t wt old mem p).p := by
  cases t with
  | scalar k n =>
    cases k
    case enum => exact (getVarintT_safe (inl := inl) (hL p) (intWidth_iff.mp (widthsOk_varint hw (.inl rfl))) _ _ hp).1
    case byte => exact (getVarintT_safe (inl := inl) (hL p) (intWidth_iff.mp (widthsOk_varint hw (.inr rfl))) _ _ hp).1
    all_goals exact hr _ _ _ hw hp
  | seq k sz e => exact pbElemT_safe (inl := inl) hL (e := e) hp hw hw rfl hr hc
  | assoc mu ha sz key m =>
    cases m with
    | none => exact pbElemT_safe (inl := inl) hL (e := key) hp hw hw rfl hr hc
    | some m =>
      simp only [widthsOk, Bool.and_eq_true] at hw
      exact (pbFetch_safe (hr _ _ _ (widthsOk_entry hw.1 hw.2) hp)).1
  | _ => exact hr _ _ _ hw hp

theorem pbLoopT_safe {L : Nat} {mem : Mem} (hL : Sized L mem) {field : Ty → Nat → Val → Nat → Res} {maps : List (Nat × Nat)}
    {nums : List (Option Nat)} {fs : List Ty}
    (h : ∀ t ∈ fs, ∀ wt v p, p ≤ L → InStep L p (field t wt v p).s (field t wt v p).p) :
    ∀ f vs p, p ≤ L → L < f + p →
    InStep L p (pbLoopT inl field maps nums fs mem f vs p).s (pbLoopT inl field maps nums fs mem f vs p).p := by
  intro f
  induction f with
  | zero => intro vs p hp hf; omega
  | succ f ih =>
    intro vs p hp hf
    unfold pbLoopT
    split
    · have h1 := getVarintT_safe (inl := inl) (hL p) (n := 4) (by decide) false (.num 0) hp
      generalize getVarintT inl 4 false (.num 0) (mem p) p = r at *
      obtain ⟨s, v, p1⟩ := r
      cases s
      · have h2 := h1.2 rfl
        have h3 := h1.1
        cases v
        case num tag =>
          dsimp only at h2 h3 ⊢
          have h4 := pbDispatch_safe (maps := maps) (num := tag >>> 3) (wt := tag &&& 7) fs nums 0 vs p1 h h3.inb
          generalize pbDispatch field maps (tag >>> 3) (tag &&& 7) 0 nums fs vs p1 = q at *
          obtain ⟨s, vs', p2⟩ := q
          have h5 := h4.mono
          have h6 := h4.inb
          dsimp only at h5 h6
          cases s
          · exact (h3.trans h4).trans (ih vs' p2 h6 (by omega))
          all_goals exact h3.trans h4
        all_goals exact ⟨trivial, h3.mono, h3.inb⟩
      all_goals exact h1.1
    · exact .refl trivial hp

theorem numDecT_safe {d : Nat} {c : Cfg} {t : Ty} {L : Nat} {mem : Mem} (hL : Sized L mem) (hw : widthsOk t = true) (hn : isPacked t = true) :
    Consumes L (fun t v p => decodeT inl d c t v mem p) t := by
  intro v p hp
  cases d with
  | zero => exact ⟨.refl trivial hp, by intro h; cases h⟩
  | succ d =>
    cases t with
    | scalar k n =>
      have h := getBytesT_safe (hL p 0) n hp
      have hn : 0 < n := by simp [widthsOk] at hw; exact hw.1
      simp only [decodeT]
      generalize getBytes (mem p 0) p n = r at *
      obtain ⟨s, bs, p'⟩ := r
      cases s
      · exact ⟨h.1, fun _ => by have := (h.2 rfl).1; simp only at this ⊢; omega⟩
      all_goals exact ⟨h.1, by intro h; cases h⟩
    | bool =>
      have h := getBytesT_safe (hL p 0) 1 hp
      simp only [decodeT]
      generalize getBytes (mem p 0) p 1 = r at *
      obtain ⟨s, bs, p'⟩ := r
      cases s
      · exact ⟨h.1, fun _ => by have := (h.2 rfl).1; simp only at this ⊢; omega⟩
      all_goals exact ⟨h.1, by intro h; cases h⟩
    | varint n zz => exact getVarintT_safe (inl := inl) (hL p) (intWidth_iff.mp hw) _ _ hp
    | _ => cases hn

theorem msgRunT_safe {c' : Cfg} {rec : Ty → Val → Mem → Nat → Res} {fresh : Ty → Val} {maps : List (Nat × Nat)}
    {nums : List (Option Nat)} {fs : List Ty} {old : Val} {L : Nat} {mem : Mem} (hL : Sized L mem) (size p : Nat) (hp : p ≤ L)
    (hw : ∀ t ∈ fs, widthsOk t = true)
    (hr : ∀ t v L sub p, widthsOk t = true → Sized L sub → p ≤ L → InStep L p (rec t v sub p).s (rec t v sub p).p)
    (hc : ∀ t, widthsOk t = true → isPacked t = true → ∀ L sub, Sized L sub → Consumes L (fun t v p => rec t v sub p) t) :
    InStep L p (msgRunT inl c' rec fresh maps nums fs old mem size p).s
      (msgRunT inl c' rec fresh maps nums fs old mem size p).p := by
  unfold msgRunT
  rw [if_neg (by rw [hL]; omega)]
  have hs : Sized (min size (L - p)) (memSub mem p size) := fun q j => by
    show (msgSub (mem (p + q) j) p size).length = _
    rw [msgSub_length, hL]
  have h := pbLoopT_safe (inl := inl) hs (maps := maps) (nums := nums) (fs := fs)
    (field := fun t wt v q => pbDecFieldT inl c' (fun t v q => rec t v (memSub mem p size) q) fresh t wt v (memSub mem p size) q)
    (fun t ht wt v q hq => pbDecFieldT_safe (inl := inl) hs hq (hw t ht) (fun t v q hw hq => hr t v _ _ q hw hs hq) (fun t hw hn => hc t hw hn _ _ hs))
    ((memSub mem p size 0 0).length + 1) (pbClear fs old.elems) 0 (by omega) (by rw [hs]; omega)
  have h1 := h.inb
  exact ⟨h.code, by dsimp only; omega, by dsimp only; omega⟩

theorem decodeT_safe : ∀ (d : Nat) (c : Cfg) (t : Ty) (old : Val) (L : Nat) (mem : Mem) (p : Nat),
    (∀ i, widthsOk (c.env i) = true) → widthsOk t = true → Sized L mem → p ≤ L →
    InStep L p (decodeT inl d c t old mem p).s (decodeT inl d c t old mem p).p := by
  intro d
  induction d with
  | zero => intro c t old L mem p _ _ hL hp; exact .refl trivial hp
  | succ d ih =>
    intro c t old L mem p henv hw hL hp
    have hall : ∀ t', widthsOk t' = true → ∀ vs p, p ≤ L →
        InStep L p (decAll (fun v p => decodeT inl d c t' v mem p) vs p).s
          (decAll (fun v p => decodeT inl d c t' v mem p) vs p).p :=
      fun t' hw => decAll_safe fun v p hp => ih c t' v L mem p henv hw hL hp
    cases t with
    | scalar k n => exact (numDecT_safe (inl := inl) hL (d := d + 1) (c := c) (t := .scalar k n) hw rfl old p hp).1
    | bool => exact (numDecT_safe (inl := inl) hL (d := d + 1) (c := c) (t := .bool) hw rfl old p hp).1
    | varint n zz => exact (numDecT_safe (inl := inl) hL (d := d + 1) (c := c) (t := .varint n zz) hw rfl old p hp).1
    | empty => exact .refl trivial hp
    | struct ok fs =>
      simp only [decodeT]
      split
      · exact decRepT_safe (hL _ 0) hp
      · exact decFields_safe fs _ p (fun t ht v p hp => ih c t v L mem p henv (widthsOkL_mem hw t ht) hL hp) hp
    | array n t' =>
      simp only [decodeT]
      split
      · exact decRepT_safe (hL _ 0) hp
      · exact hall t' hw _ _ hp
    | seq k sz t' =>
      have hb := fun olds p hp => seqBodyT_safe (hL p 0) (c := c) (k := k) (t := t')
        (fun v p hp => ih c t' v L mem p henv hw hL hp) olds p hp
      simp only [decodeT]
      split
      · cases k <;> first | exact hb _ _ hp | skip
        unfold seqUnsized
        rw [if_neg (by rw [hL]; omega)]
        exact ⟨trivial, by simp only [hL _ 0]; exact hp, by simp only [hL _ 0]; exact Nat.le_refl _⟩
      · have h1 := decHdrT_safe (inl := inl) hL (c := c) (effSz c sz) hp
        generalize decHdrT inl c (effSz c sz) mem p = r at *
        obtain ⟨s, n, p1⟩ := r
        cases s
        · exact h1.trans (seqFillT_safe (hL _ 0) (fun v p hp => ih c t' v L mem p henv hw hL hp) _ _ _ _ h1.inb)
        all_goals exact h1
    | assoc mu ha sz key m =>
      simp only [decodeT]
      have h1 := decHdrT_safe (inl := inl) hL (c := c) (effSz c sz) hp
      generalize decHdrT inl c (effSz c sz) mem p = r at *
      obtain ⟨s, n, p1⟩ := r
      cases s
      · refine h1.trans (toRes_safe (decAssoc_safe ?_ _ _ _ h1.inb))
        intro p hp
        cases m with
        | none => exact ih c key _ L mem p henv hw hL hp
        | some m =>
          simp only [widthsOk, Bool.and_eq_true] at hw
          refine toRes_safe (decFields_safe _ _ p ?_ hp)
          intro t ht v p hp
          simp only [List.mem_cons, List.not_mem_nil, or_false] at ht
          rcases ht with rfl | rfl
          · exact ih c _ v L mem p henv hw.1 hL hp
          · exact ih c _ v L mem p henv hw.2 hL hp
      all_goals exact h1
    | optional dc t' =>
      simp only [decodeT]
      have h1 := (getBytesT_safe (hL p 0) 1 hp).1
      generalize getBytes (mem p 0) p 1 = r at *
      obtain ⟨s, bs, p1⟩ := r
      cases s
      · dsimp only at h1 ⊢
        split
        · exact h1
        · have h2 := fun v => ih c t' v L mem p1 henv hw hL h1.inb
          cases dc
          · have h2 := h2 (dflt c d t')
            simp only [Bool.false_eq_true, if_false]
            generalize decodeT inl d c t' (dflt c d t') mem p1 = r at *
            obtain ⟨s, v, p2⟩ := r
            cases s <;> exact h1.trans h2
          · exact h1.trans (h2 _)
      all_goals exact h1
    | optPtr t' =>
      simp only [decodeT]
      have h1 := (getBytesT_safe (hL p 0) 1 hp).1
      generalize getBytes (mem p 0) p 1 = r at *
      obtain ⟨s, bs, p1⟩ := r
      cases s
      · dsimp only at h1 ⊢
        split
        · exact h1
        · have h2 := ih c t' (dflt c d t') L mem p1 henv hw hL h1.inb
          generalize decodeT inl d c t' (dflt c d t') mem p1 = r at *
          obtain ⟨s, v, p2⟩ := r
          cases s <;> exact h1.trans h2
      all_goals exact h1
    | uptr t' =>
      simp only [decodeT]
      have h2 := ih c t' (dflt c d t') L mem p henv hw hL hp
      generalize decodeT inl d c t' (dflt c d t') mem p = r at *
      obtain ⟨s, v, p2⟩ := r
      cases s <;> exact h2
    | variant idTy ids dcs alts =>
      simp only [widthsOk, Bool.and_eq_true] at hw
      simp only [decodeT]
      have h1 := ih c idTy (dflt c d idTy) L mem p henv hw.1 hL hp
      generalize decodeT inl d c idTy (dflt c d idTy) mem p = r at *
      obtain ⟨s, id, p1⟩ := r
      cases s
      · dsimp only at h1 ⊢
        split
        · exact h1.status trivial
        · split
          · next i _ _ _ t' dc ht _ =>
            exact h1.trans (decAlt_safe (fun v p hp => ih c t' v L mem p henv
              (widthsOkL_mem hw.2 t' (List.mem_of_getElem? ht)) hL hp) _ _ _ _ h1.inb)
          · exact h1.status trivial
      all_goals exact h1
    | bitset n =>
      simp only [decodeT]
      have h1 := (getBytesT_safe (hL p 0) ((n + 7) / 8) hp).1
      generalize getBytes (mem p 0) p ((n + 7) / 8) = r at *
      obtain ⟨s, bs, p1⟩ := r
      cases s <;> exact h1
    | msg sz ok maps nums fs =>
      have hrun : ∀ size p, p ≤ L → _ := fun size p hp =>
        msgRunT_safe (inl := inl) hL (c' := pbCfg c) (fresh := dflt (pbCfg c) d) (maps := maps) (nums := nums) (fs := fs) (old := old)
          (mem := mem) size p hp (widthsOkL_mem hw)
          (fun t v L sub p hw hL hp => ih (pbCfg c) t v L sub p henv hw hL hp)
          (fun t hw hn L sub hL => numDecT_safe (inl := inl) hL (d := d) hw hn)
      simp only [decodeT]
      split
      · exact hrun _ _ hp
      · have h1 := decHdrT_safe (inl := inl) hL (c := c) (effSz c sz) hp
        generalize decHdrT inl c (effSz c sz) mem p = r at *
        obtain ⟨s, n, p1⟩ := r
        cases s
        · exact h1.trans (hrun _ _ h1.inb)
        all_goals exact h1
    | ref i => exact ih c (c.env i) old L mem p henv (henv i) hL hp

theorem decManyT_safe {d : Nat} {c : Cfg} {L : Nat} {mem : Mem} (hL : Sized L mem) (henv : ∀ i, widthsOk (c.env i) = true) :
    ∀ (items : List (Ty × Val)) (p : Nat), (∀ it ∈ items, widthsOk it.1 = true) → p ≤ L →
    InStep L p (decManyT inl d c mem items p).s (decManyT inl d c mem items p).p := by
  intro items
  induction items with
  | nil => intro p _ hp; exact .refl trivial hp
  | cons it rest ih =>
    intro p hw hp
    obtain ⟨t, o⟩ := it
    unfold decManyT
    have h1 := decodeT_safe (inl := inl) d c t o L mem p henv (hw (t, o) (by simp)) hL hp
    generalize decodeT inl d c t o mem p = r at *
    obtain ⟨s, v, p1⟩ := r
    cases s
    · exact h1.trans (ih p1 (fun it h => hw it (by simp [h])) h1.inb)
    all_goals exact h1

end Zpp
