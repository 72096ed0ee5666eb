import Verif.Model.Work
import Verif.Spec.Work
import Verif.Proof.Storage
import Verif.Proof.InLeast
/-!
# Every byte of input pays for a bounded amount of work
-/

namespace Zpp
open Zpp.Spec

/-- The work `w` of a step from `p` to `p'` is paid by the input at price `K`, except for `h`. If the step takes input
(`b`) and succeeds, one byte is left over. -/
structure Bill (K : Nat) (b : Bool) (h p : Nat) (s : Status) (p' w : Nat) : Prop where
  any : w + K * p ≤ h + K * p'
  ok : b = true → s = .ok → w + K * p + K ≤ h + K * p'

/-- A reader that stays inside the input and whose work is paid. -/
def Billed (K len : Nat) (b : Bool) (h : Nat) (rec : Val → Nat → Res) (w : Val → Nat → Nat) : Prop :=
  ∀ v p, p ≤ len → (rec v p).p ≤ len ∧ Bill K b h p (rec v p).s (rec v p).p (w v p)

variable {K len : Nat}

theorem workAll_free {b : Bool} {h : Nat} {rec : Val → Nat → Res} {w : Val → Nat → Nat} (hr : Billed K len b h rec w) :
    ∀ (vs : List Val) (p : Nat), p ≤ len →
      Bill K (b && !vs.isEmpty) (vs.length * h) p (decAll rec vs p).s (decAll rec vs p).p (workAll rec w vs p) := by
  intro vs
  induction vs with
  | nil => intro p _; exact ⟨by simp [workAll, decAll], by simp⟩
  | cons v vs ih =>
    intro p hp
    obtain ⟨h1, h2, h3⟩ := hr v p hp
    simp only [workAll, decAll, List.length_cons, Nat.add_mul, Nat.one_mul, List.isEmpty_cons, Bool.not_false, Bool.and_true]
    generalize w v p = x at *
    generalize rec v p = r at *
    obtain ⟨s, v', p'⟩ := r
    dsimp only at h1 h2 h3
    cases s
    · have h4 := (ih p' h1).any
      have h5 := h3
      constructor
      · dsimp only; omega
      · intro hb _; have := h5 hb rfl; dsimp only; omega
    all_goals exact ⟨by dsimp only; omega, by simp⟩

theorem workAll_paid {h : Nat} {rec : Val → Nat → Res} {w : Val → Nat → Nat} (hr : Billed K len true h rec w) (hK : h ≤ K) :
    ∀ (vs : List Val) (p : Nat), p ≤ len → workAll rec w vs p + K * p ≤ h + K * (decAll rec vs p).p ∧
      ((decAll rec vs p).s = .ok → workAll rec w vs p + K * p ≤ K * (decAll rec vs p).p) := by
  intro vs
  induction vs with
  | nil => intro p _; simp [workAll, decAll]
  | cons v vs ih =>
    intro p hp
    obtain ⟨h1, h2, h3⟩ := hr v p hp
    simp only [workAll, decAll]
    generalize w v p = x at *
    generalize rec v p = r at *
    obtain ⟨s, v', p'⟩ := r
    dsimp only at h1 h2 h3
    cases s
    · obtain ⟨h4, h5⟩ := ih p' h1
      have h6 := h3 rfl rfl
      dsimp only
      exact ⟨by omega, fun hok => by have := h5 hok; omega⟩
    all_goals exact ⟨by dsimp only; omega, by simp⟩

theorem workFields_bill {b : Ty → Bool} {h : Ty → Nat} {rec : Ty → Val → Nat → Res} {w : Ty → Val → Nat → Nat} :
    ∀ (ts : List Ty) (os : List Val) (p : Nat), (∀ t ∈ ts, Billed K len (b t) (h t) (rec t) (w t)) → p ≤ len →
      Bill K (ts.any b) (ts.map h).sum p (decFields rec ts os p).s (decFields rec ts os p).p (workFields rec w ts os p) := by
  intro ts
  induction ts with
  | nil => intro os p _ _; exact ⟨by simp [workFields, decFields], by simp⟩
  | cons t ts ih =>
    intro os p hr hp
    obtain ⟨h1, h2, h3⟩ := hr t (by simp) (os.headD .unit) p hp
    simp only [workFields, decFields, List.map_cons, List.sum_cons, List.any_cons]
    generalize w t (os.headD .unit) p = x at *
    generalize rec t (os.headD .unit) p = r at *
    obtain ⟨s, v', p'⟩ := r
    dsimp only at h1 h2 h3
    cases s
    · obtain ⟨h4, h5⟩ := ih os.tail p' (fun t' ht => hr t' (by simp [ht])) h1
      constructor
      · dsimp only; omega
      · intro hb hok
        simp only [Bool.or_eq_true] at hb
        dsimp only at hok ⊢
        rcases hb with hb | hb
        · have := h3 hb rfl; omega
        · have := h5 hb hok; omega
    all_goals exact ⟨by dsimp only; omega, by simp⟩

theorem workAssoc_paid {h : Nat} {elem : Nat → Res} {w : Nat → Nat} {ins : Val → List Val → List Val}
    (hr : ∀ p, p ≤ len → (elem p).p ≤ len ∧ Bill K true h p (elem p).s (elem p).p (w p)) (hK : h ≤ K) :
    ∀ (n : Nat) (vs : List Val) (p : Nat), p ≤ len → workAssoc elem w n p + K * p ≤ h + K * (decAssoc elem ins n vs p).p ∧
      ((decAssoc elem ins n vs p).s = .ok → workAssoc elem w n p + K * p ≤ K * (decAssoc elem ins n vs p).p) := by
  intro n
  induction n with
  | zero => intro vs p _; simp [workAssoc, decAssoc]
  | succ n ih =>
    intro vs p hp
    obtain ⟨h1, h2, h3⟩ := hr p hp
    simp only [workAssoc, decAssoc]
    generalize w p = x at *
    generalize elem p = r at *
    obtain ⟨s, v', p'⟩ := r
    dsimp only at h1 h2 h3
    cases s
    · obtain ⟨h4, h5⟩ := ih (ins v' vs) p' h1
      have h6 := h3 rfl rfl
      dsimp only
      exact ⟨by omega, fun hok => by have := h5 hok; omega⟩
    all_goals exact ⟨by dsimp only; omega, by simp⟩

theorem workBody_paid {c : Cfg} {k : SeqKind} {t : Ty} {h : Nat} {rec : Val → Nat → Res} {w : Val → Nat → Nat} {data : List UInt8}
    (hr : Billed K data.length true h rec w) (hK : h ≤ K) (olds : List Val) (p : Nat) (hp : p ≤ data.length) :
    workBody c k t rec w olds p + K * p ≤ h + K * (seqBody c k t rec olds data p).p ∧
      ((seqBody c k t rec olds data p).s = .ok → workBody c k t rec w olds p + K * p ≤ K * (seqBody c k t rec olds data p).p) := by
  unfold workBody seqBody
  split
  · have hm := (decRep_safe (c := c) (t := t) (n := olds.length) (olds := olds) hp).mono
    have := Nat.mul_le_mul_left K hm
    simp only [ResL.toRes]
    exact ⟨by omega, fun _ => by omega⟩
  · exact workAll_paid hr hK olds p hp

/-- Sequences after their size prefix: only the elements created are not paid, and, when reading fails, what one element
may cause ahead of its input. -/
theorem workFill_paid {q r : Nat} {c : Cfg} {k : SeqKind} {t : Ty} {h : Nat} {rec : Val → Nat → Res} {w : Val → Nat → Nat}
    {data : List UInt8} (hq : q = 0 ∨ c.g.limit ≠ sizeMax ∧ q * c.g.limit ≤ r)
    (hr : Billed K data.length true h rec w) (hK : h ≤ K) (dv old : Val) (n p : Nat) (hp : p ≤ data.length) :
    workFill q c k t rec w dv old n p + K * p ≤ r + h + K * (seqFill c k t rec dv old data n p).p ∧
      ((seqFill c k t rec dv old data n p).s = .ok →
        workFill q c k t rec w dv old n p + K * p ≤ r + K * (seqFill c k t rec dv old data n p).p) := by
  have hbig : ∀ k', (if c.g.limit ≠ sizeMax ∧ c.g.limit / c.sizeof t < n then 0
        else if c.g.maxMem < n * c.sizeof t then 0
        else q * n + workBody c k' t rec w (resizeVals old.elems n dv) p) + K * p ≤ r + h + K *
        (if c.g.limit ≠ sizeMax ∧ c.g.limit / c.sizeof t < n then (⟨.err .messageSize, old, p⟩ : Res)
        else if c.g.maxMem < n * c.sizeof t then ⟨.badAlloc, old, p⟩
        else seqBody c k' t rec (resizeVals old.elems n dv) data p).p ∧
      ((if c.g.limit ≠ sizeMax ∧ c.g.limit / c.sizeof t < n then (⟨.err .messageSize, old, p⟩ : Res)
        else if c.g.maxMem < n * c.sizeof t then ⟨.badAlloc, old, p⟩
        else seqBody c k' t rec (resizeVals old.elems n dv) data p).s = .ok →
      (if c.g.limit ≠ sizeMax ∧ c.g.limit / c.sizeof t < n then 0
        else if c.g.maxMem < n * c.sizeof t then 0
        else q * n + workBody c k' t rec w (resizeVals old.elems n dv) p) + K * p ≤ r + K *
        (if c.g.limit ≠ sizeMax ∧ c.g.limit / c.sizeof t < n then (⟨.err .messageSize, old, p⟩ : Res)
        else if c.g.maxMem < n * c.sizeof t then ⟨.badAlloc, old, p⟩
        else seqBody c k' t rec (resizeVals old.elems n dv) data p).p) := by
    intro k'
    split
    · exact ⟨by dsimp only; omega, by simp⟩
    · next hl =>
      split
      · exact ⟨by dsimp only; omega, by simp⟩
      · obtain ⟨h1, h2⟩ := workBody_paid (c := c) (k := k') (t := t) hr hK (resizeVals old.elems n dv) p hp
        have h3 : q * n ≤ r := by
          rcases hq with rfl | ⟨hs, hq⟩
          · omega
          · have h4 : n ≤ c.g.limit / c.sizeof t := by omega
            exact Nat.le_trans (Nat.mul_le_mul_left q (Nat.le_trans h4 (Nat.div_le_self _ _))) hq
        exact ⟨by omega, fun hok => by have := h2 hok; omega⟩
  unfold workFill seqFill
  cases k with
  | view =>
    dsimp only
    split
    · exact ⟨by dsimp only; omega, by simp⟩
    · split
      · dsimp only; rw [Nat.mul_add]; exact ⟨by omega, fun _ => by omega⟩
      · exact ⟨by dsimp only; omega, by simp⟩
  | span =>
    dsimp only
    split
    · exact ⟨by dsimp only; omega, by simp⟩
    · obtain ⟨h1, h2⟩ := workBody_paid (c := c) (k := .span) (t := t) hr hK (old.elems.take n) p hp
      exact ⟨by omega, fun hok => by have := h2 hok; omega⟩
  | vector => exact hbig _
  | list => exact hbig _

/-! ## Messages -/

/-- What a number may cost: one visit, paid unless reading it fails. -/
def BilledNum (K len : Nat) (rec : Val → Nat → Res) (w : Val → Nat → Nat) : Prop := Billed K len true 1 rec w

theorem pbFetch_pos {c : Cfg} {t : Ty} {elem : Nat → Res} {vs : List Val} {p : Nat} :
    (pbFetch c t elem vs p).p = (elem p).p ∧ (pbFetch c t elem vs p).s = (elem p).s := by
  unfold pbFetch
  generalize elem p = r
  obtain ⟨s, v, p'⟩ := r
  cases s <;> exact ⟨rfl, rfl⟩

theorem workPacked_paid {c : Cfg} {t : Ty} {elem : Nat → Res} {w : Nat → Nat} {endPos : Nat} (hK : 1 ≤ K)
    (hr : ∀ p, p ≤ len → (elem p).p ≤ len ∧ Bill K true 1 p (elem p).s (elem p).p (w p)) :
    ∀ (f : Nat) (vs : List Val) (p : Nat), p ≤ len →
      workPacked (pbFetch c t elem) w endPos f vs p + K * p ≤ 1 + K * (pbPacked (pbFetch c t elem) endPos f vs p).p := by
  intro f
  induction f with
  | zero => intro vs p _; simp [workPacked, pbPacked]
  | succ f ih =>
    intro vs p hp
    unfold workPacked pbPacked
    split
    · obtain ⟨h1, h2, h3⟩ := hr p hp
      obtain ⟨e1, e2⟩ := pbFetch_pos (c := c) (t := t) (elem := elem) (vs := vs) (p := p)
      rw [← e1] at h1 h2 h3
      rw [← e2] at h3
      generalize pbFetch c t elem vs p = y at *
      generalize w p = x at *
      obtain ⟨s, vs', p'⟩ := y
      dsimp only at h1 h2 h3
      cases s
      · have h4 := ih vs' p' h1
        have h5 := h3 rfl rfl
        dsimp only; omega
      all_goals dsimp only; omega
    · dsimp only; omega

theorem workPackedField_paid {q r : Nat} {c : Cfg} {rec : Ty → Val → Nat → Res} {w : Ty → Val → Nat → Nat} {t elemTy : Ty}
    {fix : Bool} {wt : Nat} {old : Val} {data : List UInt8} {p : Nat} (hp : p ≤ data.length) (hK : 2 + r ≤ K)
    (hq : q = 0 ∨ c.g.limit ≠ sizeMax ∧ q * c.g.limit ≤ r)
    (he : Billed K data.length true 1 (rec elemTy) (w elemTy))
    (hu : hasResize t = true → fix = true → Billed K data.length false (2 + r) (rec (unsizedTy t)) (w (unsizedTy t))) :
    workPackedField q c rec w t elemTy fix wt old data p + 1 + K * p ≤
      K + K * (pbDecPacked c rec t elemTy fix wt old data p).p := by
  unfold workPackedField pbDecPacked
  simp only
  split
  · obtain ⟨h1, h2, h3⟩ := he .unit p hp
    simp only [ResL.toRes, pbFetch_pos.1]
    omega
  · have h1 := decHdr_safe (c := c) .varint hp
    have h2 := decHdr_least (c := c) .varint hp
    generalize decHdr c .varint data p = x at h1 h2 ⊢
    obtain ⟨s, n, p1⟩ := x
    have hM := Nat.mul_le_mul_left K h1.mono
    cases s <;> dsimp only at * <;> try omega
    have hM := Nat.mul_le_mul_left K (h2 rfl)
    simp only [prefixLeast, Nat.mul_add, Nat.mul_one] at hM
    split
    · next hf =>
      simp only [Bool.and_eq_true] at hf
      split
      · dsimp only; omega
      · next hl =>
        split
        · dsimp only; omega
        · obtain ⟨h3, h4, -⟩ := hu hf.1 hf.2 (.list (resizeVals old.elems (n / c.sizeof elemTy) (.num 0))) p1 h1.inb
          have h5 : q * (n / c.sizeof elemTy) ≤ r := by
            rcases hq with rfl | ⟨hs, hq⟩
            · omega
            · have h6 : n ≤ c.g.limit := by omega
              exact Nat.le_trans (Nat.mul_le_mul_left q (Nat.le_trans (Nat.div_le_self _ _) h6)) hq
          omega
    · split
      · dsimp only; omega
      · have := workPacked_paid (c := c) (t := t) (K := K) (endPos := wrap (n + p1)) (w := w elemTy .unit) (by omega)
          (fun p hp => he .unit p hp) (data.length + 1) old.elems p1 h1.inb
        simp only [ResL.toRes]
        omega

/-- Reading inside a message. -/
def BilledAll (pr : Prices) (r K len : Nat) (rec : Ty → Val → Nat → Res) (w : Ty → Val → Nat → Nat) : Prop :=
  ∀ t, widthsOk t = true → affordable pr r K .varint t = true →
    Billed K len (takesInput pr .varint t) (leadWork pr r .varint t) (rec t) (w t)

theorem billed_num {pr : Prices} {r : Nat} {rec : Ty → Val → Nat → Res} {w : Ty → Val → Nat → Nat}
    (hr : BilledAll pr r K len rec w) {t : Ty} (hw : widthsOk t = true) (hn : isPacked t = true) :
    Billed K len true 1 (rec t) (w t) := by
  cases t <;> simp [isPacked] at hn
  · next k n =>
    have hn : 0 < n := by simp [widthsOk] at hw; exact hw.1
    have := hr (.scalar k n) hw (by simp [affordable])
    simpa [takesInput, leadWork, hn] using this
  · simpa [takesInput, leadWork] using hr .bool hw (by simp [affordable])
  · next n zz => simpa [takesInput, leadWork] using hr (.varint n zz) hw (by simp [affordable])

theorem workElem_paid {q r : Nat} {pr : Prices} {c : Cfg} {rec : Ty → Val → Nat → Res} {w : Ty → Val → Nat → Nat}
    {fresh : Ty → Val} {t e : Ty} {wt : Nat} {old : Val} {data : List UInt8} {p : Nat} (hp : p ≤ data.length) (hK : 2 + r ≤ K)
    (hq : q = 0 ∨ c.g.limit ≠ sizeMax ∧ q * c.g.limit ≤ r) (hwe : widthsOk e = true)
    (hcl : pbInClass t = pbElemClass e) (hun : unitTy t = e)
    (hle : 1 + leadWork pr r .varint e ≤ K) (hae : affordable pr r K .varint e = true) (hte : takesInput pr .varint e = true)
    (hr : BilledAll pr r K data.length rec w) :
    workField q c rec w fresh t wt old data p + 1 + K * p ≤ K + K * (pbDecField c rec fresh t wt old data p).p := by
  unfold workField pbDecField
  rw [hcl]
  have hrep : w e (fresh e) p + 1 + K * p ≤ K + K * (pbFetch c t (rec e (fresh e)) old.elems p).toRes.p := by
    obtain ⟨h1, h2, -⟩ := hr e hwe hae (fresh e) p hp
    simp only [ResL.toRes, pbFetch_pos.1]
    omega
  have hu : isPacked e = true → hasResize t = true → Billed K data.length false (2 + r) (rec (unsizedTy t)) (w (unsizedTy t)) := by
    intro hn ht
    cases t <;> simp [hasResize] at ht
    next k sz t =>
    simp only [unitTy] at hun
    subst hun
    intro v p hp
    obtain ⟨h1, h2, -⟩ := hr (.seq k (some .none) t) hwe (by simp [affordable, hle, hae, hte]) v p hp
    refine ⟨h1, ⟨?_, by simp⟩⟩
    have hl : leadWork pr r .varint (.seq k (some .none) t) = 2 + r := by
      simp only [leadWork, Option.getD_some, prefixLeast, Nat.lt_irrefl, if_false]
      cases t <;> simp [isPacked] at hn <;> simp only [leadWork] <;> omega
    rw [hl] at h2
    exact h2
  cases e with
  | scalar k n =>
    cases k <;> simp only [pbElemClass]
    case enum => exact workPackedField_paid hp hK hq (billed_num hr (widthsOk_varint hwe (.inl rfl)) rfl) (fun h _ => hu rfl h)
    all_goals exact workPackedField_paid hp hK hq (billed_num hr hwe rfl) (fun h _ => hu rfl h)
  | bool => exact workPackedField_paid hp hK hq (billed_num hr hwe rfl) (fun h _ => hu rfl h)
  | varint n zz => exact workPackedField_paid hp hK hq (billed_num hr hwe rfl) (fun h _ => hu rfl h)
  | _ => exact hrep

theorem entryTy_same {pr : Prices} {r : Nat} {dsz : SizeTy} (t : Ty) :
    leadWork pr r dsz (pbEntryTy t) = leadWork pr r dsz t ∧
      (affordable pr r K dsz t = true → affordable pr r K dsz (pbEntryTy t) = true) := by
  cases t with
  | scalar k n => cases k <;> simp [pbEntryTy, leadWork, affordable]
  | _ => exact ⟨rfl, id⟩

theorem workField_paid {q r : Nat} {pr : Prices} {c : Cfg} {rec : Ty → Val → Nat → Res} {w : Ty → Val → Nat → Nat}
    {fresh : Ty → Val} {t : Ty} {wt : Nat} {old : Val} {data : List UInt8} {p : Nat} (hp : p ≤ data.length) (hK : 2 + r ≤ K)
    (hq : q = 0 ∨ c.g.limit ≠ sizeMax ∧ q * c.g.limit ≤ r) (hw : widthsOk t = true)
    (hl : 1 + leadWork pr r .varint t ≤ K) (ha : affordable pr r K .varint t = true)
    (hr : BilledAll pr r K data.length rec w) :
    workField q c rec w fresh t wt old data p + 1 + K * p ≤ K + K * (pbDecField c rec fresh t wt old data p).p := by
  have hsingle : w t old p + 1 + K * p ≤ K + K * (rec t old p).p := by
    obtain ⟨h1, h2, -⟩ := hr t hw ha old p hp
    omega
  cases t with
  | scalar k n =>
    cases k
    case enum =>
      have := Nat.mul_le_mul_left K (getVarint_safe (intWidth_iff.mp (widthsOk_varint hw (.inl rfl))) false old hp).1.mono
      simp only [workField, pbDecField, pbInClass]
      omega
    case byte =>
      have := Nat.mul_le_mul_left K (getVarint_safe (intWidth_iff.mp (widthsOk_varint hw (.inr rfl))) false old hp).1.mono
      simp only [workField, pbDecField, pbInClass]
      omega
    all_goals exact hsingle
  | seq k sz e =>
    simp only [affordable, Bool.and_eq_true, decide_eq_true_eq] at ha
    exact workElem_paid (e := e) hp hK hq hw rfl rfl ha.1.2 ha.2 ha.1.1 hr
  | assoc mu ha' sz key m =>
    cases m with
    | none =>
      simp only [affordable, Bool.and_eq_true, decide_eq_true_eq] at ha
      exact workElem_paid (e := key) hp hK hq hw rfl rfl ha.1.2 ha.2 ha.1.1 hr
    | some m =>
      simp only [widthsOk, affordable, Bool.and_eq_true, decide_eq_true_eq] at hw ha
      have h1 := entryTy_same (K := K) (pr := pr) (r := r) (dsz := .varint) key
      have h2 := entryTy_same (K := K) (pr := pr) (r := r) (dsz := .varint) m
      obtain ⟨h3, h4, -⟩ := hr (pbEntry key m) (widthsOk_entry hw.1 hw.2) (by
        simp only [pbEntry, affordable, affordableAlts, Bool.and_eq_true, decide_eq_true_eq, h1.1, h2.1]
        exact ⟨⟨by omega, h1.2 ha.1.2⟩, ⟨by omega, h2.2 ha.2⟩, trivial⟩) (fresh (pbEntry key m)) p hp
      simp only [workField, pbDecField, pbInClass, ResL.toRes, pbFetch_pos.1]
      have : leadWork pr r .varint (pbEntry key m) = 1 := by simp [pbEntry, leadWork, prefixLeast]
      omega
  | _ => exact hsingle

theorem workDispatch_paid {field : Ty → Nat → Val → Nat → Res} {wf : Ty → Nat → Val → Nat → Nat} {maps : List (Nat × Nat)}
    {num wt : Nat} (hK : 1 ≤ K) : ∀ (fs : List Ty) (nums : List (Option Nat)) (i : Nat) (os : List Val) (p : Nat),
    (∀ t ∈ fs, ∀ wt v p, p ≤ len → wf t wt v p + 1 + K * p ≤ K + K * (field t wt v p).p) → p ≤ len →
    workDispatch wf maps num wt i nums fs os p + 1 + K * p ≤ K + K * (pbDispatch field maps num wt i nums fs os p).p := by
  intro fs
  induction fs with
  | nil =>
    intro nums i os p _ hp
    cases nums <;> unfold pbDispatch workDispatch <;> split <;> dsimp only <;> omega
  | cons t ts ih =>
    intro nums i os p h hp
    cases nums with
    | nil => unfold pbDispatch workDispatch; split <;> dsimp only <;> omega
    | cons n ns =>
      unfold pbDispatch workDispatch
      split
      · exact h t (by simp) wt (os.headD .unit) p hp
      · exact ih ns (i + 1) os.tail p (fun t' ht => h t' (by simp [ht])) hp

theorem workLoop_paid {data : List UInt8} {field : Ty → Nat → Val → Nat → Res} {wf : Ty → Nat → Val → Nat → Nat}
    {maps : List (Nat × Nat)} {nums : List (Option Nat)} {fs : List Ty} (hK : 1 ≤ K)
    (hs : ∀ t ∈ fs, ∀ wt v p, p ≤ data.length → InStep data.length p (field t wt v p).s (field t wt v p).p)
    (h : ∀ t ∈ fs, ∀ wt v p, p ≤ data.length → wf t wt v p + 1 + K * p ≤ K + K * (field t wt v p).p) :
    ∀ g vs p, p ≤ data.length → workLoop field wf maps nums fs data g vs p + K * p ≤
      1 + K * (pbLoop field maps nums fs data g vs p).p ∧
      ((pbLoop field maps nums fs data g vs p).s = .ok → workLoop field wf maps nums fs data g vs p + K * p ≤
        K * (pbLoop field maps nums fs data g vs p).p) := by
  intro g
  induction g with
  | zero => intro vs p _; simp [workLoop, pbLoop]
  | succ g ih =>
    intro vs p hp
    unfold pbLoop workLoop
    split
    · have h1 := getVarint_safe (n := 4) (by decide) false (.num 0) hp
      generalize getVarint 4 false (.num 0) data p = r at *
      obtain ⟨s, v, p1⟩ := r
      have hM := Nat.mul_le_mul_left K h1.1.mono
      cases s
      · have h2 := Nat.mul_le_mul_left K (Nat.succ_le_of_lt (h1.2 rfl))
        rw [Nat.mul_succ] at h2
        have h3 := h1.1
        cases v
        case num tag =>
          dsimp only at h2 h3 ⊢
          have h4 := pbDispatch_safe (maps := maps) (num := tag >>> 3) (wt := tag &&& 7) fs nums 0 vs p1 hs h3.inb
          have h5 := workDispatch_paid (K := K) (maps := maps) (num := tag >>> 3) (wt := tag &&& 7) hK fs nums 0 vs p1 h h3.inb
          generalize workDispatch wf maps (tag >>> 3) (tag &&& 7) 0 nums fs vs p1 = x at *
          generalize pbDispatch field maps (tag >>> 3) (tag &&& 7) 0 nums fs vs p1 = q at *
          obtain ⟨s, vs', p2⟩ := q
          cases s
          · have := ih vs' p2 h4.inb
            dsimp only at *
            exact ⟨by omega, fun hok => by have := this.2 hok; omega⟩
          all_goals exact ⟨by dsimp only at *; omega, by simp⟩
        all_goals exact ⟨by dsimp only at *; omega, by simp⟩
      all_goals exact ⟨by dsimp only at *; omega, by simp⟩
    · exact ⟨by dsimp only; omega, by dsimp only; omega⟩

theorem affordableAlts_mem {pr : Prices} {r : Nat} {dsz : SizeTy} {ts : List Ty} (h : affordableAlts pr r K dsz ts = true) :
    ∀ t ∈ ts, 1 + leadWork pr r dsz t ≤ K ∧ affordable pr r K dsz t = true := by
  induction ts with
  | nil => intro t ht; cases ht
  | cons a as ih =>
    simp only [affordableAlts, Bool.and_eq_true, decide_eq_true_eq] at h
    intro t ht
    rcases List.mem_cons.mp ht with e | e
    · subst e; exact h.1
    · exact ih h.2 t e

theorem affordableL_mem {pr : Prices} {r : Nat} {dsz : SizeTy} {ts : List Ty} (h : affordableL pr r K dsz ts = true) :
    ∀ t ∈ ts, affordable pr r K dsz t = true := by
  induction ts with
  | nil => intro t ht; cases ht
  | cons a as ih =>
    simp only [affordableL, Bool.and_eq_true] at h
    intro t ht
    rcases List.mem_cons.mp ht with e | e
    · subst e; exact h.1
    · exact ih h.2 t e

theorem workMsg_paid {q r : Nat} {pr : Prices} {c' : Cfg} {rec : Ty → Val → List UInt8 → Nat → Res}
    {w : Ty → Val → List UInt8 → Nat → Nat} {fresh : Ty → Val} {maps : List (Nat × Nat)}
    {nums : List (Option Nat)} {fs : List Ty} {old : Val} {data : List UInt8} (size p : Nat) (hp : p ≤ data.length)
    (hK : 2 + r ≤ K) (hq : q = 0 ∨ c'.g.limit ≠ sizeMax ∧ q * c'.g.limit ≤ r)
    (hw : ∀ t ∈ fs, widthsOk t = true) (hm : affordableAlts pr r K .varint fs = true)
    (hs : ∀ t v sub p, widthsOk t = true → p ≤ sub.length → InStep sub.length p (rec t v sub p).s (rec t v sub p).p)
    (hr : ∀ sub : List UInt8, BilledAll pr r K sub.length (fun t v p => rec t v sub p) (fun t v p => w t v sub p))
    (hc : ∀ t, widthsOk t = true → isPacked t = true → ∀ sub : List UInt8, Consumes sub.length (fun t v p => rec t v sub p) t) :
    workMsg q c' rec w fresh maps nums fs old data size p + K * p ≤
      1 + K * (msgRun c' rec fresh maps nums fs old data size p).p ∧
    ((msgRun c' rec fresh maps nums fs old data size p).s = .ok → workMsg q c' rec w fresh maps nums fs old data size p + K * p ≤
      K * (msgRun c' rec fresh maps nums fs old data size p).p) := by
  unfold msgRun workMsg
  rw [if_neg (by omega), if_neg (by omega)]
  have h3 := workLoop_paid (K := K) (data := msgSub data p size) (maps := maps) (nums := nums) (fs := fs)
    (field := fun t wt v q => pbDecField c' (fun t v q => rec t v (msgSub data p size) q) fresh t wt v (msgSub data p size) q)
    (wf := fun t wt v r => workField q c' (fun t v r => rec t v (msgSub data p size) r) (fun t v r => w t v (msgSub data p size) r)
      fresh t wt v (msgSub data p size) r) (by omega)
    (fun t ht wt v q hq => pbDecField_safe hq (hw t ht) (fun t v q hw hq => hs t v _ q hw hq) (fun t hw hn => hc t hw hn _))
    (fun t ht wt v p hp => workField_paid hp hK hq (hw t ht) (affordableAlts_mem hm t ht).1 (affordableAlts_mem hm t ht).2 (hr _))
    ((msgSub data p size).length + 1) (pbClear fs old.elems) 0 (by omega)
  simp only [Nat.mul_add]
  exact ⟨by omega, fun hok => by have := h3.2 hok; omega⟩

/-! ## Reading any object -/

theorem takesInputAny_eq (pr : Prices) (dsz : SizeTy) (ts : List Ty) : takesInputAny pr dsz ts = ts.any (takesInput pr dsz) := by
  induction ts with
  | nil => rfl
  | cons t ts ih => simp only [takesInputAny, List.any_cons, ih]

theorem leadWorkL_eq (pr : Prices) (r : Nat) (dsz : SizeTy) (ts : List Ty) :
    leadWorkL pr r dsz ts = (ts.map (leadWork pr r dsz)).sum := by
  induction ts with
  | nil => rfl
  | cons t ts ih => simp only [leadWorkL, List.map_cons, List.sum_cons, ih]

theorem leadWorkFree_mem {pr : Prices} {r : Nat} {dsz : SizeTy} {ts : List Ty} {t : Ty} (h : t ∈ ts)
    (ht : takesInput pr dsz t = false) : leadWork pr r dsz t ≤ leadWorkFree pr r dsz ts := by
  induction ts with
  | nil => cases h
  | cons a as ih =>
    simp only [leadWorkFree]
    rcases List.mem_cons.mp h with e | e
    · subst e; rw [ht]; simp
    · have := ih e; omega

theorem prices_inside {pr : Prices} {r : Nat} {c : Cfg} (h : PricesOk pr r K c) : PricesOk pr r K (pbCfg c) :=
  ⟨fun i hi => ⟨(h.pays i hi).2, (h.pays i hi).2⟩, fun i => ⟨(h.lead i).2, (h.lead i).2⟩, fun i => ⟨(h.rest i).2, (h.rest i).2⟩⟩

/-- Reading any object from any position of any input. -/
theorem decode_billed {q r : Nat} {pr : Prices} (hK : 2 + r ≤ K) : ∀ (d : Nat) (c : Cfg) (t : Ty) (data : List UInt8),
    (q = 0 ∨ c.g.limit ≠ sizeMax ∧ q * c.g.limit ≤ r) → (∀ t, 0 < c.sizeof t) → (∀ i, widthsOk (c.env i) = true) →
    PricesOk pr r K c → widthsOk t = true → affordable pr r K c.dsz t = true →
    Billed K data.length (takesInput pr c.dsz t) (leadWork pr r c.dsz t) (fun v p => decode d c t v data p)
      (fun v p => work q d c t v data p) := by
  intro d
  induction d with
  | zero =>
    intro c t data _ _ _ _ _ _ v p hp
    have : 1 ≤ leadWork pr r c.dsz t := by cases t <;> simp only [leadWork] <;> (try split) <;> omega
    exact ⟨hp, ⟨by simp only [decode, work]; omega, by simp [decode]⟩⟩
  | succ d ih =>
    intro c t data hq hso hwe hpr hw ha old p hp
    have hstep := decode_safe (d + 1) c t old data p hwe hw hp
    refine ⟨hstep.inb, ?_⟩
    have hM := Nat.mul_le_mul_left K hstep.mono
    have hrec := fun t hw ha => ih c t data hq hso hwe hpr hw ha
    -- a leaf: one visit, and a byte of input unless it fails
    have hleaf : leadWork pr r c.dsz t = 1 → work q (d + 1) c t old data p = 1 →
        (takesInput pr c.dsz t = true → (decode (d + 1) c t old data p).s = .ok → p + 1 ≤ (decode (d + 1) c t old data p).p) →
        Bill K (takesInput pr c.dsz t) (leadWork pr r c.dsz t) p (decode (d + 1) c t old data p).s
          (decode (d + 1) c t old data p).p (work q (d + 1) c t old data p) := by
      intro h1 h2 h3
      rw [h1, h2]
      refine ⟨by omega, fun hb hok => ?_⟩
      have := Nat.mul_le_mul_left K (h3 hb hok)
      rw [Nat.mul_succ] at this
      omega
    dsimp only
    cases t with
    | scalar k n =>
      have h2 := numDec_safe (d := d + 1) (c := c) (data := data) hw rfl old p hp
      exact hleaf (by simp [leadWork]) (by simp [work]) (fun _ hok => h2.2 hok)
    | bool =>
      have h2 := numDec_safe (d := d + 1) (c := c) (data := data) (t := .bool) hw rfl old p hp
      exact hleaf (by simp [leadWork]) (by simp [work]) (fun _ hok => h2.2 hok)
    | varint n zz =>
      have h2 := numDec_safe (d := d + 1) (c := c) (data := data) hw rfl old p hp
      exact hleaf (by simp [leadWork]) (by simp [work]) (fun _ hok => h2.2 hok)
    | empty => exact hleaf (by simp [leadWork]) (by simp [work]) (by simp [takesInput])
    | bitset n =>
      refine hleaf (by simp [leadWork]) (by simp [work]) ?_
      simp only [takesInput, decide_eq_true_eq, decode]
      intro hn
      have h2 := (getBytes_safe ((n + 7) / 8) hp).2
      generalize getBytes data p ((n + 7) / 8) = x at h2 ⊢
      obtain ⟨s, bs, p1⟩ := x
      cases s <;> simp
      have := (h2 rfl).1
      dsimp only at this
      omega
    | struct ok fs =>
      simp only [decode, work, takesInput, leadWork, takesInputAny_eq, leadWorkL_eq]
      split
      · have hm := (decRep_safe (c := c) (t := .struct ok fs) (n := 1) (olds := [old]) hp).mono
        have hl := decRep_least (c := c) (t := .struct ok fs) (n := 1) (olds := [old]) hp
        have hM := Nat.mul_le_mul_left K hm
        refine ⟨by dsimp only; omega, fun _ hok => ?_⟩
        dsimp only at hok ⊢
        have h2 := hso (.struct ok fs)
        have h3 : p + 1 ≤ (decRep c (.struct ok fs) 1 [old] data p).p := by have := hl hok; omega
        have := Nat.mul_le_mul_left K h3
        rw [Nat.mul_succ] at this
        omega
      · have := workFields_bill (K := K) (len := data.length) (b := takesInput pr c.dsz) (h := leadWork pr r c.dsz)
          (rec := fun t v p => decode d c t v data p) (w := fun t v p => work q d c t v data p) fs old.elems p
          (fun t ht => hrec t (widthsOkL_mem hw t ht) (affordableL_mem ha t ht)) hp
        simp only [ResL.toRes]
        exact ⟨by have := this.any; omega, fun hb hok => by have := this.ok hb hok; omega⟩
    | array n t =>
      simp only [decode, work, takesInput, leadWork]
      split
      · have hm := (decRep_safe (c := c) (t := t) (n := n) (olds := resizeVals old.elems n .unit) hp).mono
        have hl := decRep_least (c := c) (t := t) (n := n) (olds := resizeVals old.elems n .unit) hp
        have hM := Nat.mul_le_mul_left K hm
        simp only [ResL.toRes]
        refine ⟨by omega, fun hb hok => ?_⟩
        simp only [Bool.and_eq_true, decide_eq_true_eq] at hb
        have h2 := Nat.mul_pos hb.1 (hso t)
        have h3 : p + 1 ≤ (decRep c t n (resizeVals old.elems n .unit) data p).p := by have := hl hok; omega
        have := Nat.mul_le_mul_left K h3
        rw [Nat.mul_succ] at this
        omega
      · have := workAll_free (hrec t hw ha) (resizeVals old.elems n .unit) p hp
        rw [resizeVals_length] at this
        simp only [ResL.toRes]
        refine ⟨by have := this.any; omega, fun hb hok => ?_⟩
        simp only [Bool.and_eq_true, decide_eq_true_eq] at hb
        have h4 : (resizeVals old.elems n .unit).isEmpty = false := by
          have := resizeVals_length old.elems n .unit
          cases hv : resizeVals old.elems n .unit with
          | nil => rw [hv] at this; simp at this; omega
          | cons _ _ => rfl
        have := this.ok (by simp [hb.2, h4]) hok
        omega
    | seq k sz t =>
      clear hM hleaf hstep
      simp only [affordable, Bool.and_eq_true, decide_eq_true_eq] at ha
      obtain ⟨⟨ht, hl⟩, ha⟩ := ha
      have hr := hrec t hw ha
      rw [ht] at hr
      simp only [decode, work, takesInput, leadWork]
      have he : sz.getD c.dsz = effSz c sz := rfl
      rw [he]
      cases hsz : effSz c sz with
      | none =>
        simp only [prefixLeast, Nat.lt_irrefl, if_false, decide_false]
        refine ⟨?_, by simp⟩
        unfold seqUnsized
        cases k
        case view =>
          dsimp only
          split
          · dsimp only; omega
          · have := Nat.mul_le_mul_left K hp; dsimp only; omega
        all_goals
          have := fun k => (workBody_paid (c := c) (k := k) (t := t) hr (by omega) old.elems p hp).1
          dsimp only
        · have := this .vector; omega
        · have := this .list; omega
        · have := this .span; omega
      | _ =>
        dsimp only
        rw [← hsz]
        have h1 := decHdr_safe (c := c) (effSz c sz) hp
        have h2 := decHdr_least (c := c) (effSz c sz) hp
        generalize decHdr c (effSz c sz) data p = x at h1 h2 ⊢
        obtain ⟨s, n, p1⟩ := x
        have hM := Nat.mul_le_mul_left K h1.mono
        cases s <;> dsimp only at * <;> try exact ⟨by omega, fun _ h => nomatch h⟩
        obtain ⟨h3, h4⟩ := workFill_paid (k := k) (t := t) (c := c) hq hr (by omega) (dflt c d t) old n p1 h1.inb
        by_cases h0 : 0 < prefixLeast (effSz c sz)
        · have h5 : p + 1 ≤ p1 := by have := h2 rfl; omega
          have h6 := Nat.mul_le_mul_left K h5
          rw [Nat.mul_succ] at h6
          rw [if_pos h0]
          exact ⟨by omega, fun _ hok => by have := h4 hok; omega⟩
        · rw [if_neg h0]
          exact ⟨by omega, by simp [h0]⟩
    | assoc mu hsh sz key m =>
      clear hM hleaf hstep
      have he : sz.getD c.dsz = effSz c sz := rfl
      have hrw : takesInput pr c.dsz (.assoc mu hsh sz key m) = decide (0 < prefixLeast (effSz c sz)) := by
        simp only [takesInput, he]
      have hlw : leadWork pr r c.dsz (.assoc mu hsh sz key m) = 1 := by simp only [leadWork]
      rw [hrw, hlw]
      simp only [decode, work]
      have h1 := decHdr_safe (c := c) (effSz c sz) hp
      have h2 := decHdr_least (c := c) (effSz c sz) hp
      have h3 := fun n p1 => decHdr_pays (c := c) (sz := effSz c sz) (n := n) (p1 := p1) hp
      generalize decHdr c (effSz c sz) data p = x at h1 h2 h3 ⊢
      obtain ⟨s, n, p1⟩ := x
      have hM := Nat.mul_le_mul_left K h1.mono
      cases s <;> dsimp only at * <;> try exact ⟨by omega, fun _ h => nomatch h⟩
      -- the entries
      have hgo : ∀ (elem : Nat → Res) (w : Nat → Nat) (ins : Val → List Val → List Val) (h : Nat), h ≤ K →
          (∀ p, p ≤ data.length → (elem p).p ≤ data.length ∧ Bill K true h p (elem p).s (elem p).p (w p)) →
          Bill K (decide (0 < prefixLeast (effSz c sz))) 1 p (decAssoc elem ins n [] p1).toRes.s (decAssoc elem ins n [] p1).toRes.p
            (1 + workAssoc elem w n p1) := by
        intro elem w ins h hh hel
        obtain ⟨h4, h5⟩ := workAssoc_paid (ins := ins) hel hh n [] p1 h1.inb
        simp only [ResL.toRes]
        have hone : p + 1 ≤ p1 → workAssoc elem w n p1 + K * p ≤ K * (decAssoc elem ins n [] p1).p ∧
            ((decAssoc elem ins n [] p1).s = .ok → workAssoc elem w n p1 + K * p + K ≤ K * (decAssoc elem ins n [] p1).p) := by
          intro h6
          have h6 := Nat.mul_le_mul_left K h6
          rw [Nat.mul_succ] at h6
          exact ⟨by omega, fun hok => by have := h5 hok; omega⟩
        constructor
        · rcases (h3 n p1 rfl).1 with h6 | h6
          · have := (hone h6).1; omega
          · subst h6; simp only [workAssoc, decAssoc]; omega
        · intro hb hok
          simp only [decide_eq_true_eq] at hb
          have := (hone (by have := h2 rfl; omega)).2 hok
          omega
      cases m with
      | none =>
        simp only [affordable, Bool.and_eq_true, decide_eq_true_eq] at ha
        have hr := hrec key hw ha.2
        rw [ha.1.1] at hr
        exact hgo _ _ _ _ (by omega) (fun p hp => hr (dflt c d key) p hp)
      | some m =>
        simp only [widthsOk, affordable, Bool.and_eq_true, Bool.or_eq_true, decide_eq_true_eq] at hw ha
        have hmem : ∀ t ∈ [key, m], widthsOk t = true ∧ affordable pr r K c.dsz t = true := by
          intro t ht
          simp only [List.mem_cons, List.not_mem_nil, or_false] at ht
          rcases ht with rfl | rfl
          · exact ⟨hw.1, ha.1.2⟩
          · exact ⟨hw.2, ha.2⟩
        refine hgo _ _ _ (leadWork pr r c.dsz key + leadWork pr r c.dsz m) (by omega) (fun p hp => ?_)
        have hs := decFields_safe (len := data.length) (rec := fun t v p => decode d c t v data p) [key, m] [dflt c d key, dflt c d m] p
          (fun t ht v p hp => decode_safe d c t v data p hwe (hmem t ht).1 hp) hp
        have := workFields_bill (K := K) (len := data.length) (b := takesInput pr c.dsz) (h := leadWork pr r c.dsz)
          (rec := fun t v p => decode d c t v data p) (w := fun t v p => work q d c t v data p) [key, m]
          [dflt c d key, dflt c d m] p (fun t ht => hrec t (hmem t ht).1 (hmem t ht).2) hp
        have hb : [key, m].any (takesInput pr c.dsz) = true := by simp; exact ha.1.1.1
        rw [hb] at this
        simp only [List.map_cons, List.map_nil, List.sum_cons, List.sum_nil, Nat.add_zero] at this
        exact ⟨hs.inb, this⟩
    | optional dc t =>
      clear hM hleaf hstep
      simp only [affordable, Bool.and_eq_true, decide_eq_true_eq] at ha
      have hr := hrec t hw ha.2
      simp only [decode, work, takesInput, leadWork]
      have h1 := getBytes_safe 1 hp
      generalize getBytes data p 1 = x at h1 ⊢
      obtain ⟨s, bs, p1⟩ := x
      have hM := Nat.mul_le_mul_left K h1.1.mono
      have hL : ∃ l, (if takesInput pr c.dsz t = true then 1 else 1 + leadWork pr r c.dsz t) = l ∧ 1 ≤ l := by
        split <;> exact ⟨_, rfl, by omega⟩
      obtain ⟨l, hl1, hl2⟩ := hL
      cases s <;> dsimp only at * <;> try (rw [hl1]; exact ⟨by omega, fun _ h => nomatch h⟩)
      obtain ⟨h2, h3, -⟩ := h1.2 rfl
      subst h2
      -- the presence byte pays for the object
      have hgo : ∀ cur, Bill K true l p (decode d c t cur data (p + 1)).s (decode d c t cur data (p + 1)).p
          (1 + work q d c t cur data (p + 1)) := by
        intro cur
        obtain ⟨h4, h5, h6⟩ := hr cur (p + 1) h3
        dsimp only at h4 h5 h6
        rw [Nat.mul_succ] at h5 h6
        refine ⟨by omega, fun _ hok => ?_⟩
        split at hl1
        · next ht => have := h6 ht hok; omega
        · omega
      rw [hl1]
      split
      · refine ⟨by dsimp only; omega, fun _ _ => ?_⟩
        dsimp only; rw [Nat.mul_succ]; omega
      · split
        · exact hgo _
        · have := hgo (dflt c d t)
          generalize decode d c t (dflt c d t) data (p + 1) = y at this ⊢
          obtain ⟨s, v, p2⟩ := y
          cases s <;> exact this
    | optPtr t =>
      clear hM hleaf hstep
      simp only [affordable, Bool.and_eq_true, decide_eq_true_eq] at ha
      have hr := hrec t hw ha.2
      simp only [decode, work, takesInput, leadWork]
      have h1 := getBytes_safe 1 hp
      generalize getBytes data p 1 = x at h1 ⊢
      obtain ⟨s, bs, p1⟩ := x
      have hM := Nat.mul_le_mul_left K h1.1.mono
      have hL : ∃ l, (if takesInput pr c.dsz t = true then 1 else 1 + leadWork pr r c.dsz t) = l ∧ 1 ≤ l := by
        split <;> exact ⟨_, rfl, by omega⟩
      obtain ⟨l, hl1, hl2⟩ := hL
      cases s <;> dsimp only at * <;> try (rw [hl1]; exact ⟨by omega, fun _ h => nomatch h⟩)
      obtain ⟨h2, h3, -⟩ := h1.2 rfl
      subst h2
      rw [hl1]
      split
      · refine ⟨by dsimp only; omega, fun _ _ => ?_⟩
        dsimp only; rw [Nat.mul_succ]; omega
      · obtain ⟨h4, h5, h6⟩ := hr (dflt c d t) (p + 1) h3
        dsimp only at h4 h5 h6
        rw [Nat.mul_succ] at h5 h6
        generalize work q d c t (dflt c d t) data (p + 1) = z at h5 h6 ⊢
        generalize decode d c t (dflt c d t) data (p + 1) = y at h4 h5 h6 ⊢
        obtain ⟨s, v, p2⟩ := y
        dsimp only at h4 h5 h6
        cases s
        case ok =>
          refine ⟨by dsimp only; omega, fun _ _ => ?_⟩
          dsimp only
          split at hl1
          · next ht => have := h6 ht rfl; omega
          · omega
        all_goals exact ⟨by dsimp only; omega, fun _ h => nomatch h⟩
    | uptr t =>
      clear hM hleaf hstep
      simp only [decode, work, takesInput, leadWork]
      obtain ⟨h4, h5, h6⟩ := hrec t hw ha (dflt c d t) p hp
      dsimp only at h4 h5 h6
      generalize work q d c t (dflt c d t) data p = z at h5 h6 ⊢
      generalize decode d c t (dflt c d t) data p = y at h4 h5 h6 ⊢
      obtain ⟨s, v, p2⟩ := y
      dsimp only at h4 h5 h6
      cases s
      case ok => exact ⟨by dsimp only; omega, fun hb _ => by have := h6 hb rfl; dsimp only; omega⟩
      all_goals exact ⟨by dsimp only; omega, fun _ h => nomatch h⟩
    | variant idTy ids dcs alts =>
      clear hM hleaf hstep
      simp only [widthsOk, affordable, Bool.and_eq_true] at hw ha
      simp only [decode, work, takesInput, leadWork]
      obtain ⟨h4, h5, h6⟩ := hrec idTy hw.1 ha.1.2 (dflt c d idTy) p hp
      dsimp only at h4 h5 h6
      generalize work q d c idTy (dflt c d idTy) data p = z at h5 h6 ⊢
      generalize decode d c idTy (dflt c d idTy) data p = y at h4 h5 h6 ⊢
      obtain ⟨s, id, p1⟩ := y
      dsimp only at h4 h5 h6
      cases s <;> dsimp only at * <;> try exact ⟨by omega, fun _ h => nomatch h⟩
      have h6 := h6 ha.1.1 rfl
      cases hfi : findId id ids 0 with
      | none => exact ⟨by dsimp only; omega, fun _ h => nomatch h⟩
      | some i =>
        dsimp only
        cases ht : alts[i]? with
        | none => exact ⟨by dsimp only; omega, fun _ h => nomatch h⟩
        | some t' =>
          cases hdc : dcs[i]? with
          | none => exact ⟨by dsimp only; omega, fun _ h => nomatch h⟩
          | some dc =>
            dsimp only
            have hmem := List.mem_of_getElem? ht
            obtain ⟨ha1, ha2⟩ := affordableAlts_mem ha.2 t' hmem
            have hr := hrec t' (widthsOkL_mem hw.2 t' hmem) ha2
            have hfree := fun h => leadWorkFree_mem (r := r) hmem (pr := pr) (dsz := c.dsz) h
            have hgo : ∀ cur, Bill K (takesInput pr c.dsz idTy) (1 + leadWork pr r c.dsz idTy + leadWorkFree pr r c.dsz alts) p
                (decode d c t' cur data p1).s (decode d c t' cur data p1).p (1 + z + work q d c t' cur data p1) := by
              intro cur
              obtain ⟨h7, h8, h9⟩ := hr cur p1 h4
              dsimp only at h7 h8 h9
              refine ⟨by omega, fun _ hok => ?_⟩
              cases htk : takesInput pr c.dsz t'
              · have := hfree htk; omega
              · have := h9 htk hok; omega
            unfold decAlt
            cases dc
            · have := hgo (dflt c d t')
              simp only [Bool.false_eq_true, if_false]
              generalize decode d c t' (dflt c d t') data p1 = y at this ⊢
              obtain ⟨s, v, p2⟩ := y
              cases s <;> exact this
            · simp only [if_true]
              exact hgo _
    | msg sz ok maps nums fs =>
      clear hM hleaf hstep
      have hrun := fun size p hp => workMsg_paid (K := K) (q := q) (pr := pr) (c' := pbCfg c) (rec := decode d (pbCfg c)) (w := work q d (pbCfg c))
          (fresh := dflt (pbCfg c) d) (maps := maps) (nums := nums) (old := old) (data := data) size p hp hK hq (widthsOkL_mem hw) ha
          (fun t v sub p hw hp => decode_safe d (pbCfg c) t v sub p hwe hw hp)
          (fun sub t hw ha => ih (pbCfg c) t sub hq hso hwe (prices_inside hpr) hw ha)
          (fun t hw hn sub => numDec_safe (d := d) hw hn)
      simp only [decode, work, takesInput, leadWork]
      have he : sz.getD c.dsz = effSz c sz := rfl
      rw [he]
      cases hsz : effSz c sz with
      | none =>
        simp only [prefixLeast, Nat.lt_irrefl, decide_false, if_false]
        obtain ⟨h3, h4⟩ := hrun sizeMax p hp
        exact ⟨by omega, fun h => nomatch h⟩
      | _ =>
        dsimp only
        rw [← hsz]
        have h1 := decHdr_safe (c := c) (effSz c sz) hp
        have h2 := decHdr_least (c := c) (effSz c sz) hp
        generalize decHdr c (effSz c sz) data p = x at h1 h2 ⊢
        obtain ⟨s, n, p1⟩ := x
        have hM := Nat.mul_le_mul_left K h1.mono
        cases s <;> dsimp only at *
        case ok =>
          obtain ⟨h3, h4⟩ := hrun n p1 h1.inb
          by_cases h0 : 0 < prefixLeast (effSz c sz)
          · have h5 : p + 1 ≤ p1 := by have := h2 rfl; omega
            have h6 := Nat.mul_le_mul_left K h5
            rw [Nat.mul_succ] at h6
            rw [if_pos h0]
            exact ⟨by omega, fun _ hok => by have := h4 hok; omega⟩
          · rw [if_neg h0]
            exact ⟨by omega, by simp [h0]⟩
        all_goals exact ⟨by split <;> omega, fun _ h => nomatch h⟩
    | ref i =>
      have hr := ih c (c.env i) data hq hso hwe hpr (hwe i) (hpr.rest i).1 old p hp
      obtain ⟨h4, h5, h6⟩ := hr
      dsimp only at h4 h5 h6
      have := (hpr.lead i).1
      simp only [decode, work, takesInput, leadWork]
      exact ⟨by omega, fun hb hok => by have := h6 (hpr.pays i hb).1 hok; omega⟩

/-- Reading several objects. -/
theorem decMany_billed {q r : Nat} {pr : Prices} {d : Nat} {c : Cfg} {data : List UInt8} (hK : 2 + r ≤ K)
    (hq : q = 0 ∨ c.g.limit ≠ sizeMax ∧ q * c.g.limit ≤ r) (hso : ∀ t, 0 < c.sizeof t) (hwe : ∀ i, widthsOk (c.env i) = true)
    (hpr : PricesOk pr r K c) : ∀ (items : List (Ty × Val)) (p : Nat), (∀ it ∈ items, widthsOk it.1 = true) →
    (∀ it ∈ items, affordable pr r K c.dsz it.1 = true) → p ≤ data.length →
    workMany q d c data items p + K * p ≤ leadWorkL pr r c.dsz (items.map Prod.fst) + K * (decMany d c data items p).p := by
  intro items
  induction items with
  | nil => intro p _ _ _; simp [workMany, decMany]
  | cons it rest ih =>
    intro p hw ha hp
    obtain ⟨t, o⟩ := it
    obtain ⟨h1, h2, h3⟩ := decode_billed (q := q) hK d c t data hq hso hwe hpr (hw (t, o) (by simp)) (ha (t, o) (by simp)) o p hp
    simp only [decMany, workMany, List.map_cons, leadWorkL]
    dsimp only at h1 h2
    generalize work q d c t o data p = z at h2 ⊢
    clear h3
    generalize decode d c t o data p = y at h1 h2 ⊢
    obtain ⟨s, v, p1⟩ := y
    dsimp only at h1 h2
    cases s
    · have := ih p1 (fun it h => hw it (by simp [h])) (fun it h => ha it (by simp [h])) h1
      dsimp only; omega
    all_goals dsimp only; omega

end Zpp
