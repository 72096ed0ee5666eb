import Verif.Spec.Input
import Verif.Props.Varint
import Verif.Proof.WireLemmas
/-! # Reading never leaves the input -/

namespace Zpp
open Spec

/-- The position moves forward and stays inside; the outcome is a documented one. -/
structure InStep (len p : Nat) (s : Status) (p' : Nat) : Prop where
  code : InOutcome s
  mono : p ≤ p'
  inb : p' ≤ len

theorem InStep.refl {len p : Nat} {s : Status} (h : InOutcome s) (hp : p ≤ len) : InStep len p s p :=
  ⟨h, Nat.le_refl _, hp⟩

theorem InStep.trans {len p p1 p2 : Nat} {s1 s2 : Status} (h1 : InStep len p s1 p1) (h2 : InStep len p1 s2 p2) :
    InStep len p s2 p2 := ⟨h2.code, Nat.le_trans h1.mono h2.mono, h2.inb⟩

theorem getBytes_safe {data : List UInt8} {p : Nat} (n : Nat) (hp : p ≤ data.length) :
    InStep data.length p (getBytes data p n).1 (getBytes data p n).2.2 ∧
    ((getBytes data p n).1 = .ok → (getBytes data p n).2.2 = p + n ∧ p + n ≤ data.length ∧
      (getBytes data p n).2.1 = (data.drop p).take n) := by
  unfold getBytes
  rw [subSz_of_le hp]
  split
  · exact ⟨.refl trivial hp, by simp⟩
  · rw [if_pos (by omega)]
    exact ⟨⟨trivial, by simp, by simp only; omega⟩, fun _ => ⟨rfl, by omega, rfl⟩⟩

theorem getVarint_safe {data : List UInt8} {p n : Nat} (hn : IntWidth n) (zz : Bool) (old : Val) (hp : p ≤ data.length) :
    InStep data.length p (getVarint n zz old data p).s (getVarint n zz old data p).p ∧
    ((getVarint n zz old data p).s = .ok → p < (getVarint n zz old data p).p) := by
  unfold getVarint
  rw [if_neg (by omega)]
  obtain ⟨h1, _, h2⟩ := Props.C23_varint_no_ub n hn (data.drop p)
  have h3 := (Props.C21_varint_decoder n hn (data.drop p)).2
  cases hr : readVarintRaw n (data.drop p) with
  | ok x len =>
    obtain ⟨_, h4, h5⟩ := h2 x len hr
    simp only [List.length_drop] at h5
    exact ⟨⟨trivial, by simp, by simp only; omega⟩, fun _ => by simp only; omega⟩
  | err e =>
    simp only
    refine ⟨.refl ?_ hp, by simp⟩
    rw [h3] at hr
    split at hr <;> split at hr <;> cases hr <;> trivial
  | ub => exact absurd hr h1

theorem intWidth8 : IntWidth 8 := by decide

theorem decHdr_safe {c : Cfg} {data : List UInt8} {p : Nat} (sz : SizeTy) (hp : p ≤ data.length) :
    InStep data.length p (decHdr c sz data p).1 (decHdr c sz data p).2.2 := by
  unfold decHdr
  cases sz with
  | fixed k =>
    dsimp only
    have h := (getBytes_safe k hp).1
    generalize getBytes data p k = r at *
    obtain ⟨s, bs, p'⟩ := r
    cases s <;> first | exact h | exact ⟨trivial, h.mono, h.inb⟩
  | varint =>
    dsimp only
    have h := (getVarint_safe intWidth8 false (.num 0) hp).1
    generalize getVarint 8 false (.num 0) data p = r at *
    obtain ⟨s, v, p'⟩ := r
    cases s
    · cases v <;> exact ⟨trivial, h.mono, h.inb⟩
    all_goals exact h
  | none => exact .refl trivial hp

theorem decAll_safe {len : Nat} {rec : Val → Nat → Res}
    (h : ∀ v p, p ≤ len → InStep len p (rec v p).s (rec v p).p) :
    ∀ vs p, p ≤ len → InStep len p (decAll rec vs p).s (decAll rec vs p).p := by
  intro vs
  induction vs with
  | nil => intro p hp; exact .refl trivial hp
  | cons v vs ih =>
    intro p hp
    unfold decAll
    have h1 := h v p hp
    generalize rec v p = r at *
    obtain ⟨s, v', p'⟩ := r
    cases s
    · exact h1.trans (ih p' h1.inb)
    all_goals exact h1

theorem decFields_safe {len : Nat} {rec : Ty → Val → Nat → Res} : ∀ ts vs p,
    (∀ t ∈ ts, ∀ v p, p ≤ len → InStep len p (rec t v p).s (rec t v p).p) →
    p ≤ len → InStep len p (decFields rec ts vs p).s (decFields rec ts vs p).p := by
  intro ts
  induction ts with
  | nil => intro vs p _ hp; exact .refl trivial hp
  | cons t ts ih =>
    intro vs p h hp
    unfold decFields
    have h1 := h t (by simp) (vs.headD .unit) p hp
    generalize rec t (vs.headD .unit) p = r at *
    obtain ⟨s, v', p'⟩ := r
    cases s
    · exact h1.trans (ih vs.tail p' (fun t' ht => h t' (by simp [ht])) h1.inb)
    all_goals exact h1

theorem decRep_safe {c : Cfg} {data : List UInt8} {t : Ty} {n : Nat} {olds : List Val} {p : Nat} (hp : p ≤ data.length) :
    InStep data.length p (decRep c t n olds data p).s (decRep c t n olds data p).p := by
  unfold decRep
  split
  · exact .refl trivial hp
  · have h := (getBytes_safe (n * c.sizeof t) hp).1
    generalize getBytes data p (n * c.sizeof t) = r at *
    obtain ⟨s, bs, p'⟩ := r
    cases s <;> exact h

theorem decAssoc_safe {len : Nat} {elem : Nat → Res} {ins : Val → List Val → List Val}
    (h : ∀ p, p ≤ len → InStep len p (elem p).s (elem p).p) :
    ∀ n vs p, p ≤ len → InStep len p (decAssoc elem ins n vs p).s (decAssoc elem ins n vs p).p := by
  intro n
  induction n with
  | zero => intro vs p hp; exact .refl trivial hp
  | succ n ih =>
    intro vs p hp
    unfold decAssoc
    have h1 := h p hp
    generalize elem p = r at *
    obtain ⟨s, v', p'⟩ := r
    cases s
    · exact h1.trans (ih _ p' h1.inb)
    all_goals exact h1

theorem decAlt_safe {len : Nat} {rec : Val → Nat → Res}
    (h : ∀ v p, p ≤ len → InStep len p (rec v p).s (rec v p).p) (dc : Bool) (i : Nat) (dv old : Val) {p : Nat}
    (hp : p ≤ len) : InStep len p (decAlt rec dc i dv old p).s (decAlt rec dc i dv old p).p := by
  unfold decAlt
  cases dc
  · simp only [Bool.false_eq_true, if_false]
    have h1 := h dv p hp
    generalize rec dv p = r at *
    obtain ⟨s, v', p'⟩ := r
    cases s <;> exact h1
  · simp only [if_true]
    exact h _ p hp

theorem pbFetch_safe {len : Nat} {c : Cfg} {t : Ty} {elem : Nat → Res} {vs : List Val} {p : Nat}
    (h : InStep len p (elem p).s (elem p).p) :
    InStep len p (pbFetch c t elem vs p).s (pbFetch c t elem vs p).p ∧
    (pbFetch c t elem vs p).s = (elem p).s ∧ (pbFetch c t elem vs p).p = (elem p).p := by
  unfold pbFetch
  generalize elem p = r at *
  obtain ⟨s, v', p'⟩ := r
  cases s <;> exact ⟨h, rfl, rfl⟩

theorem pbPacked_safe {len : Nat} {fetch : List Val → Nat → ResL} {endPos : Nat}
    (h : ∀ vs p, p ≤ len → InStep len p (fetch vs p).s (fetch vs p).p ∧ ((fetch vs p).s = .ok → p < (fetch vs p).p)) :
    ∀ f vs p, p ≤ len → len < f + p → InStep len p (pbPacked fetch endPos f vs p).s (pbPacked fetch endPos f vs p).p := by
  intro f
  induction f with
  | zero => intro vs p hp hf; omega
  | succ f ih =>
    intro vs p hp hf
    unfold pbPacked
    split
    · have h1 := h vs p hp
      generalize fetch vs p = r at *
      obtain ⟨s, v', p'⟩ := r
      cases s
      · have := h1.2 rfl
        have hin := h1.1.inb
        simp only at this hin
        exact h1.1.trans (ih v' p' hin (by omega))
      all_goals exact h1.1
    · exact .refl trivial hp

theorem widthsOkL_mem {ts : List Ty} (h : widthsOkL ts = true) : ∀ t ∈ ts, widthsOk t = true := by
  induction ts with
  | nil => intro t ht; cases ht
  | cons a as ih =>
    simp only [widthsOkL, Bool.and_eq_true] at h
    intro t ht
    rcases List.mem_cons.mp ht with e | e
    · subst e; exact h.1
    · exact ih h.2 t e

/-- A number type: reading it successfully consumes something. -/
def Consumes (len : Nat) (rec : Ty → Val → Nat → Res) (t : Ty) : Prop :=
  ∀ v p, p ≤ len → InStep len p (rec t v p).s (rec t v p).p ∧ ((rec t v p).s = .ok → p < (rec t v p).p)

theorem pbDecPacked_safe {c : Cfg} {rec : Ty → Val → Nat → Res} {t elemTy : Ty} {fix : Bool} {wt : Nat} {old : Val}
    {data : List UInt8} {p : Nat} (hp : p ≤ data.length) (he : Consumes data.length rec elemTy)
    (ht : ∀ v p, p ≤ data.length → InStep data.length p (rec (unsizedTy t) v p).s (rec (unsizedTy t) v p).p) :
    InStep data.length p (pbDecPacked c rec t elemTy fix wt old data p).s (pbDecPacked c rec t elemTy fix wt old data p).p := by
  unfold pbDecPacked
  simp only
  split
  · exact (pbFetch_safe (he _ _ hp).1).1
  · have h1 := decHdr_safe (c := c) .varint hp
    generalize decHdr c .varint data p = r at *
    obtain ⟨s, n, p1⟩ := r
    cases s
    · simp only at h1 ⊢
      have h2 := h1.inb
      split
      · split
        · exact ⟨trivial, h1.mono, h2⟩
        · split
          · exact ⟨trivial, h1.mono, h2⟩
          · exact h1.trans (ht _ _ h2)
      · split
        · exact ⟨trivial, h1.mono, h2⟩
        · refine h1.trans (pbPacked_safe ?_ _ _ _ h2 (by omega))
          intro vs p hp
          have := he .unit p hp
          obtain ⟨f1, f2, f3⟩ := pbFetch_safe (c := c) (t := t) (vs := vs) this.1
          exact ⟨f1, by rw [f2, f3]; exact this.2⟩
    all_goals exact h1

theorem widthsOk_unsized {t : Ty} (h : widthsOk t = true) : widthsOk (unsizedTy t) = true := by
  cases t <;> exact h

theorem widthsOk_entry {key m : Ty} (hk : widthsOk key = true) (hm : widthsOk m = true) :
    widthsOk (pbEntry key m) = true := by
  have : ∀ t, widthsOk t = true → widthsOk (pbEntryTy t) = true := by
    intro t ht
    cases t with
    | scalar k n => cases k <;> first | exact ht | (simp [widthsOk] at ht; simp [pbEntryTy, widthsOk, ht])
    | _ => exact ht
  simp [pbEntry, widthsOk, widthsOkL, this _ hk, this _ hm]

theorem widthsOk_varint {k : SKind} {n : Nat} (h : widthsOk (.scalar k n) = true) (hk : k = .enum ∨ k = .byte) :
    intWidth n = true := by
  rcases hk with rfl | rfl <;> simpa [widthsOk] using (by simpa [widthsOk] using h : 0 < n ∧ intWidth n = true).2

theorem pbElem_safe {c : Cfg} {rec : Ty → Val → Nat → Res} {fresh : Ty → Val} {t e : Ty} {wt : Nat} {old : Val}
    {data : List UInt8} {p : Nat} (hp : p ≤ data.length) (hw : widthsOk t = true) (hwe : widthsOk e = true)
    (hcl : pbInClass t = pbElemClass e)
    (hr : ∀ t v p, widthsOk t = true → p ≤ data.length → InStep data.length p (rec t v p).s (rec t v p).p)
    (hc : ∀ t, widthsOk t = true → isPacked t = true → Consumes data.length rec t) :
    InStep data.length p (pbDecField c rec fresh t wt old data p).s (pbDecField c rec fresh t wt old data p).p := by
  unfold pbDecField
  rw [hcl]
  have hu := fun v p hp => hr (unsizedTy t) v p (widthsOk_unsized hw) hp
  cases e with
  | scalar k n =>
    cases k <;> simp only [pbElemClass]
    case enum => exact pbDecPacked_safe hp (hc _ (widthsOk_varint hwe (.inl rfl)) rfl) hu
    all_goals exact pbDecPacked_safe hp (hc _ hwe rfl) hu
  | bool => exact pbDecPacked_safe hp (hc _ rfl rfl) hu
  | varint n zz => exact pbDecPacked_safe hp (hc _ hwe rfl) hu
  | _ => exact (pbFetch_safe (hr _ _ _ hwe hp)).1

theorem pbDecField_safe {c : Cfg} {rec : Ty → Val → Nat → Res} {fresh : Ty → Val} {t : Ty} {wt : Nat} {old : Val}
    {data : List UInt8} {p : Nat} (hp : p ≤ data.length) (hw : widthsOk t = true)
    (hr : ∀ t v p, widthsOk t = true → p ≤ data.length → InStep data.length p (rec t v p).s (rec t v p).p)
    (hc : ∀ t, widthsOk t = true → isPacked t = true → Consumes data.length rec t) :
    InStep data.length p (pbDecField c rec fresh t wt old data p).s (pbDecField c rec fresh t wt old data p).p := by
  cases t with
  | scalar k n =>
    cases k
    case enum => exact (getVarint_safe (intWidth_iff.mp (widthsOk_varint hw (.inl rfl))) _ _ hp).1
    case byte => exact (getVarint_safe (intWidth_iff.mp (widthsOk_varint hw (.inr rfl))) _ _ hp).1
    all_goals exact hr _ _ _ hw hp
  | seq k sz e => exact pbElem_safe (e := e) hp hw hw rfl hr hc
  | assoc mu ha sz key m =>
    cases m with
    | none => exact pbElem_safe (e := key) hp hw hw rfl hr hc
    | some m =>
      simp only [widthsOk, Bool.and_eq_true] at hw
      exact (pbFetch_safe (hr _ _ _ (widthsOk_entry hw.1 hw.2) hp)).1
  | _ => exact hr _ _ _ hw hp

theorem pbDispatch_safe {len : Nat} {field : Ty → Nat → Val → Nat → Res} {maps : List (Nat × Nat)} {num wt : Nat} :
    ∀ (fs : List Ty) (nums : List (Option Nat)) (i : Nat) (os : List Val) (p : Nat),
    (∀ t ∈ fs, ∀ wt v p, p ≤ len → InStep len p (field t wt v p).s (field t wt v p).p) → p ≤ len →
    InStep len p (pbDispatch field maps num wt i nums fs os p).s (pbDispatch field maps num wt i nums fs os p).p := by
  intro fs
  induction fs with
  | nil =>
    intro nums i os p _ hp
    cases nums <;> unfold pbDispatch <;> split <;> exact .refl trivial hp
  | cons t ts ih =>
    intro nums i os p h hp
    cases nums with
    | nil => unfold pbDispatch; split <;> exact .refl trivial hp
    | cons n ns =>
      unfold pbDispatch
      split
      · exact h t (by simp) _ _ p hp
      · exact ih ns (i + 1) os.tail p (fun t' ht => h t' (by simp [ht])) hp

theorem pbLoop_safe {data : List UInt8} {field : Ty → Nat → Val → Nat → Res} {maps : List (Nat × Nat)}
    {nums : List (Option Nat)} {fs : List Ty}
    (h : ∀ t ∈ fs, ∀ wt v p, p ≤ data.length → InStep data.length p (field t wt v p).s (field t wt v p).p) :
    ∀ f vs p, p ≤ data.length → data.length < f + p →
    InStep data.length p (pbLoop field maps nums fs data f vs p).s (pbLoop field maps nums fs data f vs p).p := by
  intro f
  induction f with
  | zero => intro vs p hp hf; omega
  | succ f ih =>
    intro vs p hp hf
    unfold pbLoop
    split
    · have h1 := getVarint_safe (n := 4) (by decide) false (.num 0) hp
      generalize getVarint 4 false (.num 0) data p = r at *
      obtain ⟨s, v, p1⟩ := r
      cases s
      · have h2 := h1.2 rfl
        have h3 := h1.1
        cases v
        case num tag =>
          dsimp only at h2 h3 ⊢
          have h4 := pbDispatch_safe (maps := maps) (num := tag >>> 3) (wt := tag &&& 7) fs nums 0 vs p1 h h3.inb
          generalize pbDispatch field maps (tag >>> 3) (tag &&& 7) 0 nums fs vs p1 = q at *
          obtain ⟨s, vs', p2⟩ := q
          have h5 := h4.mono
          have h6 := h4.inb
          dsimp only at h5 h6
          cases s
          · exact (h3.trans h4).trans (ih vs' p2 h6 (by omega))
          all_goals exact h3.trans h4
        all_goals exact ⟨trivial, h3.mono, h3.inb⟩
      all_goals exact h1.1
    · exact .refl trivial hp

theorem InStep.status {len p p' : Nat} {s s' : Status} (h : InStep len p s p') (h' : InOutcome s') : InStep len p s' p' :=
  ⟨h', h.mono, h.inb⟩

theorem numDec_safe {d : Nat} {c : Cfg} {t : Ty} {data : List UInt8} (hw : widthsOk t = true) (hn : isPacked t = true) :
    Consumes data.length (fun t v p => decode d c t v data p) t := by
  intro v p hp
  cases d with
  | zero => exact ⟨.refl trivial hp, by intro h; cases h⟩
  | succ d =>
    cases t with
    | scalar k n =>
      have h := getBytes_safe n hp
      have hn : 0 < n := by simp [widthsOk] at hw; exact hw.1
      simp only [decode]
      generalize getBytes data p n = r at *
      obtain ⟨s, bs, p'⟩ := r
      cases s
      · exact ⟨h.1, fun _ => by have := (h.2 rfl).1; simp only at this ⊢; omega⟩
      all_goals exact ⟨h.1, by intro h; cases h⟩
    | bool =>
      have h := getBytes_safe 1 hp
      simp only [decode]
      generalize getBytes data p 1 = r at *
      obtain ⟨s, bs, p'⟩ := r
      cases s
      · exact ⟨h.1, fun _ => by have := (h.2 rfl).1; simp only at this ⊢; omega⟩
      all_goals exact ⟨h.1, by intro h; cases h⟩
    | varint n zz => exact getVarint_safe (intWidth_iff.mp hw) _ _ hp
    | _ => cases hn

theorem toRes_safe {len p : Nat} {r : ResL} (h : InStep len p r.s r.p) : InStep len p r.toRes.s r.toRes.p := h

theorem seqBody_safe {c : Cfg} {k : SeqKind} {t : Ty} {data : List UInt8} {rec : Val → Nat → Res}
    (h : ∀ v p, p ≤ data.length → InStep data.length p (rec v p).s (rec v p).p) (olds : List Val) (p : Nat)
    (hp : p ≤ data.length) :
    InStep data.length p (seqBody c k t rec olds data p).s (seqBody c k t rec olds data p).p := by
  unfold seqBody
  split
  · exact decRep_safe hp
  · exact decAll_safe h _ _ hp

theorem seqFill_safe {c : Cfg} {k : SeqKind} {t : Ty} {data : List UInt8} {rec : Val → Nat → Res}
    (h : ∀ v p, p ≤ data.length → InStep data.length p (rec v p).s (rec v p).p) (dv old : Val) (n p : Nat)
    (hp : p ≤ data.length) :
    InStep data.length p (seqFill c k t rec dv old data n p).s (seqFill c k t rec dv old data n p).p := by
  unfold seqFill
  split
  · rw [subSz_of_le hp]
    split
    · exact .refl trivial hp
    · rw [if_pos (by omega)]
      exact ⟨trivial, by dsimp only; omega, by dsimp only; omega⟩
  · split
    · exact .refl trivial hp
    · exact seqBody_safe h _ _ hp
  · split
    · exact .refl trivial hp
    · split
      · exact .refl trivial hp
      · exact seqBody_safe h _ _ hp

theorem msgSub_length {data : List UInt8} {p size : Nat} : (msgSub data p size).length = min size (data.length - p) := by
  simp [msgSub]

theorem msgRun_safe {c' : Cfg} {rec : Ty → Val → List UInt8 → Nat → Res} {fresh : Ty → Val} {maps : List (Nat × Nat)}
    {nums : List (Option Nat)} {fs : List Ty} {old : Val} {data : List UInt8} (size p : Nat) (hp : p ≤ data.length)
    (hw : ∀ t ∈ fs, widthsOk t = true)
    (hr : ∀ t v sub p, widthsOk t = true → p ≤ sub.length → InStep sub.length p (rec t v sub p).s (rec t v sub p).p)
    (hc : ∀ t, widthsOk t = true → isPacked t = true → ∀ sub : List UInt8, Consumes sub.length (fun t v p => rec t v sub p) t) :
    InStep data.length p (msgRun c' rec fresh maps nums fs old data size p).s
      (msgRun c' rec fresh maps nums fs old data size p).p := by
  unfold msgRun
  rw [if_neg (by omega)]
  have h := pbLoop_safe (data := msgSub data p size) (maps := maps) (nums := nums) (fs := fs)
    (field := fun t wt v q => pbDecField c' (fun t v q => rec t v (msgSub data p size) q) fresh t wt v (msgSub data p size) q)
    (fun t ht wt v q hq => pbDecField_safe hq (hw t ht) (fun t v q hw hq => hr t v _ q hw hq) (fun t hw hn => hc t hw hn _))
    ((msgSub data p size).length + 1) (pbClear fs old.elems) 0 (by omega) (by omega)
  have h1 := h.inb
  have h2 := Nat.le_trans h1 (Nat.le_of_eq msgSub_length)
  exact ⟨h.code, by dsimp only; omega, by dsimp only; omega⟩

/-- Reading any type from any position of any input. -/
theorem decode_safe : ∀ (d : Nat) (c : Cfg) (t : Ty) (old : Val) (data : List UInt8) (p : Nat),
    (∀ i, widthsOk (c.env i) = true) → widthsOk t = true → p ≤ data.length →
    InStep data.length p (decode d c t old data p).s (decode d c t old data p).p := by
  intro d
  induction d with
  | zero => intro c t old data p _ _ hp; exact .refl trivial hp
  | succ d ih =>
    intro c t old data p henv hw hp
    have hall : ∀ t', widthsOk t' = true → ∀ vs p, p ≤ data.length →
        InStep data.length p (decAll (fun v p => decode d c t' v data p) vs p).s
          (decAll (fun v p => decode d c t' v data p) vs p).p :=
      fun t' hw => decAll_safe fun v p hp => ih c t' v data p henv hw hp
    cases t with
    | scalar k n => exact (numDec_safe (d := d + 1) (c := c) (t := .scalar k n) hw rfl old p hp).1
    | bool => exact (numDec_safe (d := d + 1) (c := c) (t := .bool) hw rfl old p hp).1
    | varint n zz => exact (numDec_safe (d := d + 1) (c := c) (t := .varint n zz) hw rfl old p hp).1
    | empty => exact .refl trivial hp
    | struct ok fs =>
      simp only [decode]
      split
      · exact decRep_safe hp
      · exact decFields_safe fs _ p (fun t ht v p hp => ih c t v data p henv (widthsOkL_mem hw t ht) hp) hp
    | array n t' =>
      simp only [decode]
      split
      · exact decRep_safe hp
      · exact hall t' hw _ _ hp
    | seq k sz t' =>
      have hb := fun olds p hp => seqBody_safe (c := c) (k := k) (t := t')
        (fun v p hp => ih c t' v data p henv hw hp) olds p hp
      simp only [decode]
      split
      · cases k <;> first | exact hb _ _ hp | skip
        unfold seqUnsized
        rw [if_neg (by omega)]
        exact ⟨trivial, hp, Nat.le_refl _⟩
      · have h1 := decHdr_safe (c := c) (effSz c sz) hp
        generalize decHdr c (effSz c sz) data p = r at *
        obtain ⟨s, n, p1⟩ := r
        cases s
        · exact h1.trans (seqFill_safe (fun v p hp => ih c t' v data p henv hw hp) _ _ _ _ h1.inb)
        all_goals exact h1
    | assoc mu ha sz key m =>
      simp only [decode]
      have h1 := decHdr_safe (c := c) (effSz c sz) hp
      generalize decHdr c (effSz c sz) data p = r at *
      obtain ⟨s, n, p1⟩ := r
      cases s
      · refine h1.trans (toRes_safe (decAssoc_safe ?_ _ _ _ h1.inb))
        intro p hp
        cases m with
        | none => exact ih c key _ data p henv hw hp
        | some m =>
          simp only [widthsOk, Bool.and_eq_true] at hw
          refine toRes_safe (decFields_safe _ _ p ?_ hp)
          intro t ht v p hp
          simp only [List.mem_cons, List.not_mem_nil, or_false] at ht
          rcases ht with rfl | rfl
          · exact ih c _ v data p henv hw.1 hp
          · exact ih c _ v data p henv hw.2 hp
      all_goals exact h1
    | optional dc t' =>
      simp only [decode]
      have h1 := (getBytes_safe 1 hp).1
      generalize getBytes data p 1 = r at *
      obtain ⟨s, bs, p1⟩ := r
      cases s
      · dsimp only at h1 ⊢
        split
        · exact h1
        · have h2 := fun v => ih c t' v data p1 henv hw h1.inb
          cases dc
          · have h2 := h2 (dflt c d t')
            simp only [Bool.false_eq_true, if_false]
            generalize decode d c t' (dflt c d t') data p1 = r at *
            obtain ⟨s, v, p2⟩ := r
            cases s <;> exact h1.trans h2
          · exact h1.trans (h2 _)
      all_goals exact h1
    | optPtr t' =>
      simp only [decode]
      have h1 := (getBytes_safe 1 hp).1
      generalize getBytes data p 1 = r at *
      obtain ⟨s, bs, p1⟩ := r
      cases s
      · dsimp only at h1 ⊢
        split
        · exact h1
        · have h2 := ih c t' (dflt c d t') data p1 henv hw h1.inb
          generalize decode d c t' (dflt c d t') data p1 = r at *
          obtain ⟨s, v, p2⟩ := r
          cases s <;> exact h1.trans h2
      all_goals exact h1
    | uptr t' =>
      simp only [decode]
      have h2 := ih c t' (dflt c d t') data p henv hw hp
      generalize decode d c t' (dflt c d t') data p = r at *
      obtain ⟨s, v, p2⟩ := r
      cases s <;> exact h2
    | variant idTy ids dcs alts =>
      simp only [widthsOk, Bool.and_eq_true] at hw
      simp only [decode]
      have h1 := ih c idTy (dflt c d idTy) data p henv hw.1 hp
      generalize decode d c idTy (dflt c d idTy) data p = r at *
      obtain ⟨s, id, p1⟩ := r
      cases s
      · dsimp only at h1 ⊢
        split
        · exact h1.status trivial
        · split
          · next i _ _ _ t' dc ht _ =>
            exact h1.trans (decAlt_safe (fun v p hp => ih c t' v data p henv
              (widthsOkL_mem hw.2 t' (List.mem_of_getElem? ht)) hp) _ _ _ _ h1.inb)
          · exact h1.status trivial
      all_goals exact h1
    | bitset n =>
      simp only [decode]
      have h1 := (getBytes_safe ((n + 7) / 8) hp).1
      generalize getBytes data p ((n + 7) / 8) = r at *
      obtain ⟨s, bs, p1⟩ := r
      cases s <;> exact h1
    | msg sz ok maps nums fs =>
      have hrun : ∀ size p, p ≤ data.length → _ := fun size p hp =>
        msgRun_safe (c' := pbCfg c) (fresh := dflt (pbCfg c) d) (maps := maps) (nums := nums) (fs := fs) (old := old)
          (data := data) size p hp (widthsOkL_mem hw)
          (fun t v sub p hw hp => ih (pbCfg c) t v sub p henv hw hp)
          (fun t hw hn sub => numDec_safe (d := d) hw hn)
      simp only [decode]
      split
      · exact hrun _ _ hp
      · have h1 := decHdr_safe (c := c) (effSz c sz) hp
        generalize decHdr c (effSz c sz) data p = r at *
        obtain ⟨s, n, p1⟩ := r
        cases s
        · exact h1.trans (hrun _ _ h1.inb)
        all_goals exact h1
    | ref i => exact ih c (c.env i) old data p henv (henv i) hp

/-- Reading several objects. -/
theorem decMany_safe {d : Nat} {c : Cfg} {data : List UInt8} (henv : ∀ i, widthsOk (c.env i) = true) :
    ∀ (items : List (Ty × Val)) (p : Nat), (∀ it ∈ items, widthsOk it.1 = true) → p ≤ data.length →
    InStep data.length p (decMany d c data items p).s (decMany d c data items p).p := by
  intro items
  induction items with
  | nil => intro p _ hp; exact .refl trivial hp
  | cons it rest ih =>
    intro p hw hp
    obtain ⟨t, o⟩ := it
    unfold decMany
    have h1 := decode_safe d c t o data p henv (hw (t, o) (by simp)) hp
    generalize decode d c t o data p = r at *
    obtain ⟨s, v, p1⟩ := r
    cases s
    · exact h1.trans (ih p1 (fun it h => hw it (by simp [h])) h1.inb)
    all_goals exact h1

end Zpp
