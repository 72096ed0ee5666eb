import Verif.Proof.OutSafe
import Verif.Proof.OutWire
/-! # Output calls -/

namespace Zpp
open Spec

theorem encMany_emits (d : Nat) (c : Cfg) (z : Bool) : ∀ (items : List (Ty × Val)) (bs : List UInt8),
    Supported c items → StackOk d items → wireItems (fmtOf c) items = some bs → bs.length < 2 ^ 63 →
    (z = true ∨ ∀ x ∈ items, noBits x.2 = true) → Emits c.g z bs (encMany d c items) := by
  intro items
  induction items with
  | nil => intro bs _ _ h _ _; cases h; exact Emits.skip _ _
  | cons x rest ih =>
    obtain ⟨t, v⟩ := x
    intro bs hs hd h hl hz
    simp only [wireItems, cat_eq_some] at h
    obtain ⟨a, b, ha, hb, rfl⟩ := h
    simp only [List.length_append] at hl
    refine (encode_ok z d c hs.growth hs.abi hs.env t v a (hs.types (t, v) (by simp)) ha (by omega) ?_ ?_).andThen
      (ih b ⟨hs.growth, hs.abi, hs.env, fun y hy => hs.types y (by simp [hy])⟩ (fun y hy => hd y (by simp [hy]))
        hb (by omega) ?_)
    · exact hz.imp id fun h => h (t, v) (by simp)
    · have := hd (t, v) (by simp)
      simp only at this
      split <;> omega
    · exact hz.imp id fun h y hy => h y (by simp [hy])

theorem outCall_fixed {d c noFit items} (h : c.g.resizable = false) :
    outCall d c noFit items = encMany d c items := by
  funext st; simp [outCall, fitCall, h]

/-- The result of serializing encodable items from a valid state. -/
theorem encMany_result {d : Nat} {c : Cfg} {items : List (Ty × Val)} {bs : List UInt8} {st : OutSt}
    (hs : Supported c items) (hd : StackOk d items) (hw : wireItems (fmtOf c) items = some bs)
    (hl : bs.length < 2 ^ 63) (hz : BitsOk items st) (hv : Valid st) :
    EmitRes c.g bs (st.data.take st.pos) (st.data.drop st.pos) (encMany d c items st) := by
  have hp := hv.pos_le
  have e : st = ⟨st.data.take st.pos ++ st.data.drop st.pos, (st.data.take st.pos).length⟩ := by
    cases st; simp at hp ⊢; omega
  have hlen : (st.data.take st.pos).length + (st.data.drop st.pos).length < 2 ^ 63 := by
    have := hv.len_lt; simp; omega
  rcases hz with hz | hz
  · have := encMany_emits d c false items bs hs hd hw hl (Or.inr hz) (st.data.take st.pos) (st.data.drop st.pos)
      nofun hlen
    rwa [← e] at this
  · have := encMany_emits d c true items bs hs hd hw hl (Or.inl rfl) (st.data.take st.pos) (st.data.drop st.pos)
      (fun _ => hz) hlen
    rwa [← e] at this

/-- Facts about an output call: as for its items, and the fitting at the end only cuts behind the position. -/
theorem outCall_safe (d : Nat) (c : Cfg) (hg : GrowthOk c.g) (noFit : Bool) (items : List (Ty × Val)) (st : OutSt)
    (hv : Valid st) : SafeStep c.g st (outCall d c noFit items st) := by
  have h := encMany_safe d c hg items st hv
  unfold outCall fitCall
  split
  · rename_i hc
    generalize encMany d c items st = r at h
    obtain ⟨s, st'⟩ := r
    have hinb := h.inb
    have hkey : ∀ s, SafeStep c.g st (s, st') →
        SafeStep c.g st (if st.data.length ≤ st'.pos then
          if st'.data.length < st'.pos ∧ c.g.maxMem < st'.pos then (.badAlloc, st')
          else (s, { st' with data := resizeBytes st'.data st'.pos }) else (s, st')) := by
      intro s h
      have hinb := h.inb
      split
      · rename_i hle
        rw [if_neg (by simp only at hinb; omega)]
        have hr : resizeBytes st'.data st'.pos = st'.data.take st'.pos := by
          simp only at hinb
          simp [resizeBytes, Nat.sub_eq_zero_of_le hinb]
        rw [hr]
        simp only at hinb
        refine ⟨?_, h.mono, by simp; omega, ?_, ?_, ?_, ?_, ?_⟩
        · exact h.code
        · have := h.mono
          simp only [List.take_take] at this ⊢
          rw [Nat.min_eq_left this]; exact h.keep
        · simp; omega
        · have := h.len_bd
          simp at this ⊢; omega
        · intro hf; rw [hc.1] at hf; cases hf
        · simp
          omega
      · exact h
    cases s <;> first | exact hkey _ h | exact h
  · exact h

/-- Fitting does not change the outcome. -/
theorem outCall_status {d : Nat} {c : Cfg} (hg : GrowthOk c.g) (noFit : Bool) (items : List (Ty × Val)) {st : OutSt}
    (hv : Valid st) : (outCall d c noFit items st).1 = (encMany d c items st).1 := by
  have hsafe := encMany_safe d c hg items st hv
  unfold outCall fitCall
  split
  · have hin := hsafe.inb
    generalize encMany d c items st = r at *
    obtain ⟨s, st'⟩ := r
    simp only at hin
    have hn : ¬ (st'.data.length < st'.pos ∧ c.g.maxMem < st'.pos) := by omega
    cases s <;> first | rfl | (simp only; rw [if_neg hn]; split <;> rfl)
  · rfl

/-- State after a call: as after the items, cut to the position if that reached the old end. -/
theorem outCall_state {d : Nat} {c : Cfg} (hg : GrowthOk c.g) (noFit : Bool) (items : List (Ty × Val)) {st : OutSt}
    (hv : Valid st) : (outCall d c noFit items st).2.pos = (encMany d c items st).2.pos ∧
    (outCall d c noFit items st).2.data.take (encMany d c items st).2.pos =
      (encMany d c items st).2.data.take (encMany d c items st).2.pos := by
  have hsafe := encMany_safe d c hg items st hv
  unfold outCall fitCall
  split
  · have hin := hsafe.inb
    generalize encMany d c items st = r at *
    obtain ⟨s, st'⟩ := r
    simp only at hin
    have hn : ¬ (st'.data.length < st'.pos ∧ c.g.maxMem < st'.pos) := by omega
    have : ∀ s : Status, (if st.data.length ≤ st'.pos then
          if st'.data.length < st'.pos ∧ c.g.maxMem < st'.pos then ((.badAlloc, st') : Status × OutSt)
          else (s, { st' with data := resizeBytes st'.data st'.pos }) else (s, st')).2.pos = st'.pos ∧
        (if st.data.length ≤ st'.pos then
          if st'.data.length < st'.pos ∧ c.g.maxMem < st'.pos then ((.badAlloc, st') : Status × OutSt)
          else (s, { st' with data := resizeBytes st'.data st'.pos }) else (s, st')).2.data.take st'.pos =
        st'.data.take st'.pos := by
      intro s
      rw [if_neg hn]
      split
      · refine ⟨rfl, ?_⟩
        simp only [resizeBytes]
        rw [Nat.sub_eq_zero_of_le hin]
        simp [List.take_take]
      · exact ⟨rfl, rfl⟩
    cases s <;> first | exact ⟨rfl, rfl⟩ | exact this _
  · exact ⟨rfl, rfl⟩

end Zpp
