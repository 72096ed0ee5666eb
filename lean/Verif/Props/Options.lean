import Verif.Model.Options
import Verif.Spec.Archive
import Verif.Proof.OutBase
/-!
# C48: options mean what they say
-/

namespace Zpp.Props
open Zpp Zpp.Spec

/-- The option sets the default size type. -/
def setsSize (o : Opt) : Prop := ∃ s, o = .size s
/-- The option sets the allocation limit. -/
def setsLimit (o : Opt) : Prop := ∃ n, o = .allocLimit n
/-- The option sets the enlarger. -/
def setsEnlarger (o : Opt) : Prop := ∃ m d, o = .enlarger m d

/-- C48, size type: the first option that sets it decides, otherwise sizes take four bytes. -/
theorem C48_size_type (h : Host) (rs : Bool) (opts : List Opt) :
    (∀ pre s post, opts = pre ++ .size s :: post → (∀ o ∈ pre, ¬ setsSize o) → (cfgOf h rs opts).dsz = s) ∧
    ((∀ o ∈ opts, ¬ setsSize o) → (cfgOf h rs opts).dsz = .fixed 4) := by
  simp only [cfgOf]
  constructor
  · rintro pre s post rfl hp
    induction pre with
    | nil => rfl
    | cons o os ih =>
      have h1 := hp o (by simp)
      have h2 := ih fun o' h' => hp o' (by simp [h'])
      cases o <;> first | exact h2 | exact absurd ⟨_, rfl⟩ h1
  · intro hp
    induction opts with
    | nil => rfl
    | cons o os ih =>
      have h1 := hp o (by simp)
      have h2 := ih fun o' h' => hp o' (by simp [h'])
      cases o <;> first | exact h2 | exact absurd ⟨_, rfl⟩ h1

/-- C48, allocation limit. -/
theorem C48_alloc_limit (h : Host) (rs : Bool) (opts : List Opt) :
    (∀ pre n post, opts = pre ++ .allocLimit n :: post → (∀ o ∈ pre, ¬ setsLimit o) → (cfgOf h rs opts).g.limit = n) ∧
    ((∀ o ∈ opts, ¬ setsLimit o) → (cfgOf h rs opts).g.limit = 2 ^ 64 - 1) := by
  simp only [cfgOf]
  constructor
  · rintro pre s post rfl hp
    induction pre with
    | nil => rfl
    | cons o os ih =>
      have h1 := hp o (by simp)
      have h2 := ih fun o' h' => hp o' (by simp [h'])
      cases o <;> first | exact h2 | exact absurd ⟨_, rfl⟩ h1
  · intro hp
    induction opts with
    | nil => rfl
    | cons o os ih =>
      have h1 := hp o (by simp)
      have h2 := ih fun o' h' => hp o' (by simp [h'])
      cases o <;> first | exact h2 | exact absurd ⟨_, rfl⟩ h1

/-- C48, enlarger. -/
theorem C48_enlarger (h : Host) (rs : Bool) (opts : List Opt) :
    (∀ pre m d post, opts = pre ++ .enlarger m d :: post → (∀ o ∈ pre, ¬ setsEnlarger o) →
      (cfgOf h rs opts).g.mul = m ∧ (cfgOf h rs opts).g.div = d) ∧
    ((∀ o ∈ opts, ¬ setsEnlarger o) → (cfgOf h rs opts).g.mul = 3 ∧ (cfgOf h rs opts).g.div = 2) := by
  simp only [cfgOf]
  constructor
  · rintro pre m d post rfl hp
    induction pre with
    | nil => exact ⟨rfl, rfl⟩
    | cons o os ih =>
      have h1 := hp o (by simp)
      have h2 := ih fun o' h' => hp o' (by simp [h'])
      cases o <;> first | exact h2 | exact absurd ⟨_, _, rfl⟩ h1
  · intro hp
    induction opts with
    | nil => exact ⟨rfl, rfl⟩
    | cons o os ih =>
      have h1 := hp o (by simp)
      have h2 := ih fun o' h' => hp o' (by simp [h'])
      cases o <;> first | exact h2 | exact absurd ⟨_, _, rfl⟩ h1

theorem endianAware_iff (e : Endian) (opts : List Opt) : endianAware e opts = true ↔ Opt.endian e.swap ∈ opts := by
  induction opts with
  | nil => simp [endianAware]
  | cons o os ih => simp only [endianAware, Bool.or_eq_true, decide_eq_true_eq, ih, List.mem_cons, eq_comm (a := o)]

/-- C48, byte order of the format: swapped exactly if some option asks for the order opposite to the host's. -/
theorem C48_byte_order (h : Host) (rs : Bool) (opts : List Opt) :
    (fmtOf (cfgOf h rs opts)).order =
      (if Opt.endian h.order.swap ∈ opts then h.order.swap else h.order) := by
  have := endianAware_iff h.order opts
  show (if endianAware h.order opts = true then h.order.swap else h.order) = _
  by_cases hm : Opt.endian h.order.swap ∈ opts
  · rw [if_pos hm, if_pos (this.2 hm)]
  · rw [if_neg hm, if_neg (fun hh => hm (this.1 hh))]

/-- C48, byte order with one byte order option: the format has that order, on every host. -/
theorem C48_byte_order_option (h : Host) (rs : Bool) (opts : List Opt) (e : Endian)
    (hm : Opt.endian e ∈ opts) (ho : ∀ e', Opt.endian e' ∈ opts → e' = e) :
    (fmtOf (cfgOf h rs opts)).order = e := by
  rw [C48_byte_order]
  split
  · rename_i hs; exact ho _ hs
  · rename_i hs
    by_cases he : h.order = e
    · exact he
    · exfalso
      apply hs
      have : h.order.swap = e := by
        revert he; cases h.order <;> cases e <;> simp [Endian.swap]
      rwa [this]

/-- C48, flags: fitting and the overflow check are disabled exactly by their options. -/
theorem C48_flags (h : Host) (rs : Bool) (opts : List Opt) :
    (noFitSize opts = true ↔ Opt.noFitSize ∈ opts) ∧
    ((cfgOf h rs opts).g.noOvf = true ↔ Opt.noEnlargeOverflow ∈ opts) := by
  simp only [cfgOf]
  constructor
  · induction opts with
    | nil => simp [noFitSize]
    | cons o os ih => simp only [noFitSize, Bool.or_eq_true, decide_eq_true_eq, ih, List.mem_cons, eq_comm (a := o)]
  · induction opts with
    | nil => simp [noEnlargeOverflow]
    | cons o os ih => simp only [noEnlargeOverflow, Bool.or_eq_true, decide_eq_true_eq, ih, List.mem_cons, eq_comm (a := o)]

/-- The option touches the buffer or the position when the archive is constructed. -/
def touches (o : Opt) : Prop := o = .append ∨ ∃ n, o = .resize n

theorem applyOpts_ok_append {g : Growth} (a b : List Opt) (st st' : OutSt) (h : applyOpts g (a ++ b) st = (.ok, st')) :
    ∃ m, applyOpts g a st = (.ok, m) ∧ applyOpts g b m = (.ok, st') := by
  induction a generalizing st with
  | nil => exact ⟨st, rfl, h⟩
  | cons o os ih =>
    simp only [List.cons_append, applyOpts, OutM.andThen] at h ⊢
    split at h
    · rename_i s1 he
      obtain ⟨m, h1, h2⟩ := ih s1 h
      exact ⟨m, h1, h2⟩
    · rename_i hr
      exact absurd h (hr _)

theorem applyOpts_quiet {g : Growth} (opts : List Opt) (st st' : OutSt) (hq : ∀ o ∈ opts, ¬ touches o)
    (h : applyOpts g opts st = (.ok, st')) : st' = st := by
  induction opts generalizing st with
  | nil => cases h; rfl
  | cons o os ih =>
    simp only [applyOpts, OutM.andThen] at h
    have h1 := hq o (by simp)
    split at h
    · rename_i s1 he
      have e := ih s1 (fun o' h' => hq o' (by simp [h'])) h
      subst e
      cases o <;> simp only [applyOpt] at he
      case append => exact absurd (Or.inl rfl) h1
      case resize n => exact absurd (Or.inr ⟨_, rfl⟩) h1
      case reserve =>
        split at he
        · split at he <;> cases he
          rfl
        · cases he
      all_goals (cases he; rfl)
    · rename_i hr
      exact absurd h (hr _)

/-- C48, `append`: an archive opened with `append` (and no later `resize`/`append`) starts at the end of
what is there after the options in front of it; without any `resize` that is the existing data, unchanged. -/
theorem C48_append (h : Host) (rs : Bool) (pre post : List Opt) (data : List UInt8) (st : OutSt)
    (hpost : ∀ o ∈ post, ¬ touches o) (hpre : ∀ o ∈ pre, ¬ touches o)
    (hok : openOut h rs (pre ++ .append :: post) data = (.ok, st)) :
    st = ⟨data, data.length⟩ := by
  obtain ⟨m, h1, h2⟩ := applyOpts_ok_append pre _ _ _ hok
  have e1 := applyOpts_quiet pre _ _ hpre h1
  subst e1
  simp only [applyOpts, OutM.andThen] at h2
  split at h2
  · rename_i s1 he
    have e := applyOpts_quiet post _ _ hpost h2
    subst e
    simp only [applyOpt] at he
    split at he <;> cases he
    rfl
  · rename_i hr
    exact absurd h2 (hr _)

/-- C48, no positioning option: writing starts at position 0 of the existing data. -/
theorem C48_plain (h : Host) (rs : Bool) (opts : List Opt) (data : List UInt8) (st : OutSt)
    (hq : ∀ o ∈ opts, ¬ touches o) (hok : openOut h rs opts data = (.ok, st)) : st = ⟨data, 0⟩ :=
  applyOpts_quiet opts _ _ hq hok

/-- C48, `resize(n)`: the buffer has `n` bytes, old ones kept and new ones zero. -/
theorem C48_resize (h : Host) (rs : Bool) (pre post : List Opt) (n : Nat) (data : List UInt8) (st : OutSt)
    (hpost : ∀ o ∈ post, ¬ touches o) (hpre : ∀ o ∈ pre, ¬ touches o)
    (hok : openOut h rs (pre ++ .resize n :: post) data = (.ok, st)) :
    st.data = data.take n ++ List.replicate (n - data.length) 0 ∧ st.data.length = n ∧ st.pos = 0 := by
  obtain ⟨m, h1, h2⟩ := applyOpts_ok_append pre _ _ _ hok
  have e1 := applyOpts_quiet pre _ _ hpre h1
  subst e1
  simp only [applyOpts, OutM.andThen] at h2
  split at h2
  · rename_i s1 he
    have e := applyOpts_quiet post _ _ hpost h2
    subst e
    simp only [applyOpt] at he
    split at he
    · split at he <;> cases he
      refine ⟨rfl, ?_, by simp⟩
      simp [resizeBytes]; omega
    · cases he
  · rename_i hr
    exact absurd h2 (hr _)

/-- The position after construction is inside the buffer, for every option list. -/
theorem C48_open_valid (h : Host) (rs : Bool) (opts : List Opt) (data : List UInt8) :
    (openOut h rs opts data).2.pos ≤ (openOut h rs opts data).2.data.length := by
  unfold openOut
  generalize (cfgOf h rs opts).g = g
  have key : ∀ (os : List Opt) (st : OutSt), st.pos ≤ st.data.length →
      (applyOpts g os st).2.pos ≤ (applyOpts g os st).2.data.length := by
    intro os
    induction os with
    | nil => intro st h; exact h
    | cons o os ih =>
      intro st h
      have h1 : (applyOpt g o st).2.pos ≤ (applyOpt g o st).2.data.length := by
        cases o <;> simp only [applyOpt]
        case append => split <;> simp [h]
        case reserve => split <;> (try split) <;> exact h
        case resize n =>
          split
          · split
            · exact h
            · simp only [resizeBytes, List.length_append, List.length_take, List.length_replicate]
              split <;> omega
          · exact h
        all_goals exact h
      simp only [applyOpts, OutM.andThen]
      split
      · rename_i s1 he
        rw [he] at h1
        exact ih s1 h1
      · exact h1
  exact key opts ⟨data, 0⟩ (Nat.zero_le _)

/-- A little-endian host with the option list `size2b, alloc_limit<100>, endian::big, alloc_limit<5>, append`. -/
example :
    let h : Host := ⟨.little, 2 ^ 40, fun _ => 1, fun _ => .empty, fun _ _ _ => false⟩
    let opts : List Opt := [.size (.fixed 2), .allocLimit 100, .endian .big, .allocLimit 5, .append]
    let c := cfgOf h true opts
    c.dsz = .fixed 2 ∧ c.g.limit = 100 ∧ (fmtOf c).order = .big ∧ c.g.mul = 3 ∧ c.g.div = 2 ∧
    openOut h true opts [1, 2, 3] = (.ok, ⟨[1, 2, 3], 3⟩) := by decide +kernel

end Zpp.Props
