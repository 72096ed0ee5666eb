import Verif.Spec.Float
/-!
# Floating point numbers: the magnitude grows with the bits
-/

namespace Zpp
open Spec

/-- The magnitude, for any exponent. -/
def magAt (m b : Nat) : Nat := if b / 2 ^ m = 0 then b % 2 ^ m else (2 ^ m + b % 2 ^ m) * 2 ^ (b / 2 ^ m - 1)

theorem magAt_step (m b : Nat) : magAt m b < magAt m (b + 1) := by
  have hp : 0 < 2 ^ m := Nat.two_pow_pos m
  obtain ⟨e, he⟩ : ∃ e, b / 2 ^ m = e := ⟨_, rfl⟩
  obtain ⟨r, hr⟩ : ∃ r, b % 2 ^ m = r := ⟨_, rfl⟩
  have hb : b = 2 ^ m * e + r := by rw [← he, ← hr]; exact (Nat.div_add_mod _ _).symm
  have hlt : r < 2 ^ m := by rw [← hr]; exact Nat.mod_lt _ hp
  by_cases h : r + 1 < 2 ^ m
  · have he' : (b + 1) / 2 ^ m = e := by
      rw [hb, Nat.add_assoc, Nat.mul_add_div hp, Nat.div_eq_of_lt h, Nat.add_zero]
    have hr' : (b + 1) % 2 ^ m = r + 1 := by
      rw [hb, Nat.add_assoc, Nat.mul_add_mod, Nat.mod_eq_of_lt h]
    unfold magAt
    rw [he, hr, he', hr']
    split
    · omega
    · exact Nat.mul_lt_mul_of_pos_right (by omega) (Nat.two_pow_pos _)
  · have hr1 : r + 1 = 2 ^ m := by omega
    have hb1 : b + 1 = 2 ^ m * (e + 1) := by rw [hb, Nat.add_assoc, hr1, Nat.mul_succ]
    have he' : (b + 1) / 2 ^ m = e + 1 := by rw [hb1, Nat.mul_div_cancel_left _ hp]
    have hr' : (b + 1) % 2 ^ m = 0 := by rw [hb1, Nat.mul_mod_right]
    unfold magAt
    rw [he, hr, he', hr', if_neg (Nat.succ_ne_zero e), Nat.add_sub_cancel, Nat.add_zero]
    split
    · rename_i h0
      rw [h0, Nat.pow_zero, Nat.mul_one]
      exact hlt
    · rename_i h0
      obtain ⟨k, rfl⟩ := Nat.exists_eq_succ_of_ne_zero h0
      rw [Nat.succ_sub_one, Nat.pow_succ, ← Nat.mul_assoc, Nat.mul_right_comm]
      exact Nat.mul_lt_mul_of_pos_right (by omega) (Nat.two_pow_pos _)

theorem magAt_lt {m a b : Nat} (h : a < b) : magAt m a < magAt m b := by
  induction b with
  | zero => exact absurd h (Nat.not_lt_zero _)
  | succ b ih =>
    have := magAt_step m b
    by_cases hab : a = b
    · subst hab; exact this
    · exact Nat.lt_trans (ih (by omega)) this

theorem magAt_lt_iff {m a b : Nat} : magAt m a < magAt m b ↔ a < b := by
  refine ⟨fun h => ?_, magAt_lt⟩
  by_cases hab : a < b
  · exact hab
  · exfalso
    by_cases he : a = b
    · subst he; omega
    · have := magAt_lt (m := m) (show b < a by omega); omega

theorem magAt_zero (m : Nat) : magAt m 0 = 0 := by
  simp [magAt, Nat.div_eq_of_lt (Nat.two_pow_pos m)]

/-- The magnitude does not depend on the sign bit. -/
theorem magnitude_low (f : FloatFmt) (b : Nat) : f.magnitude b = magAt f.frac (b % 2 ^ (f.exp + f.frac)) := by
  have h1 : b % 2 ^ (f.exp + f.frac) % 2 ^ f.frac = b % 2 ^ f.frac := by
    rw [Nat.pow_add]; exact Nat.mod_mul_left_mod b _ _
  have h2 : b % 2 ^ (f.exp + f.frac) / 2 ^ f.frac = b / 2 ^ f.frac % 2 ^ f.exp := by
    rw [Nat.pow_add, Nat.mul_comm]; exact Nat.mod_mul_right_div_self b _ _
  unfold FloatFmt.magnitude FloatFmt.exponent FloatFmt.fraction magAt
  rw [h1, h2]

/-- Bits without the sign. -/
theorem low_bits {f : FloatFmt} (hf : f.ok) {b : Nat} (h : b < 2 ^ (8 * f.bytes)) :
    (f.negative b = false ∧ b % 2 ^ (f.exp + f.frac) = b ∧ b < 2 ^ (f.exp + f.frac)) ∨
    (f.negative b = true ∧ b = b % 2 ^ (f.exp + f.frac) + 2 ^ (f.exp + f.frac)) := by
  have h2 : 2 ^ (8 * f.bytes) = 2 * 2 ^ (f.exp + f.frac) := by
    rw [hf.1, Nat.add_assoc, Nat.pow_add, Nat.pow_one]
  by_cases hb : b < 2 ^ (f.exp + f.frac)
  · exact Or.inl ⟨by simp [FloatFmt.negative]; exact hb, Nat.mod_eq_of_lt hb, hb⟩
  · refine Or.inr ⟨by simp [FloatFmt.negative]; omega, ?_⟩
    rw [Nat.mod_eq_sub_mod (by omega), Nat.mod_eq_of_lt (by omega)]
    omega

end Zpp
