import Verif.Proof.Most
/-! # Objects with the longest encodings -/

namespace Zpp
open Spec

theorem varint_attained (n : Nat) (zz : Bool) : ∃ x, x < 2 ^ (8 * n) ∧ varintValue n zz x = 2 ^ (8 * n) - 1 := by
  have hpos : 0 < 2 ^ (8 * n) := Nat.pow_pos (by decide)
  cases zz with
  | false => exact ⟨2 ^ (8 * n) - 1, by omega, rfl⟩
  | true =>
    cases n with
    | zero => exact ⟨0, by decide, by decide⟩
    | succ n =>
      have h2 : 2 ^ (8 * (n + 1)) = 2 * 2 ^ (8 * (n + 1) - 1) := by
        rw [← Nat.pow_succ', show (8 * (n + 1) - 1).succ = 8 * (n + 1) by omega]
      refine ⟨2 ^ (8 * (n + 1) - 1), by omega, ?_⟩
      simp only [varintValue, if_true, toSigned, Nat.lt_irrefl, if_false, zigzag]
      have h3 : (2 : Int) ^ (8 * (n + 1)) = ((2 ^ (8 * (n + 1)) : Nat) : Int) := by simp
      rw [h3]
      generalize 2 ^ (8 * (n + 1) - 1) = a at *
      generalize 2 ^ (8 * (n + 1)) = b at *
      rw [if_neg (by omega)]
      omega

mutual
theorem wire_attained (f : Fmt) : (t : Ty) → (m : Nat) → plainTy t = true → mostBytes f.dsz t = some m →
    ∃ v bs, wire f t v = some bs ∧ bs.length = m
  | .scalar k n, m, _, hm => by
    simp only [mostBytes, Option.some.injEq] at hm
    subst hm
    exact ⟨.num 0, _, by simp only [wire, wireNum]; rw [if_pos (Nat.pow_pos (by decide))], by simp⟩
  | .bool, m, _, hm => by
    simp only [mostBytes, Option.some.injEq] at hm
    subst hm
    exact ⟨.num 0, [0], by simp [wire, wireNum], rfl⟩
  | .varint n zz, m, _, hm => by
    simp only [mostBytes, Option.some.injEq] at hm
    subst hm
    obtain ⟨x, h1, h2⟩ := varint_attained n zz
    exact ⟨.num x, _, by simp only [wire, wireNum]; rw [if_pos h1], by rw [h2]; rfl⟩
  | .empty, m, _, hm => by
    simp only [mostBytes, Option.some.injEq] at hm
    subst hm
    exact ⟨.unit, [], by simp [wire], rfl⟩
  | .struct ok fs, m, hp, hm => by
    simp only [mostBytes] at hm
    simp only [plainTy] at hp
    obtain ⟨vs, bs, h1, h2⟩ := wireFields_attained f fs m hp hm
    exact ⟨.list vs, bs, by rw [wire]; exact h1, h2⟩
  | .array n t, m, hp, hm => by
    simp only [mostBytes, Option.map_eq_some_iff] at hm
    simp only [plainTy] at hp
    obtain ⟨s, hs, rfl⟩ := hm
    obtain ⟨v, bs, h1, h2⟩ := wire_attained f t s hp hs
    have : ∀ k, ∃ cs, wireAll f t (List.replicate k v) = some cs ∧ cs.length = k * s := by
      intro k
      induction k with
      | zero => exact ⟨[], by simp [wireAll], by simp⟩
      | succ k ih =>
        obtain ⟨cs, h3, h4⟩ := ih
        exact ⟨bs ++ cs, by simp only [List.replicate_succ, wireAll, h1, h3, cat], by simp [h2, h4, Nat.add_mul]; omega⟩
    obtain ⟨cs, h3, h4⟩ := this n
    exact ⟨.list (List.replicate n v), cs, by rw [wire, if_pos (by simp)]; exact h3, h4⟩
  | .optional k t, m, hp, hm => by
    simp only [mostBytes, Option.map_eq_some_iff] at hm
    simp only [plainTy] at hp
    obtain ⟨s, hs, rfl⟩ := hm
    obtain ⟨v, bs, h1, h2⟩ := wire_attained f t s hp hs
    exact ⟨.some v, 1 :: bs, by simp [wire, h1, cat], by simp [h2]; omega⟩
  | .optPtr t, m, hp, hm => by
    simp only [mostBytes, Option.map_eq_some_iff] at hm
    simp only [plainTy] at hp
    obtain ⟨s, hs, rfl⟩ := hm
    obtain ⟨v, bs, h1, h2⟩ := wire_attained f t s hp hs
    exact ⟨.some v, 1 :: bs, by simp [wire, h1, cat], by simp [h2]; omega⟩
  | .uptr t, m, hp, hm => by
    simp only [mostBytes] at hm
    simp only [plainTy] at hp
    obtain ⟨v, bs, h1, h2⟩ := wire_attained f t m hp hm
    exact ⟨.some v, bs, by simp [wire, h1], h2⟩
  | .bitset n, m, _, hm => by
    simp only [mostBytes, Option.some.injEq] at hm
    subst hm
    exact ⟨.bits (List.replicate n false), _, by rw [wire, if_pos (by simp)], by simp [packBits]⟩
  | .variant _ _ _ _, m, hp, _ => by simp [plainTy] at hp
  | .msg _ _ _ _ _, m, hp, _ => by simp [plainTy] at hp
  | .seq _ _ _, m, hp, _ => by simp [plainTy] at hp
  | .assoc _ _ _ _ _, m, hp, _ => by simp [plainTy] at hp
  | .ref _, m, hp, _ => by simp [plainTy] at hp
theorem wireFields_attained (f : Fmt) : (ts : List Ty) → (m : Nat) → plainTyL ts = true → mostBytesL f.dsz ts = some m →
    ∃ vs bs, wireFields f ts vs = some bs ∧ bs.length = m
  | [], m, _, hm => by
    simp only [mostBytesL, Option.some.injEq] at hm
    subst hm
    exact ⟨[], [], by simp [wireFields], rfl⟩
  | t :: ts, m, hp, hm => by
    simp only [mostBytesL] at hm
    simp only [plainTyL, Bool.and_eq_true] at hp
    obtain ⟨a, b, h1, h2, rfl⟩ := plus_eq hm
    obtain ⟨v, x, h3, h4⟩ := wire_attained f t a hp.1 h1
    obtain ⟨vs, y, h5, h6⟩ := wireFields_attained f ts b hp.2 h2
    exact ⟨v :: vs, x ++ y, by simp only [wireFields, h3, h5, cat], by simp [h4, h6]⟩
end

end Zpp
