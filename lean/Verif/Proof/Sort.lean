import Verif.Spec.Sort
import Verif.Proof.InRoundMain
/-! # Encodings sort like objects -/

namespace Zpp
open Spec

/-- The first byte in which the strings differ is less in the first one. -/
def Less (a b : List UInt8) : Prop := ∃ p x y r s, a = p ++ x :: r ∧ b = p ++ y :: s ∧ x < y

theorem Less.lt {a b : List UInt8} (h : Less a b) : a < b := by
  obtain ⟨p, x, y, r, s, rfl, rfl, h⟩ := h
  induction p with
  | nil => exact List.Lex.rel h
  | cons z p ih => exact List.Lex.cons ih

theorem Less.append {a b : List UInt8} (h : Less a b) (r s : List UInt8) : Less (a ++ r) (b ++ s) := by
  obtain ⟨p, x, y, r', s', rfl, rfl, h⟩ := h
  exact ⟨p, x, y, r' ++ r, s' ++ s, by simp, by simp, h⟩

theorem Less.prepend {a b : List UInt8} (h : Less a b) (r : List UInt8) : Less (r ++ a) (r ++ b) := by
  obtain ⟨p, x, y, r', s', rfl, rfl, h⟩ := h
  exact ⟨r ++ p, x, y, r', s', by simp, by simp, h⟩

theorem digits_big_succ (n x : Nat) : digits .big (n + 1) x = UInt8.ofNat (x / 256 ^ n % 256) :: digits .big n x := by
  simp [digits, List.range_succ]

theorem digits_big_mod (n x k : Nat) (h : n ≤ k) : digits .big n (x % 256 ^ k) = digits .big n x := by
  induction n with
  | zero => rfl
  | succ n ih =>
    rw [digits_big_succ, digits_big_succ, ih (by omega)]
    congr 2
    obtain ⟨m, rfl⟩ : ∃ m, k = n + (m + 1) := ⟨k - n - 1, by omega⟩
    rw [Nat.pow_add, Nat.mod_mul_right_div_self, Nat.pow_succ, Nat.mul_comm, Nat.mod_mul_right_mod]

theorem digits_less (n x y : Nat) (hx : x < 256 ^ n) (hy : y < 256 ^ n) (h : x < y) : Less (digits .big n x) (digits .big n y) := by
  induction n generalizing x y with
  | zero => simp at hx hy; omega
  | succ n ih =>
    rw [digits_big_succ, digits_big_succ]
    have hp : 0 < 256 ^ n := Nat.pow_pos (by decide)
    have hx' : x / 256 ^ n < 256 := by rw [Nat.div_lt_iff_lt_mul hp]; rw [Nat.pow_succ] at hx; omega
    have hy' : y / 256 ^ n < 256 := by rw [Nat.div_lt_iff_lt_mul hp]; rw [Nat.pow_succ] at hy; omega
    have hle : x / 256 ^ n ≤ y / 256 ^ n := Nat.div_le_div_right (by omega)
    rw [Nat.mod_eq_of_lt hx', Nat.mod_eq_of_lt hy']
    rcases Nat.lt_or_eq_of_le hle with hlt | heq
    · refine ⟨[], _, _, _, _, rfl, rfl, ?_⟩
      rw [UInt8.lt_iff_toNat_lt]
      simp only [UInt8.toNat_ofNat']
      rw [Nat.mod_eq_of_lt (by omega), Nat.mod_eq_of_lt (by omega)]
      exact hlt
    · rw [heq]
      have h1 := Nat.div_add_mod x (256 ^ n)
      have h2 := Nat.div_add_mod y (256 ^ n)
      rw [heq] at h1
      have := ih (x % 256 ^ n) (y % 256 ^ n) (Nat.mod_lt _ hp) (Nat.mod_lt _ hp) (by omega)
      rw [digits_big_mod n x n (Nat.le_refl _), digits_big_mod n y n (Nat.le_refl _)] at this
      exact this.prepend [_]

theorem ascending_lt : ∀ {ids : List Val} {i j : Nat} {a b : Val}, ascending ids = true → ids[i]? = some a → ids[j]? = some b → i < j →
    ∃ x y, a = .num x ∧ b = .num y ∧ x < y
  | [], i, j, a, b, h, _, _, _ => by simp [ascending] at h
  | [v], i, j, a, b, h, hi, hj, hij => by
    have : j < 1 := by have := (List.getElem?_eq_some_iff.1 hj).1; simpa using this
    omega
  | v :: w :: ids, i, j, a, b, h, hi, hj, hij => by
    cases v <;> first | (simp [ascending] at h; done) | skip
    cases w <;> first | (simp [ascending] at h; done) | skip
    simp only [ascending, Bool.and_eq_true, decide_eq_true_eq] at h
    rename_i x y
    obtain ⟨j, rfl⟩ : ∃ k, j = k + 1 := ⟨j - 1, by omega⟩
    simp only [List.getElem?_cons_succ] at hj
    cases i with
    | succ i => exact ascending_lt h.2 (by simpa using hi) hj (by omega)
    | zero =>
      simp at hi
      subst hi
      cases j with
      | zero => simp at hj; subst hj; exact ⟨x, y, rfl, rfl, h.1⟩
      | succ j =>
        obtain ⟨x', z, h1, h2, h3⟩ := ascending_lt (i := 0) (a := .num y) h.2 (by simp) hj (by omega)
        cases h1
        exact ⟨x, z, rfl, h2, by omega⟩

theorem sortsAll_mem {ts : List Ty} (h : sortsAll ts = true) : ∀ t ∈ ts, sorts t = true := by
  induction ts with
  | nil => simp
  | cons t ts ih =>
    simp only [sortsAll, Bool.and_eq_true] at h
    intro u hu
    rcases List.mem_cons.mp hu with rfl | hu
    · exact h.1
    · exact ih h.2 u hu

theorem sortsAll_replicate {t : Ty} (h : sorts t = true) : ∀ n, sortsAll (List.replicate n t) = true
  | 0 => rfl
  | n + 1 => by simp [List.replicate_succ, sortsAll, h, sortsAll_replicate h n]

theorem wireAll_fields {f : Fmt} {t : Ty} : ∀ (vs : List Val), wireFields f (List.replicate vs.length t) vs = wireAll f t vs
  | [] => rfl
  | v :: vs => by simp only [List.length_cons, List.replicate_succ, wireFields, wireAll, wireAll_fields vs]

variable {f : Fmt}

mutual
theorem before_less (ho : f.order = .big) (he : ∀ i, sorts (f.env i) = true) : ∀ {t : Ty} {v w : Val}, Before f.env t v w →
    sorts t = true → ∀ {a b : List UInt8}, wire f t v = some a → wire f t w = some b → Less a b
  | _, _, _, .scalar k n h, _, a, b, ha, hb => by
    simp only [wire, wireNum, Option.ite_none_right_eq_some, Option.some.injEq] at ha hb
    obtain ⟨h1, rfl⟩ := ha
    obtain ⟨h2, rfl⟩ := hb
    rw [ho]
    exact digits_less n _ _ h1 h2 h
  | _, _, _, .bool (x := x) (y := y) h, _, a, b, ha, hb => by
    simp only [wire, wireNum, Option.ite_none_right_eq_some, Option.some.injEq] at ha hb
    obtain ⟨h1, rfl⟩ := ha
    obtain ⟨h2, rfl⟩ := hb
    refine ⟨[], _, _, [], [], rfl, rfl, ?_⟩
    obtain rfl : x = 0 := by omega
    obtain rfl : y = 1 := by omega
    decide
  | _, _, _, .struct ok h, hs, a, b, ha, hb => by
    simp only [wire] at ha hb
    exact beforeAll_less ho he h hs ha hb
  | _, _, _, .array n h, hs, a, b, ha, hb => by
    simp only [wire, Option.ite_none_right_eq_some] at ha hb
    obtain ⟨h1, ha⟩ := ha
    obtain ⟨h2, hb⟩ := hb
    rw [← wireAll_fields] at ha hb
    rw [h1] at ha
    rw [h2] at hb
    exact beforeAll_less ho he h (sortsAll_replicate (by simpa only [sorts] using hs) n) ha hb
  | _, _, _, .noOptional dc w, hs, a, b, ha, hb => by
    simp only [wire, cat_eq_some, Option.some.injEq] at ha hb
    subst ha
    obtain ⟨x, y, rfl, _, rfl⟩ := hb
    exact ⟨[], 0, 1, [], y, rfl, rfl, by decide⟩
  | _, _, _, .optional dc h, hs, a, b, ha, hb => by
    simp only [wire, cat_eq_some, Option.some.injEq] at ha hb
    obtain ⟨x, y, rfl, hy, rfl⟩ := ha
    obtain ⟨x', y', rfl, hy', rfl⟩ := hb
    exact (before_less ho he h hs hy hy').prepend _
  | _, _, _, .index idTy ids dcs alts v w h, hs, a, b, ha, hb => by
    cases idTy <;> simp only [sorts, Bool.false_eq_true, Bool.and_eq_true] at hs
    rename_i k n
    simp only [wire] at ha hb
    split at ha
    · next id t hi ht =>
      split at hb
      · next id' t' hi' ht' =>
        rw [cat_eq_some] at ha hb
        obtain ⟨x, y, hx, hy, rfl⟩ := ha
        obtain ⟨x', y', hx', hy', rfl⟩ := hb
        obtain ⟨m, m', rfl, rfl, hlt⟩ := ascending_lt hs.1 hi hi' h
        simp only [wireId, wireNum, Option.ite_none_right_eq_some, Option.some.injEq] at hx hx'
        obtain ⟨h1, rfl⟩ := hx
        obtain ⟨h2, rfl⟩ := hx'
        rw [ho]
        exact (digits_less n _ _ h1 h2 hlt).append _ _
      · cases hb
    · cases ha
  | _, _, _, .alternative idTy ids dcs hal h, hs, a, b, ha, hb => by
    cases idTy <;> simp only [sorts, Bool.false_eq_true, Bool.and_eq_true] at hs
    simp only [wire, hal] at ha hb
    split at ha
    · next id t hi ht =>
      cases ht
      rw [hi] at hb
      simp only at hb
      rw [cat_eq_some] at ha hb
      obtain ⟨x, y, hx, hy, rfl⟩ := ha
      obtain ⟨x', y', hx', hy', rfl⟩ := hb
      rw [hx] at hx'
      cases hx'
      exact (before_less ho he h (sortsAll_mem hs.2 _ (List.mem_of_getElem? hal)) hy hy').prepend _
    · cases ha
  | _, _, _, .ref i hi h, hs, a, b, ha, hb => by
    simp only [wire, hi] at ha hb
    have := he i
    rw [hi] at this
    exact beforeAll_less ho he h this ha hb
theorem beforeAll_less (ho : f.order = .big) (he : ∀ i, sorts (f.env i) = true) : ∀ {ts : List Ty} {vs ws : List Val},
    BeforeAll f.env ts vs ws → sortsAll ts = true → ∀ {a b : List UInt8}, wireFields f ts vs = some a → wireFields f ts ws = some b →
    Less a b
  | _, _, _, .here ts vs ws h, hs, a, b, ha, hb => by
    simp only [sortsAll, Bool.and_eq_true] at hs
    simp only [wireFields, cat_eq_some] at ha hb
    obtain ⟨x, y, hx, hy, rfl⟩ := ha
    obtain ⟨x', y', hx', hy', rfl⟩ := hb
    exact (before_less ho he h hs.1 hx hx').append _ _
  | _, _, _, .later t v h, hs, a, b, ha, hb => by
    simp only [sortsAll, Bool.and_eq_true] at hs
    simp only [wireFields, cat_eq_some] at ha hb
    obtain ⟨x, y, hx, hy, rfl⟩ := ha
    obtain ⟨x', y', hx', hy', rfl⟩ := hb
    rw [hx] at hx'
    cases hx'
    exact (beforeAll_less ho he h hs.2 hy hy').prepend _
end

theorem beforeAll_total : ∀ (ts : List Ty) (vs ws : List Val) (a b : List UInt8), wireFields f ts vs = some a →
    wireFields f ts ws = some b →
    (∀ t v w x y, t ∈ ts → v ∈ vs → wire f t v = some x → wire f t w = some y → v = w ∨ Before f.env t v w ∨ Before f.env t w v) →
    vs = ws ∨ BeforeAll f.env ts vs ws ∨ BeforeAll f.env ts ws vs
  | [], [], [], _, _, _, _, _ => .inl rfl
  | [], _ :: _, _, _, _, ha, _, _ => by simp [wireFields] at ha
  | [], _, _ :: _, _, _, _, hb, _ => by simp [wireFields] at hb
  | _ :: _, [], _, _, _, ha, _, _ => by simp [wireFields] at ha
  | _ :: _, _, [], _, _, _, hb, _ => by simp [wireFields] at hb
  | t :: ts, v :: vs, w :: ws, a, b, ha, hb, ih => by
    simp only [wireFields, cat_eq_some] at ha hb
    obtain ⟨x, y, hx, hy, rfl⟩ := ha
    obtain ⟨x', y', hx', hy', rfl⟩ := hb
    rcases ih t v w x x' (by simp) (by simp) hx hx' with rfl | h | h
    · rcases beforeAll_total ts vs ws y y' hy hy' (fun t v w x y ht hv => ih t v w x y (by simp [ht]) (by simp [hv])) with rfl | h | h
      · exact .inl rfl
      · exact .inr (.inl (.later _ _ h))
      · exact .inr (.inr (.later _ _ h))
    · exact .inr (.inl (.here _ _ _ h))
    · exact .inr (.inr (.here _ _ _ h))

theorem before_total (he : ∀ i, sorts (f.env i) = true) : ∀ (n : Nat) (t : Ty) (v w : Val) (a b : List UInt8), depth v ≤ n →
    sorts t = true → wire f t v = some a → wire f t w = some b → v = w ∨ Before f.env t v w ∨ Before f.env t w v := by
  intro n
  induction n with
  | zero => intro t v w a b hn; have := depth_pos v; omega
  | succ n ih =>
    intro t v w a b hn hs ha hb
    have all : ∀ ts vs ws a b, v = .list vs → sortsAll ts = true → wireFields f ts vs = some a → wireFields f ts ws = some b →
        vs = ws ∨ BeforeAll f.env ts vs ws ∨ BeforeAll f.env ts ws vs := by
      rintro ts vs ws a b rfl hs ha hb
      refine beforeAll_total ts vs ws a b ha hb (fun t v w x y ht hv hx hy => ih t v w x y ?_ (sortsAll_mem hs t ht) hx hy)
      have := depth_mem hv
      simp only [depth] at hn
      omega
    cases t with
    | scalar k m =>
      cases v <;> simp only [wire, wireNum] at ha <;> first | cases ha | skip
      cases w <;> simp only [wire, wireNum] at hb <;> first | cases hb | skip
      rename_i x y
      rcases Nat.lt_trichotomy x y with h | h | h
      · exact .inr (.inl (.scalar _ _ h))
      · exact .inl (by rw [h])
      · exact .inr (.inr (.scalar _ _ h))
    | bool =>
      cases v <;> simp only [wire, wireNum] at ha <;> first | cases ha | skip
      cases w <;> simp only [wire, wireNum] at hb <;> first | cases hb | skip
      rename_i x y
      rcases Nat.lt_trichotomy x y with h | h | h
      · exact .inr (.inl (.bool h))
      · exact .inl (by rw [h])
      · exact .inr (.inr (.bool h))
    | empty =>
      cases v <;> simp only [wire, wireNum] at ha <;> first | cases ha | skip
      cases w <;> simp only [wire, wireNum] at hb <;> first | cases hb | skip
      exact .inl rfl
    | struct ok ts =>
      cases v <;> simp only [wire, wireNum] at ha <;> first | cases ha | skip
      cases w <;> simp only [wire, wireNum] at hb <;> first | cases hb | skip
      rcases all ts _ _ a b rfl hs ha hb with rfl | h | h
      · exact .inl rfl
      · exact .inr (.inl (.struct _ h))
      · exact .inr (.inr (.struct _ h))
    | array m t =>
      cases v <;> simp only [wire, wireNum] at ha <;> first | cases ha | skip
      cases w <;> simp only [wire, wireNum] at hb <;> first | cases hb | skip
      simp only [Option.ite_none_right_eq_some] at ha hb
      obtain ⟨h1, ha⟩ := ha
      obtain ⟨h2, hb⟩ := hb
      rw [← wireAll_fields] at ha hb
      rw [h1] at ha
      rw [h2] at hb
      rcases all (List.replicate m t) _ _ a b rfl (sortsAll_replicate (by simpa only [sorts] using hs) m) ha hb with rfl | h | h
      · exact .inl rfl
      · exact .inr (.inl (.array _ h))
      · exact .inr (.inr (.array _ h))
    | optional dc t =>
      cases v <;> simp only [wire, wireNum] at ha <;> first | cases ha | skip
      · cases w <;> simp only [wire, wireNum] at hb <;> first | cases hb | skip
        · exact .inl rfl
        · exact .inr (.inl (.noOptional _ _))
      · cases w <;> simp only [wire, wireNum] at hb <;> first | cases hb | skip
        · exact .inr (.inr (.noOptional _ _))
        · rw [cat_eq_some] at ha hb
          obtain ⟨x, y, hx, hy, rfl⟩ := ha
          obtain ⟨x', y', hx', hy', rfl⟩ := hb
          rcases ih t _ _ y y' (by simp only [depth] at hn; omega) hs hy hy' with rfl | h | h
          · exact .inl rfl
          · exact .inr (.inl (.optional _ h))
          · exact .inr (.inr (.optional _ h))
    | variant idTy ids dcs alts =>
      cases idTy <;> simp only [sorts, Bool.false_eq_true, Bool.and_eq_true] at hs
      cases v <;> simp only [wire, wireNum] at ha <;> first | cases ha | skip
      cases w <;> simp only [wire, wireNum] at hb <;> first | cases hb | skip
      rename_i i v j w
      rcases Nat.lt_trichotomy i j with h | h | h
      · exact .inr (.inl (.index _ _ _ _ _ _ h))
      · subst h
        split at ha
        · next id t hi ht =>
          rw [hi, ht] at hb
          simp only at hb
          rw [cat_eq_some] at ha hb
          obtain ⟨x, y, hx, hy, rfl⟩ := ha
          obtain ⟨x', y', hx', hy', rfl⟩ := hb
          rcases ih t v w y y' (by simp only [depth] at hn; omega) (sortsAll_mem hs.2 t (List.mem_of_getElem? ht)) hy hy' with rfl | h | h
          · exact .inl rfl
          · exact .inr (.inl (.alternative _ _ _ ht h))
          · exact .inr (.inr (.alternative _ _ _ ht h))
        · cases ha
      · exact .inr (.inr (.index _ _ _ _ _ _ h))
    | ref i =>
      have hi := he i
      cases v <;> simp only [wire, wireNum] at ha <;> first | cases ha | skip
      cases w <;> simp only [wire, wireNum] at hb <;> first | cases hb | skip
      split at ha
      · next ok ts he' =>
        rw [he'] at hb hi
        simp only at hb
        rcases all ts _ _ a b rfl hi ha hb with rfl | h | h
        · exact .inl rfl
        · exact .inr (.inl (.ref _ he' h))
        · exact .inr (.inr (.ref _ he' h))
      · next he' => rw [he'] at hi; simp [sorts] at hi
      · cases ha
    | varint m zz => simp [sorts] at hs
    | seq k sz t => simp [sorts] at hs
    | assoc mu ha' sz k m => simp [sorts] at hs
    | optPtr t => simp [sorts] at hs
    | uptr t => simp [sorts] at hs
    | bitset m => simp [sorts] at hs
    | msg sz ok maps nums fs => simp [sorts] at hs

end Zpp
