import Verif.Model.Numbers
import Verif.Spec.Hash
import Verif.Proof.Bits
/-!
# Lemmas about `big_endian`
-/

namespace Zpp

theorem leNat_append (as bs : List UInt8) : leNat (as ++ bs) = leNat as + 256 ^ as.length * leNat bs := by
  induction as with
  | nil => simp [leNat]
  | cons a as ih =>
    simp only [List.cons_append, leNat, ih, List.length_cons, Nat.pow_succ]
    rw [Nat.mul_add, ← Nat.mul_assoc, Nat.mul_comm 256 (256 ^ as.length)]
    omega

theorem beValue_append (acc : List UInt8) (b : UInt8) : beValue (acc ++ [b]) = beValue acc * 256 + b.toNat := by
  simp [beValue, List.foldl_append]

theorem beValue_eq (bs : List UInt8) : beValue bs = leNat bs.reverse := by
  generalize h : bs.reverse = rs
  have : bs = rs.reverse := by rw [← h, List.reverse_reverse]
  subst this
  clear h
  induction rs with
  | nil => rfl
  | cons r rs ih =>
    rw [List.reverse_cons, beValue_append, ih]
    simp only [leNat]; omega

theorem beValue_lt (bs : List UInt8) : beValue bs < 256 ^ bs.length := by
  rw [beValue_eq]; simpa using leNat_lt bs.reverse

theorem beValue_inj {as bs : List UInt8} (hl : as.length = bs.length) (h : beValue as = beValue bs) : as = bs := by
  rw [beValue_eq, beValue_eq] at h
  have h1 := leBytes_leNat as.reverse
  have h2 := leBytes_leNat bs.reverse
  rw [h] at h1
  simp only [List.length_reverse] at h1 h2
  rw [hl, h2] at h1
  exact (List.reverse_inj.mp h1).symm

theorem leNat_testBit (bs : List UInt8) (k : Nat) :
    (leNat bs).testBit k = (bs.getD (k / 8) 0).toNat.testBit (k % 8) := by
  induction bs generalizing k with
  | nil => simp [leNat]
  | cons b bs ih =>
    have hb := b.toNat_lt
    have hb : b.toNat < 2 ^ 8 := by omega
    rw [leNat, Nat.add_comm, show (256 : Nat) = 2 ^ 8 from rfl, Nat.testBit_two_pow_mul_add _ hb]
    split
    · next h => rw [Nat.div_eq_of_lt h, Nat.mod_eq_of_lt h]; rfl
    · next h =>
      rw [ih]
      obtain ⟨j, rfl⟩ : ∃ j, k = j + 8 := ⟨k - 8, by omega⟩
      have h1 : (j + 8) / 8 = j / 8 + 1 := by omega
      have h2 : (j + 8) % 8 = j % 8 := by omega
      rw [h1, h2]; simp

theorem beValue_testBit (bs : List UInt8) (k : Nat) (hk : k / 8 < bs.length) :
    (beValue bs).testBit k = (bs.getD (bs.length - 1 - k / 8) 0).toNat.testBit (k % 8) := by
  rw [beValue_eq, leNat_testBit]
  simp [List.getD, List.getElem?_reverse hk]

theorem beValue_testBit_ge (bs : List UInt8) (k : Nat) (hk : ¬ k / 8 < bs.length) : (beValue bs).testBit k = false := by
  rw [beValue_eq, leNat_testBit]
  simp [List.getD, List.getElem?_eq_none, Nat.le_of_not_lt hk]

theorem hostBytes_hostNat' (e : Endian) (n : Nat) (bs : List UInt8) (h : bs.length = n) :
    hostBytes e n (hostNat e bs) = bs := by subst h; exact hostBytes_hostNat e bs

/-! ## The constructor -/

theorem beDigits_length (n v : Nat) : (beDigits n v).length = n := by
  induction n generalizing v with
  | zero => rfl
  | succ n ih => simp [beDigits, ih]

theorem beValue_beDigits (n v : Nat) : beValue (beDigits n v) = v % 256 ^ n := by
  induction n generalizing v with
  | zero => simp [beDigits, beValue, Nat.mod_one]
  | succ n ih =>
    rw [beDigits, beValue_append, ih]
    have h1 : v >>> 8 = v / 256 := Nat.shiftRight_eq_div_pow v 8
    have h2 : v &&& 0xff = v % 256 := Nat.and_two_pow_sub_one_eq_mod v 8
    rw [h1, h2, Nat.pow_succ, Nat.mul_comm (256 ^ n) 256, Nat.mod_mul]
    simp
    omega

/-! ## Shifts -/

/-- Element `i` after `<< v`. -/
def shlAt (n v : Nat) (D : List UInt8) (i : Nat) : UInt8 :=
  if i + v / 8 ≥ n then 0
  else if i + v / 8 = n - 1 then UInt8.ofNat ((D.getD (i + v / 8) 0).toNat <<< (v % 8))
  else UInt8.ofNat ((UInt8.ofNat ((D.getD (i + v / 8) 0).toNat <<< (v % 8))).toNat |||
    ((D.getD (i + v / 8 + 1) 0).toNat >>> (8 - v % 8)))

theorem getD_set (l : List UInt8) (i k : Nat) (x : UInt8) (hi : i < l.length) :
    (l.set i x).getD k 0 = if k = i then x else l.getD k 0 := by
  simp only [List.getD, List.getElem?_set]
  by_cases h : i = k
  · subst h; simp [hi]
  · rw [if_neg h, if_neg (Ne.symm h)]

theorem shlStep_spec (n v : Nat) (data D : List UInt8) (i : Nat) (hi : i < n) (hl : data.length = n)
    (hD : ∀ k, i ≤ k → data.getD k 0 = D.getD k 0) :
    shlStep n v data i = data.set i (shlAt n v D i) := by
  unfold shlStep shlAt
  dsimp only
  split
  · rfl
  · rw [hD _ (by omega)]
    split
    · rfl
    · rw [getD_set _ _ _ _ (by omega), getD_set _ _ _ _ (by omega), if_pos rfl, if_neg (by omega), hD _ (by omega),
        List.set_set]

theorem shl_loop (n v : Nat) (D : List UInt8) (hl : D.length = n) (m : Nat) (hm : m ≤ n) :
    ((List.range m).foldl (shlStep n v) D).length = n ∧
    ∀ k, ((List.range m).foldl (shlStep n v) D).getD k 0 = if k < m then shlAt n v D k else D.getD k 0 := by
  induction m with
  | zero => exact ⟨hl, by simp⟩
  | succ m ih =>
    obtain ⟨h1, h2⟩ := ih (by omega)
    rw [List.range_succ, List.foldl_append]
    simp only [List.foldl_cons, List.foldl_nil]
    rw [shlStep_spec n v _ D m (by omega) h1 (fun k hk => by rw [h2, if_neg (by omega)])]
    refine ⟨by simp [h1], fun k => ?_⟩
    rw [getD_set _ _ _ _ (by omega), h2]
    by_cases hk : k = m
    · subst hk; rw [if_pos rfl, if_pos (by omega)]
    · rw [if_neg hk]
      by_cases h : k < m
      · rw [if_pos h, if_pos (by omega)]
      · rw [if_neg h, if_neg (by omega)]

theorem toNat_ofNat_testBit (x b : Nat) (hb : b < 8) : (UInt8.ofNat x).toNat.testBit b = x.testBit b := by
  have : (UInt8.ofNat x).toNat = x % 2 ^ 8 := by simp
  rw [this, Nat.testBit_mod_two_pow]
  simp [hb]

theorem byte_testBit_ge (x : UInt8) (b : Nat) (hb : 8 ≤ b) : x.toNat.testBit b = false := by
  apply Nat.testBit_lt_two_pow
  have h := x.toNat_lt
  exact Nat.lt_of_lt_of_le (by omega : x.toNat < 2 ^ 8) (Nat.pow_le_pow_right (by omega) hb)

theorem shlAt_testBit (n v : Nat) (D : List UInt8) (i b : Nat) (hb : b < 8) :
    (shlAt n v D i).toNat.testBit b =
      (decide (i + v / 8 < n) && ((decide (v % 8 ≤ b) && (D.getD (i + v / 8) 0).toNat.testBit (b - v % 8)) ||
        (decide (i + v / 8 ≠ n - 1) && (D.getD (i + v / 8 + 1) 0).toNat.testBit (8 - v % 8 + b)))) := by
  unfold shlAt
  split
  · next h => simp [Nat.not_lt.mpr h]
  · next h =>
    rw [decide_eq_true (by omega : i + v / 8 < n), Bool.true_and]
    split
    · next h' =>
      rw [toNat_ofNat_testBit _ _ hb, Nat.testBit_shiftLeft]
      simp [h']
    · next h' =>
      rw [toNat_ofNat_testBit _ _ hb, Nat.testBit_or, toNat_ofNat_testBit _ _ hb, Nat.testBit_shiftLeft,
        Nat.testBit_shiftRight]
      simp [h']

theorem beShl_value (e : Endian) (n x v : Nat) :
    beValue (hostBytes e n (beShl e n x v)) = (beValue (hostBytes e n x) * 2 ^ v) % 2 ^ (8 * n) := by
  unfold beShl
  have hD : (hostBytes e n x).length = n := by simp
  generalize hostBytes e n x = D at hD ⊢
  obtain ⟨h1, h2⟩ := shl_loop n v D hD n (Nat.le_refl _)
  generalize (List.range n).foldl (shlStep n v) D = R at h1 h2
  rw [hostBytes_hostNat' e n R h1]
  apply Nat.eq_of_testBit_eq
  intro k
  rw [Nat.testBit_mod_two_pow, ← Nat.shiftLeft_eq, Nat.testBit_shiftLeft]
  by_cases hk : k / 8 < n
  · rw [beValue_testBit R k (by omega), h1, h2, if_pos (by omega), shlAt_testBit _ _ _ _ _ (by omega)]
    rw [decide_eq_true (by omega : k < 8 * n), Bool.true_and]
    by_cases hv : v ≤ k
    · rw [beValue_testBit D (k - v) (by omega), hD]
      rw [decide_eq_true hv, Bool.true_and]
      rw [decide_eq_true (by omega : n - 1 - k / 8 + v / 8 < n), Bool.true_and]
      by_cases ho : v % 8 ≤ k % 8
      · rw [byte_testBit_ge _ (8 - v % 8 + k % 8) (by omega)]
        have a1 : n - 1 - k / 8 + v / 8 = n - 1 - (k - v) / 8 := by omega
        have a2 : k % 8 - v % 8 = (k - v) % 8 := by omega
        rw [a1, a2]
        simp [ho]
      · have a1 : n - 1 - k / 8 + v / 8 + 1 = n - 1 - (k - v) / 8 := by omega
        have a2 : 8 - v % 8 + k % 8 = (k - v) % 8 := by omega
        rw [a1, a2, decide_eq_false ho, decide_eq_true (by omega : n - 1 - k / 8 + v / 8 ≠ n - 1)]
        simp
    · rw [decide_eq_false hv, Bool.false_and]
      by_cases hc : n - 1 - k / 8 + v / 8 < n
      · have a1 : k / 8 = v / 8 := by omega
        rw [decide_eq_false (by omega : ¬ v % 8 ≤ k % 8),
          decide_eq_false (by omega : ¬ n - 1 - k / 8 + v / 8 ≠ n - 1)]
        simp
      · simp [hc]
  · rw [beValue_testBit_ge R k (by omega), decide_eq_false (by omega : ¬ k < 8 * n)]
    simp

/-- Element `i` after `>> v`. -/
def shrAt (v : Nat) (D : List UInt8) (i : Nat) : UInt8 :=
  if i < v / 8 then 0
  else if i - v / 8 = 0 then UInt8.ofNat ((D.getD (i - v / 8) 0).toNat >>> (v % 8))
  else UInt8.ofNat ((UInt8.ofNat ((D.getD (i - v / 8) 0).toNat >>> (v % 8))).toNat |||
    ((D.getD (i - v / 8 - 1) 0).toNat <<< (8 - v % 8)))

theorem shrStep_spec (n v : Nat) (data D : List UInt8) (j : Nat) (hj : j < n) (hl : data.length = n)
    (hv : v / 8 + n ≤ 2 ^ 64) (hD : ∀ k, k ≤ n - 1 - j → data.getD k 0 = D.getD k 0) :
    shrStep n v data j = data.set (n - 1 - j) (shrAt v D (n - 1 - j)) := by
  unfold shrStep shrAt
  dsimp only
  by_cases hc : n - 1 - j < v / 8
  · rw [if_pos hc, if_pos (by simp only [subSz]; split <;> omega)]
  · rw [if_neg hc, subSz_of_le (by omega), if_neg (by omega), hD _ (by omega)]
    split
    · rfl
    · rw [getD_set _ _ _ _ (by omega), getD_set _ _ _ _ (by omega), if_pos rfl, if_neg (by omega), hD _ (by omega),
        List.set_set]

theorem shr_loop (n v : Nat) (D : List UInt8) (hl : D.length = n) (hv : v / 8 + n ≤ 2 ^ 64) (m : Nat) (hm : m ≤ n) :
    ((List.range m).foldl (shrStep n v) D).length = n ∧
    ∀ k, k < n → ((List.range m).foldl (shrStep n v) D).getD k 0 = if n - m ≤ k then shrAt v D k else D.getD k 0 := by
  induction m with
  | zero => exact ⟨hl, fun k hk => by simp [Nat.not_le.mpr hk]⟩
  | succ m ih =>
    obtain ⟨h1, h2⟩ := ih (by omega)
    rw [List.range_succ, List.foldl_append]
    simp only [List.foldl_cons, List.foldl_nil]
    rw [shrStep_spec n v _ D m (by omega) h1 hv (fun k hk => by rw [h2 k (by omega), if_neg (by omega)])]
    refine ⟨by simp [h1], fun k hkn => ?_⟩
    rw [getD_set _ _ _ _ (by omega), h2 k hkn]
    by_cases hk : k = n - 1 - m
    · subst hk; rw [if_pos rfl, if_pos (by omega)]
    · rw [if_neg hk]
      by_cases h : n - m ≤ k
      · rw [if_pos h, if_pos (by omega)]
      · rw [if_neg h, if_neg (by omega)]

theorem shrAt_testBit (v : Nat) (D : List UInt8) (i b : Nat) (hb : b < 8) :
    (shrAt v D i).toNat.testBit b =
      (decide (v / 8 ≤ i) && ((D.getD (i - v / 8) 0).toNat.testBit (v % 8 + b) ||
        (decide (i - v / 8 ≠ 0) && (decide (8 - v % 8 ≤ b) && (D.getD (i - v / 8 - 1) 0).toNat.testBit (b - (8 - v % 8)))))) := by
  unfold shrAt
  split
  · next h => simp [Nat.not_le.mpr h]
  · next h =>
    rw [decide_eq_true (by omega : v / 8 ≤ i), Bool.true_and]
    split
    · next h' =>
      rw [toNat_ofNat_testBit _ _ hb, Nat.testBit_shiftRight]
      simp [h']
    · next h' =>
      rw [toNat_ofNat_testBit _ _ hb, Nat.testBit_or, toNat_ofNat_testBit _ _ hb, Nat.testBit_shiftLeft,
        Nat.testBit_shiftRight]
      simp [h']

theorem beShr_value (e : Endian) (n x v : Nat) (hv : v / 8 + n ≤ 2 ^ 64) :
    beValue (hostBytes e n (beShr e n x v)) = beValue (hostBytes e n x) / 2 ^ v := by
  unfold beShr
  have hD : (hostBytes e n x).length = n := by simp
  generalize hostBytes e n x = D at hD ⊢
  obtain ⟨h1, h2⟩ := shr_loop n v D hD hv n (Nat.le_refl _)
  generalize (List.range n).foldl (shrStep n v) D = R at h1 h2
  rw [hostBytes_hostNat' e n R h1]
  apply Nat.eq_of_testBit_eq
  intro k
  rw [← Nat.shiftRight_eq_div_pow, Nat.testBit_shiftRight]
  by_cases hk : k / 8 < n
  · rw [beValue_testBit R k (by omega), h1, h2 _ (by omega), if_pos (by omega), shrAt_testBit _ _ _ _ (by omega)]
    by_cases hv : (v + k) / 8 < n
    · rw [beValue_testBit D (v + k) (by omega), hD]
      rw [decide_eq_true (by omega : v / 8 ≤ n - 1 - k / 8), Bool.true_and]
      by_cases ho : v % 8 + k % 8 < 8
      · have a1 : n - 1 - k / 8 - v / 8 = n - 1 - (v + k) / 8 := by omega
        have a2 : v % 8 + k % 8 = (v + k) % 8 := by omega
        rw [decide_eq_false (by omega : ¬ 8 - v % 8 ≤ k % 8), a1, a2]
        simp
      · have a1 : n - 1 - k / 8 - v / 8 - 1 = n - 1 - (v + k) / 8 := by omega
        have a2 : k % 8 - (8 - v % 8) = (v + k) % 8 := by omega
        rw [byte_testBit_ge _ (v % 8 + k % 8) (by omega), a1, a2, decide_eq_true (by omega : 8 - v % 8 ≤ k % 8),
          decide_eq_true (by omega : n - 1 - k / 8 - v / 8 ≠ 0)]
        simp
    · rw [beValue_testBit_ge D _ (by omega)]
      by_cases hc : v / 8 ≤ n - 1 - k / 8
      · rw [decide_eq_false (by omega : ¬ n - 1 - k / 8 - v / 8 ≠ 0), byte_testBit_ge _ _ (by omega)]
        simp
      · simp [hc]
  · rw [beValue_testBit_ge R k (by omega), beValue_testBit_ge D _ (by omega)]

/-! ## Addition -/

theorem addBytes_spec : ∀ (as bs : List UInt8) (r : Nat), as.length = bs.length → r ≤ 1 →
    (addBytes as bs r).length = as.length ∧
    leNat (addBytes as bs r) = (leNat as + leNat bs + r) % 256 ^ as.length
  | [], [], r, _, _ => by simp [addBytes, leNat, Nat.mod_one]
  | [], _ :: _, _, h, _ => by simp at h
  | _ :: _, [], _, h, _ => by simp at h
  | a :: as, b :: bs, r, h, hr => by
    have ha := a.toNat_lt
    have hb := b.toNat_lt
    have h0 : (a.toNat + b.toNat + r) % 2 ^ 16 = a.toNat + b.toNat + r := Nat.mod_eq_of_lt (by omega)
    have h1 : (a.toNat + b.toNat + r) &&& 0xff = (a.toNat + b.toNat + r) % 256 := Nat.and_two_pow_sub_one_eq_mod _ 8
    have h2 : (a.toNat + b.toNat + r) >>> 8 = (a.toNat + b.toNat + r) / 256 := Nat.shiftRight_eq_div_pow _ 8
    have h3 : ((a.toNat + b.toNat + r) / 256) &&& 0xff = (a.toNat + b.toNat + r) / 256 := by
      rw [show (0xff : Nat) = 2 ^ 8 - 1 from rfl, Nat.and_two_pow_sub_one_eq_mod, Nat.mod_eq_of_lt (by omega)]
    simp only [addBytes, h0, h1, h2, h3]
    obtain ⟨i1, i2⟩ := addBytes_spec as bs ((a.toNat + b.toNat + r) / 256) (by simpa using h) (by omega)
    refine ⟨by simp [i1], ?_⟩
    simp only [leNat, i2, List.length_cons, Nat.pow_succ]
    have h4 : (UInt8.ofNat ((a.toNat + b.toNat + r) % 256)).toNat = (a.toNat + b.toNat + r) % 256 := by simp
    rw [h4, Nat.mul_comm (256 ^ as.length) 256, Nat.mod_mul]
    have h5 : (a.toNat + 256 * leNat as + (b.toNat + 256 * leNat bs) + r) % 256 = (a.toNat + b.toNat + r) % 256 := by omega
    have h6 : (a.toNat + 256 * leNat as + (b.toNat + 256 * leNat bs) + r) / 256 =
      leNat as + leNat bs + (a.toNat + b.toNat + r) / 256 := by omega
    rw [h5, h6]

theorem beAdd_value (e : Endian) (n x y : Nat) :
    beValue (hostBytes e n (beAdd e n x y)) = (beValue (hostBytes e n x) + beValue (hostBytes e n y)) % 256 ^ n := by
  unfold beAdd
  have hx : (hostBytes e n x).length = n := by simp
  have hy : (hostBytes e n y).length = n := by simp
  generalize hostBytes e n x = X at hx ⊢
  generalize hostBytes e n y = Y at hy ⊢
  obtain ⟨i1, i2⟩ := addBytes_spec X.reverse Y.reverse 0 (by simp [hx, hy]) (by omega)
  rw [hostBytes_hostNat' e n _ (by simp [i1, hx]), beValue_eq, List.reverse_reverse, i2, beValue_eq, beValue_eq]
  simp [hx]

/-! ## Bitwise operators -/

/-- Position in the number of bit `k` of the object. -/
def hostBit : Endian → Nat → Nat → Nat
  | .big, _, k => k
  | .little, n, k => 8 * (n - 1 - k / 8) + k % 8

theorem hostNat_getD (e : Endian) (n x k : Nat) (hx : x < 256 ^ n) (hk : k < 8 * n) :
    (beValue (hostBytes e n x)).testBit k = x.testBit (hostBit e n k) := by
  cases e with
  | big =>
    simp only [hostBytes, hostBit]
    rw [beValue_eq, List.reverse_reverse, leNat_leBytes _ _ hx]
  | little =>
    simp only [hostBytes, hostBit]
    rw [beValue_testBit _ _ (by simp; omega)]
    have := leNat_testBit (leBytes n x) (8 * (n - 1 - k / 8) + k % 8)
    rw [leNat_leBytes _ _ hx] at this
    rw [this]
    have a1 : (8 * (n - 1 - k / 8) + k % 8) / 8 = n - 1 - k / 8 := by omega
    have a2 : (8 * (n - 1 - k / 8) + k % 8) % 8 = k % 8 := by omega
    rw [a1, a2]
    simp

theorem beValue_ext (e : Endian) (n x m : Nat) (hx : x < 256 ^ n) (hm : m < 256 ^ n)
    (h : ∀ k, k < 8 * n → x.testBit (hostBit e n k) = m.testBit k) : beValue (hostBytes e n x) = m := by
  have hp : (256 : Nat) ^ n = 2 ^ (8 * n) := by rw [Nat.pow_mul]
  apply Nat.eq_of_testBit_eq
  intro k
  by_cases hk : k < 8 * n
  · rw [hostNat_getD e n x k hx hk, h k hk]
  · rw [beValue_testBit_ge _ _ (by simp; omega)]
    refine (Nat.testBit_lt_two_pow ?_).symm
    rw [hp] at hm
    exact Nat.lt_of_lt_of_le hm (Nat.pow_le_pow_right (by omega) (by omega))

theorem beValue_host_lt (e : Endian) (n x : Nat) : beValue (hostBytes e n x) < 256 ^ n := by
  simpa using beValue_lt (hostBytes e n x)

theorem pow256 (n : Nat) : (256 : Nat) ^ n = 2 ^ (8 * n) := by rw [Nat.pow_mul]

theorem beAnd_value (e : Endian) (n x y : Nat) (hx : x < 256 ^ n) (hy : y < 256 ^ n) :
    beValue (hostBytes e n (beAnd x y)) = beValue (hostBytes e n x) &&& beValue (hostBytes e n y) := by
  apply beValue_ext
  · exact Nat.lt_of_le_of_lt Nat.and_le_left hx
  · exact Nat.lt_of_le_of_lt Nat.and_le_left (beValue_host_lt e n x)
  · intro k hk
    rw [beAnd, Nat.testBit_and, Nat.testBit_and, hostNat_getD e n x k hx hk, hostNat_getD e n y k hy hk]

theorem beOr_value (e : Endian) (n x y : Nat) (hx : x < 256 ^ n) (hy : y < 256 ^ n) :
    beValue (hostBytes e n (beOr x y)) = beValue (hostBytes e n x) ||| beValue (hostBytes e n y) := by
  have h1 := beValue_host_lt e n x
  have h2 := beValue_host_lt e n y
  rw [pow256] at *
  apply beValue_ext
  · rw [pow256]; exact Nat.or_lt_two_pow hx hy
  · rw [pow256]; exact Nat.or_lt_two_pow h1 h2
  · intro k hk
    rw [beOr, Nat.testBit_or, Nat.testBit_or, hostNat_getD e n x k (by rw [pow256]; exact hx) hk,
      hostNat_getD e n y k (by rw [pow256]; exact hy) hk]

theorem beXor_value (e : Endian) (n x y : Nat) (hx : x < 256 ^ n) (hy : y < 256 ^ n) :
    beValue (hostBytes e n (beXor x y)) = beValue (hostBytes e n x) ^^^ beValue (hostBytes e n y) := by
  have h1 := beValue_host_lt e n x
  have h2 := beValue_host_lt e n y
  rw [pow256] at *
  apply beValue_ext
  · rw [pow256]; exact Nat.xor_lt_two_pow hx hy
  · rw [pow256]; exact Nat.xor_lt_two_pow h1 h2
  · intro k hk
    rw [beXor, Nat.testBit_xor, Nat.testBit_xor, hostNat_getD e n x k (by rw [pow256]; exact hx) hk,
      hostNat_getD e n y k (by rw [pow256]; exact hy) hk]

theorem hostBit_lt (e : Endian) (n k : Nat) (hk : k < 8 * n) : hostBit e n k < 8 * n := by
  cases e <;> simp only [hostBit] <;> omega

theorem beNot_value (e : Endian) (n x : Nat) (hx : x < 256 ^ n) :
    beValue (hostBytes e n (beNot n x)) = 256 ^ n - 1 - beValue (hostBytes e n x) := by
  have h1 := beValue_host_lt e n x
  have h0 : 0 < 256 ^ n := Nat.pow_pos (by omega)
  apply beValue_ext
  · unfold beNot; omega
  · omega
  · intro k hk
    unfold beNot
    have e1 : 256 ^ n - 1 - x = 2 ^ (8 * n) - (x + 1) := by rw [pow256]; omega
    have e2 : 256 ^ n - 1 - beValue (hostBytes e n x) = 2 ^ (8 * n) - (beValue (hostBytes e n x) + 1) := by
      rw [pow256]; omega
    rw [e1, e2, Nat.testBit_two_pow_sub_succ (by rw [← pow256]; exact hx),
      Nat.testBit_two_pow_sub_succ (by rw [← pow256]; exact h1), hostNat_getD e n x k hx hk,
      decide_eq_true (hostBit_lt e n k hk), decide_eq_true hk]

end Zpp
