import Verif.Model.Varint
import Verif.Spec.Leb128
/-! # Lemmas about variable length integers -/

namespace Zpp
open Spec

theorem and_7f (x : Nat) : x &&& 0x7f = x % 128 := Nat.and_two_pow_sub_one_eq_mod x 7

theorem ofNat_toNat8 (x : Nat) (h : x < 256) : (UInt8.ofNat x).toNat = x := by
  simp; omega

theorem varint_cont_byte (v : Nat) : (UInt8.ofNat ((v &&& 0x7f) ||| 0x80)).toNat = v % 128 + 128 := by
  rw [and_7f]
  have h : v % 128 < 2 ^ 7 := by omega
  have := Nat.two_pow_add_eq_or_of_lt h 1
  rw [Nat.or_comm]
  have e : (0x80 : Nat) = 2 ^ 7 * 1 := rfl
  rw [e, ← this, ofNat_toNat8] <;> omega

theorem varintLoop_enough (f v : Nat) (h : v ≤ f) : varintLoop f v = varintBytes v := by
  induction f using Nat.strongRecOn generalizing v with
  | _ f ih =>
    by_cases hv : v ≥ 0x80
    · obtain ⟨f', rfl⟩ : ∃ f', f = f' + 1 := ⟨f - 1, by omega⟩
      obtain ⟨v', rfl⟩ : ∃ v', v = v' + 1 := ⟨v - 1, by omega⟩
      have hs : (v' + 1) >>> 7 ≤ v' := by rw [Nat.shiftRight_eq_div_pow]; omega
      unfold varintBytes
      simp only [varintLoop, hv, if_true]
      rw [ih f' (by omega) _ (by omega)]
      by_cases e : v' = f'
      · subst e; rw [ih v' (by omega) _ hs]
      · rw [ih v' (by omega) _ hs]
    · unfold varintBytes
      cases f <;> cases v <;> simp [varintLoop, hv] <;> omega

theorem varintBytes_small {v : Nat} (h : v < 128) : varintBytes v = [UInt8.ofNat v] := by
  unfold varintBytes; cases v <;> simp [varintLoop]; omega

theorem varintBytes_big {v : Nat} (h : 128 ≤ v) :
    varintBytes v = UInt8.ofNat ((v &&& 0x7f) ||| 0x80) :: varintBytes (v / 128) := by
  obtain ⟨v', rfl⟩ : ∃ v', v = v' + 1 := ⟨v - 1, by omega⟩
  conv => lhs; unfold varintBytes
  simp only [varintLoop, ge_iff_le, h, if_true]
  rw [Nat.shiftRight_eq_div_pow, varintLoop_enough _ _ (by omega)]

theorem varintBytes_ne_nil (v : Nat) : varintBytes v ≠ [] := by
  by_cases h : v < 128
  · simp [varintBytes_small h]
  · simp [varintBytes_big (Nat.le_of_not_lt h)]

theorem varintBytes_length_pos (v : Nat) : 0 < (varintBytes v).length :=
  List.length_pos_iff.mpr (varintBytes_ne_nil v)

theorem lebPrefix_varintBytes_append (v : Nat) (rest : List UInt8) :
    lebPrefix (varintBytes v ++ rest) = some (varintBytes v) := by
  induction v using Nat.strongRecOn with
  | _ v ih =>
    by_cases h : v < 128
    · rw [varintBytes_small h]; simp [lebPrefix]; omega
    · rw [varintBytes_big (by omega)]
      simp only [List.cons_append, lebPrefix, varint_cont_byte]
      rw [if_neg (by omega), ih _ (by omega)]
      rfl

theorem lebPrefix_varintBytes (v : Nat) : IsLeb (varintBytes v) := by
  have := lebPrefix_varintBytes_append v []
  rw [List.append_nil] at this
  exact this

theorem lebValue_varintBytes (v : Nat) : lebValue (varintBytes v) = v := by
  induction v using Nat.strongRecOn with
  | _ v ih =>
    by_cases h : v < 128
    · rw [varintBytes_small h]; simp [lebValue]; omega
    · rw [varintBytes_big (by omega)]
      simp only [lebValue, varint_cont_byte]
      rw [ih _ (by omega)]
      omega

/-- Length of the encoding: `⌈bits / 7⌉`. -/
theorem varintBytes_length_le_iff (v k : Nat) (hk : 0 < k) : (varintBytes v).length ≤ k ↔ v < 128 ^ k := by
  induction k generalizing v with
  | zero => omega
  | succ k ih =>
    by_cases h : v < 128
    · rw [varintBytes_small h]
      have : 128 ≤ 128 ^ (k + 1) := by
        rw [Nat.pow_succ]; have := Nat.pow_pos (n := k) (show 0 < 128 by omega); omega
      simp; omega
    · rw [varintBytes_big (by omega)]
      rw [List.length_cons, Nat.add_le_add_iff_right]
      by_cases hk0 : k = 0
      · subst hk0
        have := varintBytes_length_pos (v / 128)
        constructor <;> intro <;> omega
      · rw [ih _ (by omega), Nat.pow_succ, Nat.div_lt_iff_lt_mul (by omega)]

theorem lebValue_lt (g : List UInt8) : lebValue g < 128 ^ g.length := by
  induction g with
  | nil => simp [lebValue]
  | cons b g ih => simp only [lebValue, List.length_cons, Nat.pow_succ]; omega

theorem or_one_log2 (v : Nat) : (v ||| 1).log2 = v.log2 := by
  have h0 : v ||| 1 ≠ 0 := by
    intro h
    have := congrArg (fun x => Nat.testBit x 0) h
    simp at this
  by_cases hv : v = 0
  · subst hv; decide
  · apply Nat.le_antisymm
    · have h1 : v < 2 ^ (v.log2 + 1) := Nat.lt_log2_self
      have h2 : (1:Nat) < 2 ^ (v.log2 + 1) := by
        rw [Nat.pow_succ]; have := Nat.pow_pos (n := v.log2) (show 0 < 2 by omega); omega
      have := Nat.or_lt_two_pow h1 h2
      have := (Nat.log2_lt h0).mpr this
      omega
    · have : v ≤ v ||| 1 := Nat.left_le_or
      exact (Nat.le_log2 h0).mpr (Nat.le_trans (Nat.log2_self_le hv) this)

theorem varintSize_eq (n v : Nat) (hn : 0 < n) (hv : v < 2 ^ (8 * n)) :
    varintSize n v = (v.log2 + 1 + 6) / 7 := by
  have h0 : v ||| 1 ≠ 0 := by
    intro h
    have := congrArg (fun x => Nat.testBit x 0) h
    simp at this
  unfold varintSize countlZero
  rw [if_neg h0, or_one_log2]
  have : v.log2 < n * 8 := by
    by_cases hv0 : v = 0
    · subst hv0; simp; omega
    · exact (Nat.log2_lt hv0).mpr (by rwa [Nat.mul_comm])
  congr 1; omega

theorem varintSize_pos (n v : Nat) (hn : 0 < n) (hv : v < 2 ^ (8 * n)) : 0 < varintSize n v := by
  rw [varintSize_eq n v hn hv]; omega

theorem varintSize_eq_length (n v : Nat) (hn : 0 < n) (hv : v < 2 ^ (8 * n)) :
    varintSize n v = (varintBytes v).length := by
  have key : ∀ k, 0 < k → (varintSize n v ≤ k ↔ (varintBytes v).length ≤ k) := by
    intro k hk
    rw [varintBytes_length_le_iff _ _ hk, varintSize_eq n v hn hv]
    have e : 128 ^ k = 2 ^ (7 * k) := by
      rw [show (128:Nat) = 2 ^ 7 from rfl, ← Nat.pow_mul]
    rw [e]
    by_cases hv0 : v = 0
    · subst hv0
      have := Nat.pow_pos (n := 7 * k) (show 0 < 2 by omega)
      simp; omega
    · rw [← Nat.log2_lt hv0]; omega
  have h1 := varintSize_pos n v hn hv
  have h2 := varintBytes_length_pos v
  exact Nat.le_antisymm ((key _ h2).mpr (Nat.le_refl _)) ((key _ h1).mp (Nat.le_refl _))

theorem varintBytes_length_le_max (n v : Nat) (hv : v < 2 ^ (8 * n)) :
    (varintBytes v).length ≤ varintMaxSize n := by
  rw [varintBytes_length_le_iff _ _ (by simp [varintMaxSize])]
  refine Nat.lt_of_lt_of_le hv ?_
  rw [show (128:Nat) = 2 ^ 7 from rfl, ← Nat.pow_mul]
  apply Nat.pow_le_pow_right (by omega)
  unfold varintMaxSize
  omega

/-! ## Decoding -/

theorem lebPrefix_length {bs g : List UInt8} (h : lebPrefix bs = some g) :
    0 < g.length ∧ g.length ≤ bs.length := by
  induction bs generalizing g with
  | nil => simp [lebPrefix] at h
  | cons b bs ih =>
    simp only [lebPrefix] at h
    split at h
    · cases h; simp
    · cases hb : lebPrefix bs with
      | none => simp [hb] at h
      | some g' =>
        simp [hb] at h; subst h
        have := ih hb; simp; omega

theorem lebPrefix_eq_take {bs g : List UInt8} (h : lebPrefix bs = some g) : g = bs.take g.length := by
  induction bs generalizing g with
  | nil => simp [lebPrefix] at h
  | cons b bs ih =>
    simp only [lebPrefix] at h
    split at h
    · cases h; simp
    · cases hb : lebPrefix bs with
      | none => simp [hb] at h
      | some g' =>
        simp [hb] at h; subst h
        have := ih hb; simp; exact this

theorem lebPrefix_take {bs g : List UInt8} (h : lebPrefix bs = some g) (k : Nat) (hk : g.length ≤ k) :
    lebPrefix (bs.take k) = some g := by
  induction bs generalizing g k with
  | nil => simp [lebPrefix] at h
  | cons b bs ih =>
    have hp := lebPrefix_length h
    obtain ⟨k, rfl⟩ : ∃ k', k = k' + 1 := ⟨k - 1, by omega⟩
    simp only [lebPrefix, List.take_succ_cons] at h ⊢
    split at h
    · rename_i hb; rw [if_pos hb]; exact h
    · rename_i hb
      rw [if_neg hb]
      cases hb : lebPrefix bs with
      | none => simp [hb] at h
      | some g' =>
        simp [hb] at h; subst h
        rw [ih hb k (by simpa using hk)]; rfl

theorem lebPrefix_append {bs g : List UInt8} (h : lebPrefix bs = some g) (rest : List UInt8) :
    lebPrefix (bs ++ rest) = some g := by
  induction bs generalizing g with
  | nil => simp [lebPrefix] at h
  | cons b bs ih =>
    simp only [lebPrefix, List.cons_append] at h ⊢
    split at h
    · rename_i hb; rw [if_pos hb]; exact h
    · rename_i hb
      rw [if_neg hb]
      cases hb : lebPrefix bs with
      | none => simp [hb] at h
      | some g' =>
        simp [hb] at h; subst h
        rw [ih hb]; rfl

theorem or_shift_mod (w shift value b : Nat) (hv : value < 2 ^ shift) :
    (value ||| (b <<< shift)) % 2 ^ w = (value + 2 ^ shift * b) % 2 ^ w := by
  rw [Nat.shiftLeft_eq, Nat.mul_comm b, Nat.or_comm, ← Nat.two_pow_add_eq_or_of_lt hv]
  rw [Nat.add_comm]

/-- Functional characterization of the byte by byte decoder. -/
theorem decSlow_spec (w : Nat) (bs : List UInt8) (shift value len : Nat)
    (hv : value < 2 ^ shift) (hw : shift + 7 * bs.length ≤ max w 32 + 6) :
    decSlow w bs shift value len =
      match lebPrefix bs with
      | some g => .ok ((value + 2 ^ shift * lebValue g) % 2 ^ w) (len + g.length)
      | none => .err .resultOutOfRange := by
  induction bs generalizing shift value len with
  | nil => rfl
  | cons b bs ih =>
    simp only [decSlow, lebPrefix]
    have hs : ¬ max w 32 ≤ shift := by simp only [List.length_cons] at hw; omega
    rw [if_neg hs, and_7f, or_shift_mod w shift value _ hv]
    by_cases hb : b.toNat < 128
    · rw [if_neg (by omega), if_pos hb]
      simp [lebValue]
    · rw [if_pos (by omega), if_neg hb]
      have hx : value + 2 ^ shift * (b.toNat % 128) < 2 ^ (shift + 7) := by
        have h1 : b.toNat % 128 ≤ 127 := by omega
        have h2 : 2 ^ shift * (b.toNat % 128) ≤ 2 ^ shift * 127 := Nat.mul_le_mul_left _ h1
        rw [Nat.pow_add]; omega
      rw [ih (shift + 7) _ _ (Nat.lt_of_le_of_lt (Nat.mod_le _ _) hx)
        (by simp only [List.length_cons] at hw; omega)]
      cases lebPrefix bs with
      | none => rfl
      | some g =>
        simp only [Option.map_some, lebValue, List.length_cons]
        congr 1
        · rw [Nat.mod_add_mod]
          congr 1
          rw [Nat.pow_add, Nat.mul_add]
          have : 2 ^ shift * 2 ^ 7 * lebValue g = 2 ^ shift * (128 * lebValue g) := by
            rw [Nat.mul_assoc]
          omega
        · omega

/-- `steps` is the unrolled form of the loop starting at `shift`. -/
def StepsOk (w : Nat) : List (Nat × Nat) → Nat → Prop
  | [], _ => True
  | (mask, s) :: rest, shift =>
    s = shift ∧ (∀ b : Nat, ((b &&& mask) <<< s) % 2 ^ w = ((b &&& 0x7f) <<< s) % 2 ^ w) ∧
      StepsOk w rest (shift + 7)

theorem or_mod_congr (w v a b : Nat) (h : a % 2 ^ w = b % 2 ^ w) :
    (v ||| a) % 2 ^ w = (v ||| b) % 2 ^ w := by
  rw [Nat.or_mod_two_pow, Nat.or_mod_two_pow, h]

theorem decFast_eq (w : Nat) (steps : List (Nat × Nat)) (bs : List UInt8) (shift value len : Nat)
    (hst : StepsOk w steps shift) (hlen : steps.length ≤ bs.length) :
    decFast w steps bs value len =
      match decSlow w (bs.take steps.length) shift value len with
      | .err _ => .err .valueTooLarge
      | r => r := by
  induction steps generalizing bs shift value len with
  | nil => simp [decFast, decSlow]
  | cons st steps ih =>
    obtain ⟨mask, s⟩ := st
    obtain ⟨rfl, hm, hrest⟩ := hst
    cases bs with
    | nil => simp at hlen
    | cons b bs =>
      simp only [decFast, List.length_cons, List.take_succ_cons, decSlow]
      by_cases hu : max w 32 ≤ s
      · simp [hu]
      · rw [if_neg hu, if_neg hu]
        rw [or_mod_congr w value _ _ (hm b.toNat)]
        by_cases hb : b.toNat < 0x80
        · rw [if_pos hb, if_neg (by omega)]
        · rw [if_neg hb, if_pos (by omega)]
          exact ih bs (s + 7) _ _ hrest (by simpa using hlen)

theorem mask63 (b : Nat) : ((b &&& 1) <<< 63) % 2 ^ 64 = ((b &&& 0x7f) <<< 63) % 2 ^ 64 := by
  have h1 : b &&& 1 = b % 2 := Nat.and_two_pow_sub_one_eq_mod b 1
  rw [and_7f, h1, Nat.shiftLeft_eq, Nat.shiftLeft_eq]
  omega

theorem fastSteps_ok (n : Nat) (hn : IntWidth n) :
    StepsOk (8 * n) (fastSteps (varintMaxSize n)) 0 ∧
      (fastSteps (varintMaxSize n)).length = varintMaxSize n := by
  rcases hn with rfl | rfl | rfl | rfl
  · exact ⟨⟨rfl, fun _ => rfl, rfl, fun _ => rfl, trivial⟩, rfl⟩
  · exact ⟨⟨rfl, fun _ => rfl, rfl, fun _ => rfl, rfl, fun _ => rfl, trivial⟩, rfl⟩
  · exact ⟨⟨rfl, fun _ => rfl, rfl, fun _ => rfl, rfl, fun _ => rfl, rfl, fun _ => rfl, rfl, fun _ => rfl,
      trivial⟩, rfl⟩
  · exact ⟨⟨rfl, fun _ => rfl, rfl, fun _ => rfl, rfl, fun _ => rfl, rfl, fun _ => rfl, rfl, fun _ => rfl,
      rfl, fun _ => rfl, rfl, fun _ => rfl, rfl, fun _ => rfl, rfl, fun _ => rfl, rfl, mask63, trivial⟩, rfl⟩

/-- Full functional description of the varint reader: the first LEB128 group string is taken if it
has at most `varint_max_size` bytes, and its value is reduced modulo the width of the type. -/
theorem decodeVarint_spec (n : Nat) (hn : IntWidth n) (data : List UInt8) :
    decodeVarint n data =
      match lebPrefix data with
      | some g =>
        if g.length ≤ varintMaxSize n then .ok (lebValue g % 2 ^ (8 * n)) g.length
        else .err .valueTooLarge
      | none =>
        if data.length < varintMaxSize n then .err .resultOutOfRange else .err .valueTooLarge := by
  have hw : ∀ k, k ≤ varintMaxSize n → 0 + 7 * k ≤ max (8 * n) 32 + 6 := by
    intro k hk; unfold varintMaxSize at hk
    rcases hn with rfl | rfl | rfl | rfl <;> omega
  unfold decodeVarint
  by_cases hl : data.length < varintMaxSize n
  · rw [if_pos hl, decSlow_spec _ _ 0 0 0 (by omega) (hw _ (by omega))]
    cases hp : lebPrefix data with
    | none => simp [hl]
    | some g =>
      have := lebPrefix_length hp
      have h2 : g.length ≤ varintMaxSize n := by omega
      simp [h2]
  · rw [if_neg hl]
    obtain ⟨h1, h2⟩ := fastSteps_ok n hn
    rw [decFast_eq _ _ _ 0 0 0 h1 (by omega), h2]
    have htl : (data.take (varintMaxSize n)).length = varintMaxSize n := by
      rw [List.length_take]; omega
    rw [decSlow_spec _ _ 0 0 0 (by omega) (hw _ (by omega))]
    cases hp : lebPrefix data with
    | none =>
      have : lebPrefix (data.take (varintMaxSize n)) = none := by
        cases hq : lebPrefix (data.take (varintMaxSize n)) with
        | none => rfl
        | some g' =>
          have := lebPrefix_append hq (data.drop (varintMaxSize n))
          rw [List.take_append_drop, hp] at this; cases this
      rw [this]; simp [hl]
    | some g =>
      by_cases hg : g.length ≤ varintMaxSize n
      · rw [lebPrefix_take hp _ hg]; simp [hg]
      · have : lebPrefix (data.take (varintMaxSize n)) = none := by
          cases hq : lebPrefix (data.take (varintMaxSize n)) with
          | none => rfl
          | some g' =>
            have h3 := lebPrefix_append hq (data.drop (varintMaxSize n))
            rw [List.take_append_drop, hp] at h3; cases h3
            have := (lebPrefix_length hq).2
            omega
        rw [this]; simp [hg]

theorem and_80 (b : UInt8) : b.toNat &&& 0x80 = 0 ↔ b.toNat < 128 := by
  have h := b.toNat_lt
  have e80 : (0x80 : Nat) = 2 ^ 7 := rfl
  rw [e80]
  constructor
  · intro h0
    have h1 := congrArg (fun x => Nat.testBit x 7) h0
    simp only [Nat.testBit_and, Nat.testBit_two_pow_self, Bool.and_true, Nat.zero_testBit] at h1
    rw [Nat.testBit_eq_decide_div_mod_eq, decide_eq_false_iff_not] at h1
    omega
  · intro h0
    apply Nat.eq_of_testBit_eq
    intro i
    rw [Nat.testBit_and, Nat.testBit_two_pow, Nat.zero_testBit]
    by_cases hi : 7 = i
    · subst hi
      rw [Nat.testBit_lt_two_pow h0]; rfl
    · simp [hi]

theorem readVarintRaw_eq_decode (n : Nat) (hn : IntWidth n) (data : List UInt8) :
    readVarintRaw n data = decodeVarint n data := by
  cases data with
  | nil => rfl
  | cons b bs =>
    simp only [readVarintRaw]
    split
    · rename_i h
      have hb := (and_80 b).mp h
      rw [decodeVarint_spec n hn]
      have : (1:Nat) ≤ varintMaxSize n := by simp [varintMaxSize]
      have hlt : b.toNat < 2 ^ (8 * n) := by
        rcases hn with rfl | rfl | rfl | rfl <;> (have := b.toNat_lt; omega)
      simp [lebPrefix, hb, this, lebValue]
      rw [Nat.mod_eq_of_lt hb, Nat.mod_eq_of_lt hlt]
    · rfl

theorem readVarintRaw_varintBytes (n v : Nat) (hn : IntWidth n) (hv : v < 2 ^ (8 * n))
    (rest : List UInt8) :
    readVarintRaw n (varintBytes v ++ rest) = .ok v (varintBytes v).length := by
  rw [readVarintRaw_eq_decode n hn, decodeVarint_spec n hn, lebPrefix_varintBytes_append]
  have := varintBytes_length_le_max n v hv
  simp [this, lebValue_varintBytes, Nat.mod_eq_of_lt hv]

/-! ## Zigzag -/

theorem xor_ones (w a : Nat) (h : a < 2 ^ w) : a ^^^ (2 ^ w - 1) = 2 ^ w - 1 - a := by
  apply Nat.eq_of_testBit_eq
  intro i
  have e : 2 ^ w - 1 - a = 2 ^ w - (a + 1) := by omega
  rw [e, Nat.testBit_two_pow_sub_succ h, Nat.testBit_xor, Nat.testBit_two_pow_sub_one]
  by_cases hi : i < w
  · simp [hi]
  · have : a.testBit i = false := Nat.testBit_lt_two_pow (Nat.lt_of_lt_of_le h (Nat.pow_le_pow_right (by omega) (by omega)))
    simp [hi, this]

theorem zzEnc_eq (w x : Nat) (hw : 0 < w) (hx : x < 2 ^ w) : zzEnc w x = zigzag (toSigned w x) := by
  obtain ⟨w, rfl⟩ : ∃ k, w = k + 1 := ⟨w - 1, by omega⟩
  have hp : 2 ^ (w + 1) = 2 * 2 ^ w := by rw [Nat.pow_succ]; omega
  unfold zzEnc zigzag toSigned
  simp only [Nat.add_sub_cancel, Nat.shiftLeft_eq, Nat.pow_one]
  have hcast : ((2 : Int) ^ (w + 1)) = 2 * ((2 ^ w : Nat) : Int) := by
    rw [Int.pow_succ]; simp [Int.mul_comm]
  rw [hcast]
  by_cases h : x < 2 ^ w
  · have hm : x * 2 % 2 ^ (w + 1) = x * 2 := Nat.mod_eq_of_lt (by omega)
    rw [if_neg (by omega), hm, if_pos h, if_pos (by omega)]
    simp; omega
  · have hm : x * 2 % 2 ^ (w + 1) = x * 2 - 2 ^ (w + 1) := by
      rw [Nat.mod_eq_sub_mod (by omega)]
      exact Nat.mod_eq_of_lt (by omega)
    rw [if_pos (by omega), hm, if_neg h, if_neg (by omega), xor_ones _ _ (by omega)]
    omega

theorem zzDec_zzEnc (w x : Nat) (hw : 0 < w) (hx : x < 2 ^ w) : zzDec w (zzEnc w x) = x := by
  obtain ⟨w, rfl⟩ : ∃ k, w = k + 1 := ⟨w - 1, by omega⟩
  have hp : 2 ^ (w + 1) = 2 * 2 ^ w := by rw [Nat.pow_succ]; omega
  have h1 : ∀ y : Nat, y &&& 1 = y % 2 := fun y => Nat.and_two_pow_sub_one_eq_mod y 1
  unfold zzEnc zzDec
  simp only [Nat.add_sub_cancel, Nat.shiftLeft_eq, Nat.pow_one, Nat.shiftRight_eq_div_pow, h1]
  by_cases h : x < 2 ^ w
  · have hm : x * 2 % 2 ^ (w + 1) = x * 2 := Nat.mod_eq_of_lt (by omega)
    rw [if_neg (by omega), hm]
    simp
  · have hm : x * 2 % 2 ^ (w + 1) = x * 2 - 2 ^ (w + 1) := by
      rw [Nat.mod_eq_sub_mod (by omega)]
      exact Nat.mod_eq_of_lt (by omega)
    rw [if_pos (show 2 ^ w ≤ x by omega), hm, xor_ones _ _ (by omega)]
    rw [if_pos (by omega), xor_ones _ _ (by omega)]
    omega

theorem zzEnc_lt (w x : Nat) (_hw : 0 < w) (_hx : x < 2 ^ w) : zzEnc w x < 2 ^ w := by
  unfold zzEnc
  apply Nat.xor_lt_two_pow
  · exact Nat.mod_lt _ (Nat.pow_pos (by omega))
  · split
    · have := Nat.pow_pos (n := w) (show 0 < 2 by omega); omega
    · exact Nat.pow_pos (by omega)

theorem zzDec_lt (w x : Nat) (hx : x < 2 ^ w) : zzDec w x < 2 ^ w := by
  unfold zzDec
  apply Nat.xor_lt_two_pow
  · rw [Nat.shiftRight_eq_div_pow]; omega
  · split
    · have := Nat.pow_pos (n := w) (show 0 < 2 by omega); omega
    · exact Nat.pow_pos (by omega)

theorem zzEnc_zzDec (w x : Nat) (hw : 0 < w) (hx : x < 2 ^ w) : zzEnc w (zzDec w x) = x := by
  obtain ⟨w, rfl⟩ : ∃ k, w = k + 1 := ⟨w - 1, by omega⟩
  have hp : 2 ^ (w + 1) = 2 * 2 ^ w := by rw [Nat.pow_succ]; omega
  have h1 : ∀ y : Nat, y &&& 1 = y % 2 := fun y => Nat.and_two_pow_sub_one_eq_mod y 1
  unfold zzEnc zzDec
  simp only [Nat.add_sub_cancel, Nat.shiftLeft_eq, Nat.pow_one, Nat.shiftRight_eq_div_pow, h1]
  by_cases h : x % 2 = 1
  · rw [if_pos h, xor_ones _ _ (by omega)]
    have hm : (2 ^ (w + 1) - 1 - x / 2) * 2 % 2 ^ (w + 1) = (2 ^ (w + 1) - 1 - x / 2) * 2 - 2 ^ (w + 1) := by
      rw [Nat.mod_eq_sub_mod (by omega)]
      exact Nat.mod_eq_of_lt (by omega)
    rw [hm, if_pos (by omega), xor_ones _ _ (by omega)]
    omega
  · rw [if_neg h, Nat.xor_zero]
    have hm : x / 2 * 2 % 2 ^ (w + 1) = x / 2 * 2 := Nat.mod_eq_of_lt (by omega)
    rw [hm, if_neg (by omega), Nat.xor_zero]
    omega

theorem varintLoad_lt (n : Nat) (zz : Bool) (x : Nat) (hn : 0 < n) (hx : x < 2 ^ (8 * n)) :
    varintLoad n zz x < 2 ^ (8 * n) := by
  unfold varintLoad; split
  · exact zzEnc_lt _ _ (by omega) hx
  · exact hx

theorem varintStore_load (n : Nat) (zz : Bool) (x : Nat) (hn : 0 < n) (hx : x < 2 ^ (8 * n)) :
    varintStore n zz (varintLoad n zz x) = x := by
  unfold varintLoad varintStore; cases zz
  · rfl
  · exact zzDec_zzEnc _ _ (by omega) hx

end Zpp
