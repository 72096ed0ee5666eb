import Verif.Props.RoundTrip
import Verif.Props.Varint
/-! # C19, C20 and C21 through archives -/

namespace Zpp.Props
open Zpp.Spec

theorem IsLeb.tail {b : UInt8} {g : List UInt8} (h : IsLeb (b :: g)) : (b.toNat < 128 ∧ g = []) ∨ (128 ≤ b.toNat ∧ IsLeb g) := by
  unfold IsLeb at *
  simp only [lebPrefix] at h
  split at h
  · rename_i hb
    simp only [Option.some.injEq, List.cons.injEq, true_and] at h
    exact Or.inl ⟨hb, h.symm⟩
  · rename_i hb
    refine Or.inr ⟨by omega, ?_⟩
    cases hp : lebPrefix g with
    | none => simp [hp] at h
    | some g' =>
      simp only [hp, Option.map_some, Option.some.injEq, List.cons.injEq, true_and] at h
      rw [h]

/-- Group strings of the same length denoting the same number are equal. -/
theorem leb_unique : ∀ (g g' : List UInt8), IsLeb g → IsLeb g' → g.length = g'.length → lebValue g = lebValue g' → g = g'
  | [], [], _, _, _, _ => rfl
  | [], _ :: _, _, _, h, _ => by simp at h
  | _ :: _, [], _, _, h, _ => by simp at h
  | b :: g, b' :: g', h1, h2, hl, hv => by
    simp only [lebValue] at hv
    have e1 : b.toNat % 128 = b'.toNat % 128 := by omega
    have e2 : lebValue g = lebValue g' := by omega
    have l1 := b.toNat_lt
    have l2 := b'.toNat_lt
    simp only [List.length_cons, Nat.add_right_cancel_iff] at hl
    rcases IsLeb.tail h1 with ⟨a1, rfl⟩ | ⟨a1, a2⟩
    · have : g' = [] := List.eq_nil_of_length_eq_zero hl.symm
      subst this
      rcases IsLeb.tail h2 with ⟨b1, _⟩ | ⟨_, b2⟩
      · rw [UInt8.toNat_inj.mp (show b.toNat = b'.toNat by omega)]
      · simp [IsLeb, lebPrefix] at b2
    · rcases IsLeb.tail h2 with ⟨_, rfl⟩ | ⟨b1, b2⟩
      · have : g = [] := List.eq_nil_of_length_eq_zero hl
        subst this
        simp [IsLeb, lebPrefix] at a2
      · rw [UInt8.toNat_inj.mp (show b.toNat = b'.toNat by omega), leb_unique g g' a2 b2 hl e2]

/-- C19, through an archive. A call that writes a varint of `n` bytes holding the word `x` appends one LEB128 group string.
It denotes `x`, or the zigzag image of the signed value of `x`. Every other group string denoting the same number is longer.
Its length is `varint_size` of that number, at most `varint_max_size`. -/
theorem C19_written (d : Nat) (c : Cfg) (noFit : Bool) (n x : Nat) (zz : Bool) (st st' : OutSt) (hn : IntWidth n)
    (hx : x < 2 ^ (8 * n)) (hpos : st.pos ≤ st.data.length) (hlen : st.data.length < 2 ^ 63)
    (hs : Supported c [(.varint n zz, .num x)]) (hd : 2 ≤ d)
    (hok : outCall d c noFit [(.varint n zz, .num x)] st = (.ok, st')) :
    let v := if zz then zigzag (toSigned (8 * n) x) else x
    ∃ g, (st'.data.take st'.pos).drop st.pos = g ∧ st'.pos = st.pos + g.length ∧ IsLeb g ∧ lebValue g = v ∧
      (∀ g', IsLeb g' → lebValue g' = v → g' = g ∨ g.length < g'.length) ∧
      g.length = varintSize n v ∧ g.length ≤ varintMaxSize n := by
  intro v
  have hn0 : 0 < n := by rcases hn with h | h | h | h <;> omega
  have hv : v = varintLoad n zz x := varintValue_eq n zz x hn0 hx
  have hvl := varintLoad_lt n zz x hn0 hx
  have hle : leb v = varintBytes v := by
    have := leb_varintValue n zz x hn hx
    rw [← hv] at this; exact this
  rw [← hv] at hvl
  have hmin := C19_varint_minimal n v hn hvl
  have hw : wireItems (fmtOf c) [(.varint n zz, .num x)] = some (varintBytes v) := by
    simp only [wireItems, wire, wireNum, if_pos hx, cat, List.append_nil]
    rw [← hle]; rfl
  have hl : (varintBytes v).length < 2 ^ 63 := by
    have := hmin.2.2.2.2
    unfold varintMaxSize at this
    rcases hn with h | h | h | h <;> subst h <;> omega
  obtain ⟨h1, k, h2⟩ := C04_growing_appends d c noFit _ st st' _ hpos hlen hs
    (by intro y hy; simp only [List.mem_singleton] at hy; subst hy; simpa [depth] using hd)
    (Or.inl (by intro y hy; simp only [List.mem_singleton] at hy; subst hy; rfl)) hw hl hok
  refine ⟨varintBytes v, ?_, h1, hmin.1, hmin.2.1, ?_, hmin.2.2.2.1.symm, hmin.2.2.2.2⟩
  · rw [h1, h2, List.append_assoc, List.append_assoc, List.take_append, List.drop_append]
    simp [Nat.min_eq_left hpos, Nat.add_sub_cancel_left]
  · intro g' hg hgv
    have := hmin.2.2.1 g' hg hgv
    rcases Nat.lt_or_ge (varintBytes v).length g'.length with h | h
    · exact Or.inr h
    · exact Or.inl (leb_unique _ _ hg hmin.1 (by omega) (by rw [hgv, hmin.2.1]))

example : Supported (Checks.le Checks.grow (.fixed 4)) [(.varint 4 true, .num (2 ^ 32 - 3))] ∧
    outCall 2 (Checks.le Checks.grow (.fixed 4)) false [(.varint 4 true, .num (2 ^ 32 - 3))] ⟨[7], 1⟩ = (.ok, ⟨[7, 5], 2⟩) := by
  refine ⟨⟨grow_ok, so_abi, fun _ => ⟨rfl, rfl⟩, ?_⟩, by decide +kernel⟩
  intro x hx; simp only [List.mem_singleton] at hx; subst hx; rfl

/-- C21, through an archive. Reading a varint at any position inside any input: the first group string behind the position is
taken if it is not longer than `varint_max_size`; the value is the word whose unsigned value (zigzag image) is the number
denoted, reduced to the width. Otherwise the read fails, with `value_too_large` or, if fewer bytes remain,
`result_out_of_range`, and both the destination and the position are what they were. -/
theorem C21_archive (d : Nat) (c : Cfg) (n : Nat) (zz : Bool) (old : Val) (data : List UInt8) (p : Nat) (hn : IntWidth n)
    (hp : p ≤ data.length) :
    let r := decode (d + 1) c (.varint n zz) old data p
    match lebPrefix (data.drop p) with
    | some g =>
      if g.length ≤ varintMaxSize n then
        ∃ x, r = ⟨.ok, .num x, p + g.length⟩ ∧ x < 2 ^ (8 * n) ∧
          (if zz then zigzag (toSigned (8 * n) x) else x) = lebValue g % 2 ^ (8 * n)
      else r = ⟨.err .valueTooLarge, old, p⟩
    | none =>
      r = ⟨.err (if data.length - p < varintMaxSize n then .resultOutOfRange else .valueTooLarge), old, p⟩ := by
  have hn0 : 0 < n := by rcases hn with h | h | h | h <;> omega
  intro r
  have hr : r = getVarint n zz old data p := by simp only [r, decode]
  rw [hr]
  unfold getVarint
  rw [if_neg (by omega), (C21_varint_decoder n hn (data.drop p)).2]
  cases hg : lebPrefix (data.drop p) with
  | none =>
    simp only [List.length_drop]
    by_cases h : data.length - p < varintMaxSize n
    · simp only [if_pos h]
    · simp only [if_neg h]
  | some g =>
    simp only
    split
    · have hlt : lebValue g % 2 ^ (8 * n) < 2 ^ (8 * n) := Nat.mod_lt _ (Nat.pow_pos (by decide))
      refine ⟨_, rfl, ?_, ?_⟩
      · unfold varintStore; split
        · exact zzDec_lt _ _ hlt
        · exact hlt
      · cases zz
        · rfl
        · simp only [varintStore, if_true]
          rw [← zzEnc_eq _ _ (by omega) (zzDec_lt _ _ hlt), zzEnc_zzDec _ _ (by omega) hlt]
    · rfl

example : decode 1 (Checks.le Checks.grow (.fixed 4)) (.varint 4 true) (.num 77) [1, 0x85, 0x02, 9] 1 =
      ⟨.ok, .num (2 ^ 32 - 131), 3⟩ ∧
    decode 1 (Checks.le Checks.grow (.fixed 4)) (.varint 4 true) (.num 77) [1, 0x85, 0x82] 1 =
      ⟨.err .resultOutOfRange, .num 77, 1⟩ := by decide +kernel

end Zpp.Props
