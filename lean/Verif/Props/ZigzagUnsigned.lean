import Verif.Model.ZigzagUnsigned
import Verif.Props.VarintArchive
/-! # C92: zigzag varints of unsigned types -/

namespace Zpp.Props
open Zpp.Spec

private theorem zzEncU_lo (w x : Nat) (hw : 0 < w) (hx : x < 2 ^ (w - 1)) : zzEncU w x = zzEnc w x := by
  unfold zzEncU zzEnc
  rw [if_neg (by omega), Nat.shiftRight_eq_div_pow, Nat.div_eq_of_lt hx]

private theorem zzEncU_hi (w x : Nat) (hw : 1 < w) (hx : 2 ^ (w - 1) ≤ x) (hl : x < 2 ^ w) :
    3 * 2 ^ (w - 1) - 1 - x < 2 ^ w ∧ 2 ^ (w - 1) ≤ 3 * 2 ^ (w - 1) - 1 - x ∧
    zzEncU w x = zzEnc w (3 * 2 ^ (w - 1) - 1 - x) := by
  obtain ⟨w, rfl⟩ : ∃ k, w = k + 1 := ⟨w - 1, by omega⟩
  have hp : 2 ^ (w + 1) = 2 * 2 ^ w := by rw [Nat.pow_succ]; omega
  simp only [Nat.add_sub_cancel] at *
  refine ⟨by omega, by omega, ?_⟩
  unfold zzEncU zzEnc
  simp only [Nat.add_sub_cancel, Nat.shiftLeft_eq, Nat.pow_one]
  have hd : x >>> w = 1 := by
    rw [Nat.shiftRight_eq_div_pow]
    exact Nat.div_eq_of_lt_le (by omega) (by omega)
  have hm : x * 2 % 2 ^ (w + 1) = (x - 2 ^ w) * 2 := by
    rw [Nat.mod_eq_sub_mod (by omega), Nat.mod_eq_of_lt (by omega)]; omega
  have hm' : (3 * 2 ^ w - 1 - x) * 2 % 2 ^ (w + 1) = (3 * 2 ^ w - 1 - x) * 2 - 2 ^ (w + 1) := by
    rw [Nat.mod_eq_sub_mod (by omega), Nat.mod_eq_of_lt (by omega)]
  rw [hd, hm, if_pos (by omega), hm', xor_ones _ _ (by omega)]
  have : (x - 2 ^ w) * 2 ^^^ 1 = (x - 2 ^ w) * 2 + 1 := by
    have := Nat.two_pow_add_eq_or_of_lt (b := 1) (i := 1) (by omega) (x - 2 ^ w)
    have h2 : (x - 2 ^ w) * 2 % 2 = 0 := by omega
    generalize x - 2 ^ w = y at *
    rw [Nat.mul_comm y 2]
    apply Nat.eq_of_testBit_eq
    intro i
    cases i with
    | zero => simp [Nat.testBit_zero]
    | succ i =>
      rw [Nat.testBit_xor, Nat.testBit_succ, Nat.testBit_succ, Nat.testBit_succ]
      rw [show 2 * y / 2 = y by omega, show (2 * y + 1) / 2 = y by omega]
      simp
  rw [this]
  omega

/-- What is written for `x` is what the signed type writes for the word `y`, and `y` is what comes back. -/
private theorem same_written (c : Cfg) (noFit : Bool) (n x y : Nat) (hn : IntWidth n) (hy : y < 2 ^ (8 * n))
    (h : zzEncU (8 * n) x = zzEnc (8 * n) y) (st : OutSt) :
    outZigzagU c noFit n x st = outCall 2 (Checks.le c.g (.fixed 4)) noFit [(.varint n true, .num y)] st := by
  have hn' : 0 < n ∧ n ≤ 8 := by rcases hn with h | h | h | h <;> omega
  have : encMany 2 (Checks.le c.g (.fixed 4)) [(.varint n true, .num y)] = putVarint c.g n (zzEncU (8 * n) x) := by
    funext st
    simp only [encMany, encode, encVarintVal, varintLoad, if_true, if_pos (And.intro hn'.1 (And.intro hn'.2 hy)), Checks.le, h]
    unfold OutM.andThen OutM.skip
    rcases putVarint c.g n (zzEnc (8 * n) y) st with ⟨s, st1⟩
    cases s <;> rfl
  unfold outZigzagU outCall
  rw [this]
  rfl

private theorem reads_as (c : Cfg) (noFit : Bool) (n x y old : Nat) (st st' : OutSt) (hn : IntWidth n) (hy : y < 2 ^ (8 * n))
    (h : zzEncU (8 * n) x = zzEnc (8 * n) y) (hpos : st.pos ≤ st.data.length) (hlen : st.data.length < 2 ^ 63)
    (hs : GrowthOk c.g) (hok : outZigzagU c noFit n x st = (.ok, st')) :
    inZigzagU n old st'.data st.pos = ⟨.ok, .num y, st'.pos⟩ := by
  rw [same_written c noFit n x y hn hy h st] at hok
  have hn0 : 0 < n := by rcases hn with h | h | h | h <;> omega
  have hle := leb_varintValue n true y hn hy
  have hmin := C19_varint_minimal n (varintLoad n true y) hn (varintLoad_lt n true y hn0 hy)
  have hgood : ∀ z ∈ [(Ty.varint n true, Val.num y)], Good (Checks.le c.g (.fixed 4)) z.1 = true := by
    intro z hz; simp only [List.mem_singleton] at hz; subst hz
    rcases hn with h | h | h | h <;> subst h <;> rfl
  have hst : StackOk 2 [(Ty.varint n true, Val.num y)] := by
    intro z hz; simp only [List.mem_singleton] at hz; subst hz; simp [depth]
  have := C10_round_trip 2 2 (Checks.le c.g (.fixed 4)) (Checks.le c.g (.fixed 4)) noFit [(.varint n true, .num y)]
    [(.varint n true, .num old)] st st' (varintBytes (varintLoad n true y)) rfl hpos hlen
    ⟨hs, so_abi, fun _ => ⟨rfl, rfl⟩, hgood⟩ hst (Or.inl (by intro z hz; simp only [List.mem_singleton] at hz; subst hz; rfl))
    (by simp only [wireItems, wire, wireNum, if_pos hy, cat, List.append_nil]; rw [← hle])
    (by
      have := hmin.2.2.2.2
      unfold varintMaxSize at this
      rcases hn with h | h | h | h <;> subst h <;> omega)
    hok ⟨so_abi, fun _ => ⟨rfl, rfl⟩, hgood, by
      intro z hz; simp only [List.mem_singleton] at hz; subst hz; simp [Loadable]⟩ hst rfl
  simp only [decMany, decode] at this
  unfold inZigzagU
  rcases hr : getVarint n true (.num old) st'.data st.pos with ⟨s, v, p⟩
  rw [hr] at this
  cases s <;> simp_all

/-- C92. Writing a `varint<Type, zig_zag>` of an unsigned type and reading it back ends at the right position, but gives back the
value if and only if its top bit is clear. The value `x` that comes back otherwise is the one with `x + y = 3 * 2^(w-1) - 1`. -/
theorem C92_iff (c : Cfg) (noFit : Bool) (n x old : Nat) (st st' : OutSt) (hn : IntWidth n) (hx : x < 2 ^ (8 * n))
    (hpos : st.pos ≤ st.data.length) (hlen : st.data.length < 2 ^ 63) (hs : GrowthOk c.g)
    (hok : outZigzagU c noFit n x st = (.ok, st')) :
    ∃ y, inZigzagU n old st'.data st.pos = ⟨.ok, .num y, st'.pos⟩ ∧ y < 2 ^ (8 * n) ∧ (y = x ↔ x < 2 ^ (8 * n - 1)) ∧
      (2 ^ (8 * n - 1) ≤ x → x + y = 3 * 2 ^ (8 * n - 1) - 1) := by
  have hw : 1 < 8 * n := by rcases hn with h | h | h | h <;> omega
  by_cases h : x < 2 ^ (8 * n - 1)
  · exact ⟨x, reads_as c noFit n x x old st st' hn hx (zzEncU_lo _ _ (by omega) h) hpos hlen hs hok, hx, by simp [h],
      fun h' => by omega⟩
  · obtain ⟨h1, h2, h3⟩ := zzEncU_hi (8 * n) x hw (by omega) hx
    refine ⟨_, reads_as c noFit n x _ old st st' hn h1 h3 hpos hlen hs hok, h1, ?_, fun _ => ?_⟩
    · have hp : 2 ^ (8 * n - 1) = 2 * 2 ^ (8 * n - 2) := by
        rw [show 8 * n - 1 = (8 * n - 2) + 1 by omega, Nat.pow_succ]; omega
      have hq : 0 < 2 ^ (8 * n - 2) := Nat.pow_pos (by omega)
      generalize 2 ^ (8 * n - 1) = A at *
      generalize 2 ^ (8 * n - 2) = B at *
      constructor <;> intro <;> omega
    · have hp : 2 ^ (8 * n) = 2 * 2 ^ (8 * n - 1) := by
        rw [show 8 * n = (8 * n - 1) + 1 by omega, Nat.pow_succ]; simp; omega
      omega

/-- C92, the part that holds: values with a clear top bit come back, whatever the object read into held, and are written with
the bytes of the signed type. -/
theorem C92_small_partial (c : Cfg) (noFit : Bool) (n x old : Nat) (st st' : OutSt) (hn : IntWidth n) (hx : x < 2 ^ (8 * n - 1))
    (hpos : st.pos ≤ st.data.length) (hlen : st.data.length < 2 ^ 63) (hs : GrowthOk c.g)
    (hok : outZigzagU c noFit n x st = (.ok, st')) :
    inZigzagU n old st'.data st.pos = ⟨.ok, .num x, st'.pos⟩ ∧
    ∃ g, st'.pos = st.pos + g.length ∧ (st'.data.take st'.pos).drop st.pos = g ∧ IsLeb g ∧ lebValue g = 2 * x := by
  have hw : 1 < 8 * n := by rcases hn with h | h | h | h <;> omega
  have hp : 2 ^ (8 * n) = 2 * 2 ^ (8 * n - 1) := by
    rw [show 8 * n = (8 * n - 1) + 1 by omega, Nat.pow_succ]; simp; omega
  have hx' : x < 2 ^ (8 * n) := by omega
  have he := zzEncU_lo (8 * n) x (by omega) hx
  refine ⟨reads_as c noFit n x x old st st' hn hx' he hpos hlen hs hok, ?_⟩
  rw [same_written c noFit n x x hn hx' he st] at hok
  obtain ⟨g, h1, h2, h3, h4, _⟩ := C19_written 2 (Checks.le c.g (.fixed 4)) noFit n x true st st' hn hx' hpos hlen
    ⟨hs, so_abi, fun _ => ⟨rfl, rfl⟩, by
      intro z hz; simp only [List.mem_singleton] at hz; subst hz
      rcases hn with h | h | h | h <;> subst h <;> rfl⟩ (by omega) hok
  refine ⟨g, h2, h1, h3, ?_⟩
  rw [h4]
  simp only [if_true, zigzag, toSigned, if_pos hx]
  rw [if_pos (by omega)]
  omega

/-- C92, false in general: 2^31 written as `varint<std::uint32_t, zig_zag>` comes back as 2^32 - 1. -/
theorem C92_top_bit : outZigzagU (Checks.le Checks.grow (.fixed 4)) false 4 (2 ^ 31) ⟨[], 0⟩ = (.ok, ⟨[1], 1⟩) ∧
    inZigzagU 4 0 [1] 0 = ⟨.ok, .num (2 ^ 32 - 1), 1⟩ := by decide +kernel

/-- The hypotheses hold for values of both kinds. -/
example : GrowthOk (Checks.le Checks.grow (.fixed 4)).g ∧
    outZigzagU (Checks.le Checks.grow (.fixed 4)) false 2 300 ⟨[7], 1⟩ = (.ok, ⟨[7, 216, 4], 3⟩) ∧
    inZigzagU 2 0 [7, 216, 4] 1 = ⟨.ok, .num 300, 3⟩ ∧
    outZigzagU (Checks.le Checks.grow (.fixed 4)) false 2 (2 ^ 16 - 1) ⟨[7], 1⟩ = (.ok, ⟨[7, 255, 255, 3], 4⟩) ∧
    inZigzagU 2 0 [7, 255, 255, 3] 1 = ⟨.ok, .num (2 ^ 15), 4⟩ := by
  refine ⟨grow_ok, ?_⟩
  decide +kernel

end Zpp.Props
