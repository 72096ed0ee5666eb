import Verif.Proof.Float
import Verif.Props.Memo
import Verif.Props.Sort
import Verif.Checks
/-!
# C123: floating point numbers
-/

namespace Zpp.Props
open Spec

/-- Floating point numbers, by their bits, as objects. -/
def floats (f : FloatFmt) (xs : List Nat) : List (Ty × Val) := xs.map fun x => (.scalar .int f.bytes, .num x)

theorem floats_wire (f : FloatFmt) (g : Fmt) (xs : List Nat) (h : ∀ x ∈ xs, x < 2 ^ (8 * f.bytes)) :
    wireItems g (floats f xs) = some (xs.map fun x => digits g.order f.bytes x).flatten := by
  induction xs with
  | nil => rfl
  | cons x xs ih =>
    have hx := h x List.mem_cons_self
    have e : 256 ^ f.bytes = 2 ^ (8 * f.bytes) := by rw [Nat.pow_mul]
    have ih := ih fun y hy => h y (List.mem_cons_of_mem _ hy)
    rw [floats] at ih ⊢
    simp only [List.map_cons, wireItems, wire, wireNum, ih, List.flatten_cons]
    rw [if_pos (by omega)]
    rfl

theorem floats_length (f : FloatFmt) (g : Fmt) (xs : List Nat) : (xs.map fun x => digits g.order f.bytes x).flatten.length = xs.length * f.bytes := by
  induction xs with
  | nil => simp
  | cons x xs ih =>
    simp only [List.map_cons, List.flatten_cons, List.length_append, ih, digits_length, List.length_cons, Nat.succ_mul]
    omega

theorem floats_good {f : FloatFmt} (hf : f.ok) (c : Cfg) (xs : List Nat) : ∀ x ∈ floats f xs, Good c x.1 = true := by
  intro x hx
  obtain ⟨y, _, rfl⟩ := List.mem_map.1 hx
  have : 0 < f.bytes := by have := hf.1; omega
  simp [Good, nodeOk, scalarOk, this]

theorem floats_load (f : FloatFmt) (c : Cfg) (xs : List Nat) : ∀ x ∈ floats f xs, Loadable c x.1 x.2 := by
  intro x hx
  obtain ⟨y, _, rfl⟩ := List.mem_map.1 hx
  simp [Loadable]

theorem floats_stack {d : Nat} (hd : 2 ≤ d) (f : FloatFmt) (xs : List Nat) : StackOk d (floats f xs) := by
  intro x hx
  obtain ⟨y, _, rfl⟩ := List.mem_map.1 hx
  simp only [depth]; omega

theorem floats_clean (f : FloatFmt) (xs : List Nat) : ∀ x ∈ floats f xs, noBits x.2 = true := by
  intro x hx
  obtain ⟨y, _, rfl⟩ := List.mem_map.1 hx
  rfl

/-- C123. Floating point numbers are restored bit by bit: also those that are not numbers, infinities, subnormal numbers and zeros of both signs. Writer and reader may
be hosts of different byte orders. -/
theorem C123_restored (d d' : Nat) (co ci : Cfg) (noFit : Bool) (f : FloatFmt) (xs old : List Nat) (st st' : OutSt) (hf : f.ok) (hfmt : fmtOf ci = fmtOf co)
    (hx : ∀ x ∈ xs, x < 2 ^ (8 * f.bytes)) (hold : old.length = xs.length) (hl : xs.length * f.bytes < 2 ^ 63) (hv : Valid st) (hs : Supported co []) (hr : Readable ci [])
    (hd : 2 ≤ d) (hd' : 2 ≤ d') (hok : outCall d co noFit (floats f xs) st = (.ok, st')) :
    decMany d' ci st'.data (floats f old) st.pos = ⟨.ok, xs.map Val.num, st'.pos⟩ := by
  have h := C10_round_trip d d' co ci noFit (floats f xs) (floats f old) st st' _ hfmt hv.pos_le hv.len_lt ⟨hs.growth, hs.abi, hs.env, floats_good hf co xs⟩
    (floats_stack hd f xs) (Or.inl (floats_clean f xs)) (floats_wire f _ xs hx) (by rw [floats_length]; exact hl) hok
    ⟨hr.abi, hr.env, floats_good hf ci xs, floats_load f ci xs⟩ (floats_stack hd' f xs)
    (by
      have e : ∀ l : List Nat, (floats f l).map Prod.fst = List.replicate l.length (.scalar .int f.bytes) := by
        intro l
        rw [floats, List.map_map, ← List.map_const']
        rfl
      rw [e, e, hold])
  rw [h]
  congr 1
  simp only [floats, List.map_map]
  exact List.map_congr_left fun _ _ => rfl

/-- C123, equality. Equal bytes come from equal bits; numbers that are equal in C++ have equal bytes, but for zeros of different signs. -/
theorem C123_equal (d d' : Nat) (c c' : Cfg) (noFit noFit' : Bool) (f : FloatFmt) (x y : Nat) (s t s' t' : OutSt) (hf : f.ok) (hfmt : fmtOf c = fmtOf c')
    (hx : x < 2 ^ (8 * f.bytes)) (hy : y < 2 ^ (8 * f.bytes)) (hv : Valid s) (hv' : Valid s') (hs : Supported c []) (hs' : Supported c' [])
    (hd : 2 ≤ d) (hd' : 2 ≤ d') (hok : outCall d c noFit (floats f [x]) s = (.ok, t)) (hok' : outCall d' c' noFit' (floats f [y]) s' = (.ok, t')) :
    ((t.data.take t.pos).drop s.pos = (t'.data.take t'.pos).drop s'.pos ↔ x = y) ∧
    (f.eq x y → x = y ∨ f.number x = 0 ∧ f.negative x ≠ f.negative y) := by
  have hx' : ∀ z ∈ [x], z < 2 ^ (8 * f.bytes) := fun z hz => by rw [List.mem_singleton.1 hz]; exact hx
  have hy' : ∀ z ∈ [y], z < 2 ^ (8 * f.bytes) := fun z hz => by rw [List.mem_singleton.1 hz]; exact hy
  have hn : f.bytes ≤ 16 := by
    have := hf.2.2
    simp only [List.mem_cons, List.not_mem_nil, or_false] at this
    omega
  refine ⟨?_, ?_⟩
  · have h := C120_identify d d' c c' noFit noFit' (floats f [x]) (floats f [y]) s t s' t' _ _ hfmt rfl hv hv' ⟨hs.growth, hs.abi, hs.env, floats_good hf c _⟩
      ⟨hs'.growth, hs'.abi, hs'.env, floats_good hf c' _⟩ (floats_stack hd f _) (floats_stack hd' f _) (Or.inl (floats_clean f _)) (Or.inl (floats_clean f _))
      (floats_wire f _ [x] hx') (floats_wire f _ [y] hy') (by rw [floats_length, List.length_singleton]; omega) (by rw [floats_length, List.length_singleton]; omega)
      ⟨hs.abi, hs.env, floats_good hf c _, floats_load f c _⟩ ⟨hs.abi, hs.env, floats_good hf c _, floats_load f c _⟩ hok hok'
    rw [h]
    simp [floats]
  · rintro ⟨_, _, he⟩
    have ex := magnitude_low f x
    have ey := magnitude_low f y
    have hinj : ∀ a b : Nat, magAt f.frac a = magAt f.frac b → a = b := by
      intro a b h
      have h1 := magAt_lt_iff (m := f.frac) (a := a) (b := b)
      have h2 := magAt_lt_iff (m := f.frac) (a := b) (b := a)
      omega
    have h0 := magAt_zero f.frac
    unfold FloatFmt.number at he ⊢
    rw [ex, ey] at he
    rw [ex]
    have hxy := hinj (x % 2 ^ (f.exp + f.frac)) (y % 2 ^ (f.exp + f.frac))
    rcases low_bits hf hx with ⟨nx, lx, _⟩ | ⟨nx, lx⟩ <;> rcases low_bits hf hy with ⟨ny, ly, _⟩ | ⟨ny, ly⟩ <;>
      simp only [nx, ny, if_true, if_false, Bool.false_eq_true] at he ⊢
    · left
      have := hxy (by omega)
      omega
    · right
      exact ⟨by omega, by simp⟩
    · right
      exact ⟨by omega, by simp⟩
    · left
      have := hxy (by omega)
      omega

/-- C123, order. In big endian byte order, the bytes of numbers that are not negative sort like the numbers, those of negative numbers sort the other way, and behind all
others. -/
theorem C123_sorted (d d' : Nat) (c : Cfg) (noFit : Bool) (f : FloatFmt) (x y : Nat) (a b : OutSt) (hf : f.ok) (hbig : (fmtOf c).order = .big)
    (henv : ∀ i, sorts (c.env i) = true) (hx : x < 2 ^ (8 * f.bytes)) (hy : y < 2 ^ (8 * f.bytes)) (hnx : ¬ f.nan x) (hny : ¬ f.nan y) (hs : Supported c [])
    (hd : 2 ≤ d) (hd' : 2 ≤ d') (ha : outCall d c noFit (floats f [x]) ⟨[], 0⟩ = (.ok, a)) (hb : outCall d' c noFit (floats f [y]) ⟨[], 0⟩ = (.ok, b)) :
    (f.negative x = false → f.negative y = false → (a.data.take a.pos < b.data.take b.pos ↔ f.lt x y)) ∧
    (f.negative x = true → f.negative y = true → (a.data.take a.pos < b.data.take b.pos ↔ f.lt y x)) ∧
    (f.negative x = false → f.negative y = true → a.data.take a.pos < b.data.take b.pos) := by
  have hx' : ∀ z ∈ [x], z < 2 ^ (8 * f.bytes) := fun z hz => by rw [List.mem_singleton.1 hz]; exact hx
  have hy' : ∀ z ∈ [y], z < 2 ^ (8 * f.bytes) := fun z hz => by rw [List.mem_singleton.1 hz]; exact hy
  have hn : f.bytes ≤ 16 := by
    have := hf.2.2
    simp only [List.mem_cons, List.not_mem_nil, or_false] at this
    omega
  have key := C100_sorted d d' c noFit [.scalar .int f.bytes] [.num x] [.num y] a b _ _ hbig rfl henv rfl rfl
    ⟨hs.growth, hs.abi, hs.env, floats_good hf c [x]⟩ ⟨hs.growth, hs.abi, hs.env, floats_good hf c [y]⟩ (floats_stack hd f [x]) (floats_stack hd' f [y])
    (floats_wire f _ [x] hx') (floats_wire f _ [y] hy') (by rw [floats_length, List.length_singleton]; omega) (by rw [floats_length, List.length_singleton]; omega) ha hb
  have hbits : a.data.take a.pos < b.data.take b.pos ↔ x < y := by
    rw [key]
    refine ⟨fun h => ?_, fun h => .here _ _ _ (.scalar _ _ h)⟩
    cases h with
    | here _ _ _ h => cases h with | scalar _ _ h => exact h
    | later _ _ h => cases h
  rw [hbits]
  unfold FloatFmt.lt FloatFmt.number
  rw [magnitude_low f x, magnitude_low f y]
  have m1 := magAt_lt_iff (m := f.frac) (a := x % 2 ^ (f.exp + f.frac)) (b := y % 2 ^ (f.exp + f.frac))
  have m2 := magAt_lt_iff (m := f.frac) (a := y % 2 ^ (f.exp + f.frac)) (b := x % 2 ^ (f.exp + f.frac))
  rcases low_bits hf hx with ⟨nx, lx, bx⟩ | ⟨nx, lx⟩ <;> rcases low_bits hf hy with ⟨ny, ly, by'⟩ | ⟨ny, ly⟩ <;>
    simp only [nx, ny, if_true, if_false, Bool.false_eq_true, hnx, hny, not_false_eq_true, true_and, reduceCtorEq, false_implies, and_true, forall_const] <;> omega

/-- Zeros of different signs are equal in C++, but not their bytes. -/
theorem C123_zeros_refuted :
    let bytes := fun (x : Nat) => (outCall 9 (Checks.le Checks.grow (.fixed 4)) false (floats binary64 [x]) ⟨[], 0⟩).2.data
    binary64.eq 0 (2 ^ 63) ∧ bytes 0 = [0, 0, 0, 0, 0, 0, 0, 0] ∧ bytes (2 ^ 63) = [0, 0, 0, 0, 0, 0, 0, 128] := by
  refine ⟨⟨?_, ?_, ?_⟩, ?_, ?_⟩ <;> first | (unfold FloatFmt.nan; decide +kernel) | decide +kernel

/-- `long double` on x86: the number is in 10 of the 16 bytes, the others are padding. The padding is written: equal numbers have different bytes, which depend on what
was in memory. -/
theorem C123_padding_refuted :
    let bytes := fun (x : Nat) => (outCall 9 (Checks.le Checks.grow (.fixed 4)) false [(.scalar .int 16, .num x)] ⟨[], 0⟩).2.data
    let x := 1; let y := 1 + 2 ^ 80 * 0xdeadbeef
    x % 2 ^ 80 = y % 2 ^ 80 ∧ bytes x = [1, 0, 0, 0, 0, 0, 0, 0, 0, 0, 0, 0, 0, 0, 0, 0] ∧
    bytes y = [1, 0, 0, 0, 0, 0, 0, 0, 0, 0, 0xef, 0xbe, 0xad, 0xde, 0, 0] := by decide +kernel

/-! ## The hypotheses are met -/

example : binary32.ok ∧ binary64.ok := by unfold FloatFmt.ok; decide

/-- 1.0f, 1.5f, -1.0f, a signalling NaN, the smallest subnormal number, infinity. -/
example :
    binary32.number 0x3f800000 = 2 ^ 149 ∧ binary32.number 0x3fc00000 = 3 * 2 ^ 148 ∧ binary32.number 0xbf800000 = -2 ^ 149 ∧
    binary32.number 1 = 1 ∧ binary32.number 0x7f800000 = 2 ^ 277 ∧ binary32.exponent 0x7fa00000 = 255 ∧ binary32.fraction 0x7fa00000 ≠ 0 := by decide +kernel

/-- Written in big endian byte order: 1.0f is in front of 1.5f, and this in front of -1.0f. -/
example :
    let bytes := fun (x : Nat) => (outCall 9 bigArchive false (floats binary32 [x]) ⟨[], 0⟩)
    bytes 0x3f800000 = (.ok, ⟨[0x3f, 0x80, 0, 0], 4⟩) ∧ bytes 0x3fc00000 = (.ok, ⟨[0x3f, 0xc0, 0, 0], 4⟩) ∧ bytes 0xbf800000 = (.ok, ⟨[0xbf, 0x80, 0, 0], 4⟩) ∧
    (fmtOf bigArchive).order = .big ∧
    decMany 9 bigArchive [0x3f, 0x80, 0, 0, 0x7f, 0xa0, 0, 0] (floats binary32 [0, 0]) 0 = ⟨.ok, [.num 0x3f800000, .num 0x7fa00000], 8⟩ := by decide +kernel

example : Supported bigArchive [] ∧ Readable bigArchive [] :=
  ⟨⟨grow_ok, so_abi, fun _ => ⟨rfl, rfl⟩, nofun⟩, ⟨so_abi, fun _ => ⟨rfl, rfl⟩, nofun, nofun⟩⟩

end Zpp.Props
