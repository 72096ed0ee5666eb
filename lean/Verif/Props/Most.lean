import Verif.Proof.MostAttained
import Verif.Props.Writable
/-! # C107: a buffer of a size known from the types suffices -/

namespace Zpp.Props
open Zpp Zpp.Spec

/-- C107. Objects of types without containers take at most the number of bytes computed from the types. -/
theorem C107_bound (f : Fmt) (items : List (Ty × Val)) (bs : List UInt8) (m : Nat) (hm : mostBytesL f.dsz (items.map Prod.fst) = some m)
    (hw : wireItems f items = some bs) : bs.length ≤ m := by
  induction items generalizing bs m with
  | nil => cases hw; simp
  | cons it items ih =>
    obtain ⟨t, v⟩ := it
    simp only [wireItems] at hw
    simp only [List.map_cons, mostBytesL] at hm
    obtain ⟨a, b, h1, h2, rfl⟩ := plus_eq hm
    obtain ⟨x, y, h3, h4, rfl⟩ := cat_eq hw
    have := wire_most f t a h1 v x h3
    have := ih y b h2 h4
    simp only [List.length_append]
    omega

/-- C107. Valid objects (with no `bool` other than 0 and 1 and no null owning pointer, `Obstacle`) are written into a buffer that does not grow
whenever that many bytes are left, whatever their values are: the call succeeds, and takes no more than these bytes. -/
theorem C107_fixed (d : Nat) (c : Cfg) (noFit : Bool) (items : List (Ty × Val)) (st : OutSt) (m : Nat) (hfix : c.g.resizable = false)
    (hlen : st.data.length < 2 ^ 63) (hs : Supported c items) (hd : StackOk d items)
    (hb : BitsOk items st) (ho : ∀ it ∈ items, Object c.env c.keyLt it.1 it.2)
    (hn : ∀ it ∈ items, ¬ Obstacle (fmtOf c) it.1 it.2) (hm : mostBytesL c.dsz (items.map Prod.fst) = some m)
    (hroom : st.pos + m ≤ st.data.length) :
    ∃ bs, wireItems (fmtOf c) items = some bs ∧ bs.length ≤ m ∧ outCall d c noFit items st =
      (.ok, ⟨st.data.take st.pos ++ bs ++ st.data.drop (st.pos + bs.length), st.pos + bs.length⟩) := by
  obtain ⟨bs, hw⟩ := wireItems_exists hs.env items hs.types ho hn
  have h1 := C107_bound (fmtOf c) items bs m hm hw
  exact ⟨bs, hw, h1, (C02_fixed_exact d c noFit items st bs hfix (by omega) hlen hs hd hb hw (by omega)).1 (by omega)⟩

/-- C107. No smaller buffer suffices: for types without variants and messages some object takes exactly the bytes computed. -/
theorem C107_attained (f : Fmt) (t : Ty) (m : Nat) (hp : plainTy t = true) (hm : mostBytes f.dsz t = some m) :
    ∃ v bs, wire f t v = some bs ∧ bs.length = m := wire_attained f t m hp hm

/-- The longest varints have the sizes the library announces (`varint_max_size`, zpp_bits.h:1640-1642). -/
theorem C107_varints (n : Nat) (hn : intWidth n = true) : varintMost n = varintMaxSize n ∧ varintMost 1 = 2 ∧ varintMost 2 = 3 ∧
    varintMost 4 = 5 ∧ varintMost 8 = 10 := by
  refine ⟨?_, by decide +kernel⟩
  rcases intWidth_cases hn with rfl | rfl | rfl | rfl <;> decide +kernel

/-- A class with numbers, a varint, an optional member, a variant and a message. -/
def exMost : Ty := .struct false [.scalar .int 4, .varint 8 false, .optional false (.array 3 (.scalar .int 2)),
  .variant (.scalar .int 1) [.num 0, .num 1] [true, true] [.bool, .scalar .int 8], .msg none false [] [none, none] [Checks.vint32, .bool]]

/-- The hypotheses are met: 4 bytes, at most 10, at most 7, at most 9, and at most 1 + 6 + 2. -/
example : mostBytesL (.fixed 1) [exMost] = some 39 := by decide +kernel

/-- A value of this class takes 21 bytes and is written into a buffer of 39. -/
example : wireItems (fmtOf (Checks.le Checks.fixed (.fixed 1))) [(exMost, .list [.num 7, .num 300, .none, .alt 1 (.num 5),
    .list [.num 9, .num 1]])] = some [7, 0, 0, 0, 172, 2, 0, 1, 5, 0, 0, 0, 0, 0, 0, 0, 4, 8, 9, 16, 1] ∧
    outCall 9 (Checks.le Checks.fixed (.fixed 1)) false [(exMost, .list [.num 7, .num 300, .none, .alt 1 (.num 5),
      .list [.num 9, .num 1]])] ⟨List.replicate 39 170, 0⟩ =
    (.ok, ⟨[7, 0, 0, 0, 172, 2, 0, 1, 5, 0, 0, 0, 0, 0, 0, 0, 4, 8, 9, 16, 1] ++ List.replicate 18 170, 21⟩) := by decide +kernel

/-- The hypotheses of `C107_fixed` are met by every number and every varint: 14 bytes suffice. -/
example (x y : Nat) (hx : x < 2 ^ 32) (hy : y < 2 ^ 64) :
    (outCall 9 (Checks.le Checks.fixed (.fixed 4)) false [(.scalar .int 4, .num x), (.varint 8 false, .num y)] ⟨List.replicate 14 0, 0⟩).1 = .ok := by
  obtain ⟨bs, -, -, h⟩ := C107_fixed 9 (Checks.le Checks.fixed (.fixed 4)) false [(.scalar .int 4, .num x), (.varint 8 false, .num y)]
    ⟨List.replicate 14 0, 0⟩ 14 rfl (by simp) ⟨fun h => absurd h (by decide), so_abi, fun _ => ⟨rfl, rfl⟩, by simp; decide⟩
    (by simp [StackOk, depth]) (.inr (by simp))
    (by simp only [List.mem_cons, List.not_mem_nil, or_false, forall_eq_or_imp, forall_eq]; exact ⟨.scalar (by omega), .varint (by omega)⟩)
    (by simp only [List.mem_cons, List.not_mem_nil, or_false, forall_eq_or_imp, forall_eq]
        exact ⟨(by intro h; cases h), (by intro h; cases h)⟩)
    (by show mostBytesL (.fixed 4) [.scalar .int 4, .varint 8 false] = some 14; decide +kernel) (by simp)
  rw [h]

/-- And `C107_attained`: three optional varints of eight bytes take at most 33 bytes, and may take them. -/
example : plainTy (.array 3 (.optional false (.varint 8 true))) = true ∧
    mostBytes (.fixed 4) (.array 3 (.optional false (.varint 8 true))) = some 33 := by decide +kernel

end Zpp.Props
