import Verif.Model.Raw
import Verif.Proof.OutCall
import Verif.Proof.ConstEval
import Verif.Checks
/-!
# Raw memory
-/

namespace Zpp.Props
open Zpp Zpp.Spec

theorem raw_size {r : Raw} (h : r.count * r.item ≤ r.mem.length) (hm : r.mem.length < 2 ^ 63) : r.size = r.count * r.item :=
  Nat.mod_eq_of_lt (by omega)

/-- C69. A count of items that exist: writing `bytes` is writing a block with exactly the memory of these items. -/
theorem C69_block (g : Growth) (r : Raw) (h : r.count * r.item ≤ r.mem.length) (hm : r.mem.length < 2 ^ 63) :
    rawOut g r = putBytes g (r.mem.take (r.count * r.item)) := by
  funext st
  have hl : (r.mem.take (r.count * r.item)).length = r.count * r.item := by rw [List.length_take]; omega
  simp only [rawOut, putBytes, put, raw_size h hm, hl]
  split
  · rfl
  · simp only [OutM.andThen]

/-- C69, output to a fixed buffer. Succeeds if and only if there is room; then exactly the memory of the items stands behind
the old position and nothing else has changed. Otherwise nothing has changed. -/
theorem C69_fixed (g : Growth) (r : Raw) (st : OutSt) (hr : g.resizable = false) (h : r.count * r.item ≤ r.mem.length)
    (hm : r.mem.length < 2 ^ 63) (hpos : st.pos ≤ st.data.length) :
    rawOut g r st =
      if st.pos + r.count * r.item ≤ st.data.length then
        (.ok, ⟨st.data.take st.pos ++ r.mem.take (r.count * r.item) ++ st.data.drop (st.pos + r.count * r.item),
          st.pos + r.count * r.item⟩)
      else (.err .resultOutOfRange, st) := by
  have hl : (r.mem.take (r.count * r.item)).length = r.count * r.item := by rw [List.length_take]; omega
  rw [C69_block g r h hm]
  simp only [putBytes, put, hl]
  by_cases h0 : r.count * r.item = 0
  · rw [if_pos h0]
    simp [h0, OutM.skip, hpos]
  · rw [if_neg h0]
    simp only [OutM.andThen, claim, hr, Bool.false_eq_true, if_false, subSz_of_le hpos]
    rw [if_neg (by omega)]
    by_cases hroom : st.pos + r.count * r.item ≤ st.data.length
    · rw [if_neg (by omega), if_pos hroom]
      simp only [memcpyAt, hl, hroom, if_true]
    · rw [if_pos (by omega), if_neg hroom]

/-- C69, output to any buffer, with success: the memory of the items stands behind the old position, the data before is
kept. -/
theorem C69_written (g : Growth) (r : Raw) (st st' : OutSt) (hg : GrowthOk g) (h : r.count * r.item ≤ r.mem.length)
    (hm : r.mem.length < 2 ^ 63) (hpos : st.pos ≤ st.data.length) (hlen : st.data.length < 2 ^ 63)
    (hok : rawOut g r st = (.ok, st')) :
    st'.pos = st.pos + r.count * r.item ∧ st'.pos ≤ st'.data.length ∧ st'.data.take st.pos = st.data.take st.pos ∧
    (st'.data.drop st.pos).take (r.count * r.item) = r.mem.take (r.count * r.item) := by
  have hl : (r.mem.take (r.count * r.item)).length = r.count * r.item := by rw [List.length_take]; omega
  rw [C69_block g r h hm] at hok
  by_cases h0 : r.count * r.item = 0
  · have hz : st = st' := by
      have : putBytes g (r.mem.take (r.count * r.item)) = OutM.skip := by rw [putBytes, if_pos (by omega)]
      rw [this] at hok
      exact (Prod.mk.inj hok).2
    subst hz
    simp [h0, hpos]
  · have hp : put g (r.mem.take (r.count * r.item)) st = (.ok, st') := by
      simpa only [putBytes, hl, if_neg h0] using hok
    have hs := put_safe hg (r.mem.take (r.count * r.item)) st ⟨hpos, hlen⟩
    rw [hp] at hs
    simp only [put, OutM.andThen] at hp
    split at hp
    · rename_i st1 hc
      simp only [memcpyAt, hl] at hp
      split at hp
      · rename_i hroom
        simp only [Prod.mk.injEq, true_and] at hp
        have hp1 : st1.pos = st.pos := by
          have := claim_pos g (r.mem.take (r.count * r.item)).length st
          rwa [hc] at this
        subst hp
        refine ⟨by simp only [hp1], hs.inb, hs.keep, ?_⟩
        simp only [hp1] at hroom ⊢
        have h1 : (st1.data.take st.pos).length = st.pos := by rw [List.length_take]; omega
        rw [List.append_assoc, List.drop_append, List.drop_eq_nil_of_le (by omega), h1, Nat.sub_self, List.drop_zero,
          List.nil_append, List.take_append_of_le_length (by omega), List.take_of_length_le (by omega)]
      · cases hp
    · rename_i hx
      exact (hx _ hp).elim

/-- C69, input. With enough input the first `count` items get their memory from it, the memory behind them is not touched,
and the position moves by as much; otherwise `result_out_of_range`, and nothing is touched. -/
theorem C69_read (r : Raw) (data : List UInt8) (p : Nat) (h : r.count * r.item ≤ r.mem.length) (hm : r.mem.length < 2 ^ 63)
    (hp : p ≤ data.length) :
    rawIn r data p =
      if p + r.count * r.item ≤ data.length then
        (.ok, (data.drop p).take (r.count * r.item) ++ r.mem.drop (r.count * r.item), p + r.count * r.item)
      else (.err .resultOutOfRange, r.mem, p) := by
  simp only [rawIn, raw_size h hm, subSz_of_le hp]
  by_cases h0 : r.count * r.item = 0
  · simp [h0, hp]
  · rw [if_neg h0]
    by_cases hroom : p + r.count * r.item ≤ data.length
    · rw [if_neg (by omega), if_pos ⟨hroom, h⟩, if_pos hroom]
    · rw [if_pos (by omega), if_neg hroom]

/-- C69, round trip. What `bytes` wrote from some items, `bytes` with as many bytes reads into others. -/
theorem C69_round_trip (g : Growth) (r q : Raw) (st st' : OutSt) (hg : GrowthOk g) (h : r.count * r.item ≤ r.mem.length)
    (hm : r.mem.length < 2 ^ 63) (hpos : st.pos ≤ st.data.length) (hlen : st.data.length < 2 ^ 63)
    (hok : rawOut g r st = (.ok, st')) (hq : q.count * q.item = r.count * r.item) (hq' : q.count * q.item ≤ q.mem.length)
    (hqm : q.mem.length < 2 ^ 63) :
    rawIn q st'.data st.pos =
      (.ok, r.mem.take (r.count * r.item) ++ q.mem.drop (r.count * r.item), st'.pos) := by
  obtain ⟨h1, h2, -, h4⟩ := C69_written g r st st' hg h hm hpos hlen hok
  rw [C69_read q st'.data st.pos hq' hqm (by omega), hq, if_pos (by omega), h4, h1]

/-- C69, whole objects. `bytes(items)` and `as_bytes(object)` hand over all of the memory: what was written is the memory,
and reading it into an object of the same size gives exactly the same memory, whatever was there. -/
theorem C69_all (g : Growth) (mem other : List UInt8) (item item' : Nat) (st st' : OutSt) (hg : GrowthOk g)
    (hi : item ∣ mem.length) (hi' : item' ∣ other.length) (hsame : other.length = mem.length)
    (hm : mem.length < 2 ^ 63) (hpos : st.pos ≤ st.data.length) (hlen : st.data.length < 2 ^ 63)
    (hok : rawOut g (Raw.all mem item) st = (.ok, st')) :
    st'.pos = st.pos + mem.length ∧ (st'.data.drop st.pos).take mem.length = mem ∧
    rawIn (Raw.all other item') st'.data st.pos = (.ok, mem, st'.pos) := by
  have hc : (Raw.all mem item).count * (Raw.all mem item).item = mem.length := Nat.div_mul_cancel hi
  have hc' : (Raw.all other item').count * (Raw.all other item').item = mem.length := by
    rw [← hsame]; exact Nat.div_mul_cancel hi'
  have hmem : (Raw.all mem item).mem = mem := rfl
  have hother : (Raw.all other item').mem = other := rfl
  have hw := C69_written g (Raw.all mem item) st st' hg (by rw [hc]; exact Nat.le_refl _) hm hpos hlen hok
  have hr := C69_round_trip g (Raw.all mem item) (Raw.all other item') st st' hg (by rw [hc]; exact Nat.le_refl _) hm
    hpos hlen hok (by rw [hc, hc']) (by rw [hc', hother, hsame]; exact Nat.le_refl _) (by rw [hother, hsame]; exact hm)
  rw [hc] at hw hr
  rw [hmem] at hw hr
  refine ⟨hw.1, by simpa using hw.2.2.2, ?_⟩
  rw [hr, hother, ← hsame]
  simp [hsame]

/-- An array of two `int`s, read back as four `short`s. -/
example : 4 ∣ [1, 0, 0, 0, 2, 0, 0, 0].length ∧ 2 ∣ [9, 9, 9, 9, 9, 9, 9, 9].length ∧
    rawOut Checks.grow (Raw.all [1, 0, 0, 0, 2, 0, 0, 0] 4) ⟨[], 0⟩ =
      (.ok, ⟨[1, 0, 0, 0, 2, 0, 0, 0, 0, 0, 0, 0], 8⟩) ∧
    rawIn (Raw.all [9, 9, 9, 9, 9, 9, 9, 9] 2) [1, 0, 0, 0, 2, 0, 0, 0, 0, 0, 0, 0] 0 =
      (.ok, [1, 0, 0, 0, 2, 0, 0, 0], 8) := by decide +kernel

/-- Two `int`s of an array of three, written and read back into another array. -/
example : rawOut Checks.grow ⟨[1, 0, 0, 0, 2, 0, 0, 0, 3, 0, 0, 0], 4, 2⟩ ⟨[], 0⟩ =
      (.ok, ⟨[1, 0, 0, 0, 2, 0, 0, 0, 0, 0, 0, 0], 8⟩) ∧
    rawIn ⟨[9, 9, 9, 9, 9, 9, 9, 9, 9, 9], 1, 8⟩ [1, 0, 0, 0, 2, 0, 0, 0, 0, 0, 0, 0] 0 =
      (.ok, [1, 0, 0, 0, 2, 0, 0, 0, 9, 9], 8) := by decide +kernel

/-- C69, the limit of the guarantee: a count larger than the number of items is not noticed, but reads (or writes) behind
the items. -/
theorem C69_count_not_checked (g : Growth) (r : Raw) (st : OutSt) (data : List UInt8) (p : Nat) (hr : g.resizable = false)
    (h : r.mem.length < r.count * r.item) (hm : r.count * r.item < 2 ^ 63) (hroom : st.pos + r.count * r.item ≤ st.data.length)
    (hp : p + r.count * r.item ≤ data.length) : (rawOut g r st).1 = .ub ∧ (rawIn r data p).1 = .ub := by
  have hs : r.size = r.count * r.item := Nat.mod_eq_of_lt (by omega)
  constructor
  · simp only [rawOut, hs]
    rw [if_neg (by omega)]
    simp only [OutM.andThen, claim, hr, Bool.false_eq_true, if_false]
    rw [if_neg (by omega), subSz_of_le (by omega), if_neg (by omega)]
    simp only
    rw [if_neg (by omega)]
  · simp only [rawIn, hs]
    rw [if_neg (by omega), subSz_of_le (by omega), if_neg (by omega), if_neg (by omega)]

/-- C69: a count so large that the size in bytes wraps is taken for a small one: success, and nothing is written. -/
theorem C69_size_wraps : rawOut Checks.grow ⟨[1, 0, 0, 0], 4, 2 ^ 62⟩ ⟨[], 0⟩ = (.ok, ⟨[], 0⟩) ∧
    rawIn ⟨[1, 0, 0, 0], 4, 2 ^ 62⟩ [] 0 = (.ok, [1, 0, 0, 0], 0) := ⟨by decide +kernel, by decide +kernel⟩

end Zpp.Props
