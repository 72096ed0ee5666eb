import Verif.Proof.InCall
import Verif.Spec.Input
import Verif.Checks
/-!
# Properties of input archives: arbitrary bytes

`decMany d c data items p` is `in(items...)` at position `p` of the input `data`: every item is a type and the object
the destination held before.
-/

namespace Zpp.Props
open Zpp Zpp.Spec

/-- C13. Reading any destinations from any bytes at any position inside the input ends with one of the documented
outcomes (undefined behaviour and endless loops are not among them), and the position stays between its old value
and the input size. -/
theorem C13_safe (d : Nat) (c : Cfg) (data : List UInt8) (items : List (Ty × Val)) (p : Nat)
    (henv : ∀ i, widthsOk (c.env i) = true) (hw : ∀ it ∈ items, widthsOk it.1 = true) (hp : p ≤ data.length) :
    let r := decMany d c data items p
    InOutcome r.s ∧ p ≤ r.p ∧ r.p ≤ data.length :=
  let h := decMany_safe (d := d) henv items p hw hp
  ⟨h.code, h.mono, h.inb⟩

/-- C13, over histories: the position stays inside the input whatever was read before. -/
theorem C13_history (d : Nat) (c : Cfg) (data : List UInt8) (a b : Nat) (henv : ∀ i, widthsOk (c.env i) = true)
    (ha : a ≤ data.length) (h : InReach d c data a b) : b ≤ data.length := by
  induction h with
  | init => exact ha
  | call items hw _ ih => exact (decMany_safe henv items _ hw ih).inb
  | seek p _ hp _ => exact hp

-- A vector announcing 2^32 - 1 elements, an unterminated varint, a variant with an unknown id.
example : widthsOk (.seq .vector none Checks.i32) = true ∧
    decMany 9 (Checks.le { Checks.grow with maxMem := 2 ^ 60 } (.fixed 1)) [2, 1, 0, 0, 0, 9, 9]
      [(.seq .vector none Checks.i32, .list [])] 0 = ⟨.err .resultOutOfRange, [.list [.num 0, .num 0]], 1⟩ := by
  decide +kernel
example : decMany 9 (Checks.le Checks.grow (.fixed 4)) [7, 0x80, 0x80] [(Checks.chr, .num 0), (.varint 4 false, .num 5)] 0 =
    ⟨.err .resultOutOfRange, [.num 7, .num 5], 1⟩ := by decide +kernel
example : decMany 9 (Checks.le Checks.grow (.fixed 4)) [3, 7] [(.variant Checks.chr [.num 0, .num 1] [true, true]
    [.bool, Checks.chr], .alt 1 (.num 5))] 0 = ⟨.err .badMessage, [.alt 1 (.num 5)], 1⟩ := by decide +kernel

/-- C32. Reading a protobuf message from any bytes: documented outcomes only, the position stays inside the input. -/
theorem C32_pb_safe (d : Nat) (c : Cfg) (data : List UInt8) (sz : Option SizeTy) (ok : Bool) (maps : List (Nat × Nat))
    (nums : List (Option Nat)) (fs : List Ty) (old : Val) (p : Nat) (henv : ∀ i, widthsOk (c.env i) = true)
    (hw : ∀ t ∈ fs, widthsOk t = true) (hp : p ≤ data.length) :
    let r := decode d c (.msg sz ok maps nums fs) old data p
    InOutcome r.s ∧ p ≤ r.p ∧ r.p ≤ data.length := by
  have hl : widthsOkL fs = true := by
    clear henv hp
    induction fs with
    | nil => rfl
    | cons t ts ih =>
      simp only [widthsOkL, Bool.and_eq_true]
      exact ⟨hw t (by simp), ih fun t' h => hw t' (by simp [h])⟩
  have h := decode_safe d c (.msg sz ok maps nums fs) old data p henv (by simpa [widthsOk] using hl) hp
  exact ⟨h.code, h.mono, h.inb⟩

-- Field 1 (a string) announces 200 bytes, only two are present.
example : decode 9 (Checks.le Checks.grow .none) (Checks.msg [Checks.str, Checks.vint32]) (.list [.list [], .num 0])
    [0x10, 7, 0x0a, 200, 1, 65, 66] 0 = ⟨.err .resultOutOfRange, .list [.list (List.replicate 200 (.num 0)), .num 7], 5⟩ := by
  decide +kernel

/-- C15. Outcome and position do not depend on what the destinations held before, and neither do the objects read
when the call succeeds. `oldFree` excludes exactly the types documented to use the old contents: protobuf messages,
mutable spans and containers without size prefix. -/
theorem C15_destination_irrelevant (d : Nat) (c : Cfg) (data : List UInt8) (items items' : List (Ty × Val)) (p : Nat)
    (habi : AbiOk c.sizeof) (henv : ∀ i, oldFree c.dsz (c.env i) = true)
    (hty : items.map Prod.fst = items'.map Prod.fst) (hf : ∀ it ∈ items, oldFree c.dsz it.1 = true) :
    let r := decMany d c data items p
    let r' := decMany d c data items' p
    r.s = r'.s ∧ r.p = r'.p ∧ (r.s = .ok → r.vs = r'.vs) :=
  let h := decMany_old habi.pos henv items items' p hty hf
  ⟨h.s, h.p, h.v⟩

example : oldFree (.fixed 1) (.optional true (.seq .vector none Checks.i32)) = true ∧
    decode 9 (Checks.le Checks.grow (.fixed 1)) (.optional true (.seq .vector none Checks.i32)) .none
      [1, 1, 5, 0, 0, 0, 9] 0 = ⟨.ok, .some (.list [.num 5]), 6⟩ ∧
    decode 9 (Checks.le Checks.grow (.fixed 1)) (.optional true (.seq .vector none Checks.i32))
      (.some (.list [.num 1, .num 2])) [1, 1, 5, 0, 0, 0, 9] 0 = ⟨.ok, .some (.list [.num 5]), 6⟩ := by decide +kernel

/-- C11. A successful call depends only on the bytes it consumed: wherever these bytes stand in another input, and
whatever the destinations hold, the call succeeds there with the same objects and consumes the same bytes. -/
theorem C11_local (d : Nat) (c : Cfg) (data : List UInt8) (items : List (Ty × Val)) (p : Nat)
    (habi : AbiOk c.sizeof) (henv : ∀ i, widthsOk (c.env i) = true ∧ selfDelimiting c.dsz (c.env i) = true)
    (hty : ∀ it ∈ items, widthsOk it.1 = true ∧ selfDelimiting c.dsz it.1 = true) (hp : p ≤ data.length)
    (hok : (decMany d c data items p).s = .ok) :
    let r := decMany d c data items p
    let consumed := (data.drop p).take (r.p - p)
    consumed.length = r.p - p ∧
    ∀ (before after : List UInt8) (items' : List (Ty × Val)), items'.map Prod.fst = items.map Prod.fst →
      decMany d c (before ++ consumed ++ after) items' before.length =
        ⟨.ok, r.vs, before.length + consumed.length⟩ := by
  have hl := decMany_loc (d := d) (c := c) habi.pos henv (items.map Prod.fst) (by
    intro t ht
    obtain ⟨it, hi, rfl⟩ := List.mem_map.mp ht
    exact hty it hi)
  generalize hr : decMany d c data items p = r at *
  obtain ⟨s, vs, p1⟩ := r
  dsimp only at hok ⊢
  subst hok
  obtain ⟨w, rest, h1, h2, h3⟩ := hl ⟨items, rfl⟩ data p vs p1 hp (by dsimp only; rw [hr]; rfl)
  have hw : (data.drop p).take (p1 - p) = w := by rw [h1, h2]; simp
  rw [hw]
  refine ⟨by omega, ?_⟩
  intro before after items' hit
  have h4 := (h3 ⟨items', hit⟩).full (before ++ w ++ after) before.length after (by simp) (by simp)
  dsimp only at h4
  generalize decMany d c (before ++ w ++ after) items' before.length = r' at *
  obtain ⟨s', vs', p'⟩ := r'
  cases h4
  rfl

example : selfDelimiting (.fixed 1) (.seq .vector none Checks.i32) = true ∧
    decMany 9 (Checks.le Checks.grow (.fixed 1)) [9, 1, 5, 0, 0, 0, 8] [(.seq .vector none Checks.i32, .list [])] 1 =
      ⟨.ok, [.list [.num 5]], 6⟩ ∧
    decMany 9 (Checks.le Checks.grow (.fixed 1)) [1, 5, 0, 0, 0, 7, 7] [(.seq .vector none Checks.i32, .list [.num 3])] 0 =
      ⟨.ok, [.list [.num 5]], 5⟩ := by decide +kernel

/-- C14 for arbitrary accepted byte strings. If a call succeeds on an input, then on every input that ends before the
last byte the call consumed, the same call fails with `result_out_of_range`. -/
theorem C14_truncated (d : Nat) (c : Cfg) (data : List UInt8) (items : List (Ty × Val)) (p : Nat)
    (habi : AbiOk c.sizeof) (henv : ∀ i, widthsOk (c.env i) = true ∧ selfDelimiting c.dsz (c.env i) = true)
    (hty : ∀ it ∈ items, widthsOk it.1 = true ∧ selfDelimiting c.dsz it.1 = true) (hp : p ≤ data.length)
    (hok : (decMany d c data items p).s = .ok) :
    ∀ n, p ≤ n → n < (decMany d c data items p).p → ∀ items', items'.map Prod.fst = items.map Prod.fst →
      (decMany d c (data.take n) items' p).s = .err .resultOutOfRange := by
  intro n hn hn2 items' hit
  have hl := decMany_loc (d := d) (c := c) habi.pos henv (items.map Prod.fst) (by
    intro t ht
    obtain ⟨it, hi, rfl⟩ := List.mem_map.mp ht
    exact hty it hi)
  generalize hr : decMany d c data items p = r at *
  obtain ⟨s, vs, p1⟩ := r
  dsimp only at hok hn2
  subst hok
  obtain ⟨w, rest, h1, h2, h3⟩ := hl ⟨items, rfl⟩ data p vs p1 hp (by dsimp only; rw [hr]; rfl)
  have hlen : p + w.length ≤ data.length := by
    have := congrArg List.length h1
    simp at this; omega
  refine (h3 ⟨items', hit⟩).cut (data.take n) p (w.drop (n - p)) (by simp; omega) ?_ ?_
  · have hn3 : (data.take n).drop p = w.take (n - p) := by
      rw [List.drop_take, h1, List.take_append_of_le_length (by omega)]
    rw [hn3, List.take_append_drop]
  · intro h
    have := congrArg List.length h
    simp at this; omega

example : decMany 9 (Checks.le Checks.grow (.fixed 1)) [1, 5, 0, 0] [(.seq .vector none Checks.i32, .list [.num 3])] 0 =
      ⟨.err .resultOutOfRange, [.list [.num 3]], 1⟩ := by decide +kernel

end Zpp.Props
