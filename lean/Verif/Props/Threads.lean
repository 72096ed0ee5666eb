import Verif.Proof.Threads
/-!
# C113: threads with archives over parts of one memory
-/

namespace Zpp.Props
open Spec

/-- C113. Threads make calls on archives over fixed parts of one memory, where a part that a thread writes to is not shared with another thread (parts that are only
read may overlap in any way). Under every schedule every thread gets from its calls exactly what it would get alone, whether they succeed or fail, its part of the
memory and its positions are what they would be alone, and memory that is in no part written to is not changed. -/
theorem C113_schedule (js : List Nat) (mem : List UInt8) (ts : Nat → Thread) (hm : mem.length < 2 ^ 63)
    (hfix : ∀ i, (ts i).c.g.resizable = false) (hin : ∀ i, (ts i).off + (ts i).len ≤ mem.length) (hpos : ∀ i, (ts i).wpos ≤ (ts i).len)
    (hap : ∀ i j, i ≠ j → hasWrite (ts i).todo = true → NoShare (ts i) (ts j)) :
    let final := runSchedule js mem ts
    (∀ i, let t := ts i
      let alone := Duplex.run t.d t.c t.noFit (t.todo.take (js.count i)) ⟨(mem.drop t.off).take t.len, t.wpos, t.rpos⟩
      (final.2 i).done = t.done ++ alone.1 ∧ (final.2 i).view final.1 = alone.2 ∧ (final.2 i).todo = t.todo.drop (js.count i)) ∧
    ∀ a n, (∀ i, hasWrite (ts i).todo = true → a + n ≤ (ts i).off ∨ (ts i).off + (ts i).len ≤ a) → (final.1.drop a).take n = (mem.drop a).take n :=
  schedule_alone js mem ts hm (fun i => ⟨hfix i, hin i, hpos i⟩) hap

/-- C113: the order of the calls of different threads does not matter. Two schedules that give every thread the same number of turns end with the same results, the
same positions, and the same bytes in every part. -/
theorem C113_order (js js' : List Nat) (mem : List UInt8) (ts : Nat → Thread) (hm : mem.length < 2 ^ 63)
    (hfix : ∀ i, (ts i).c.g.resizable = false) (hin : ∀ i, (ts i).off + (ts i).len ≤ mem.length) (hpos : ∀ i, (ts i).wpos ≤ (ts i).len)
    (hap : ∀ i j, i ≠ j → hasWrite (ts i).todo = true → NoShare (ts i) (ts j)) (hsame : ∀ i, js.count i = js'.count i) (i : Nat) :
    ((runSchedule js mem ts).2 i).done = ((runSchedule js' mem ts).2 i).done ∧
    ((runSchedule js mem ts).2 i).view (runSchedule js mem ts).1 = ((runSchedule js' mem ts).2 i).view (runSchedule js' mem ts).1 := by
  obtain ⟨a1, a2, -⟩ := (C113_schedule js mem ts hm hfix hin hpos hap).1 i
  obtain ⟨b1, b2, -⟩ := (C113_schedule js' mem ts hm hfix hin hpos hap).1 i
  rw [hsame i] at a1 a2
  exact ⟨a1.trans b1.symm, a2.trans b2.symm⟩

/-! ## The hypotheses are met -/

/-- Three threads: two write and read in their parts of a memory of eight bytes, the first runs out of room in between; the third only reads. -/
def exThreads : Nat → Thread
  | 0 => ⟨0, 3, 9, Checks.le Checks.fixed (.fixed 1), false, 0, 0, [.write [(.scalar .int 2, .num 258)], .write [(.scalar .int 2, .num 7)], .read [(.scalar .int 2, .num 0)]], []⟩
  | 1 => ⟨3, 2, 9, Checks.le Checks.fixed (.fixed 1), false, 0, 0, [.write [(.scalar .int 1, .num 9)], .read [(.scalar .int 1, .num 0)]], []⟩
  | 2 => ⟨6, 2, 9, Checks.le Checks.fixed (.fixed 1), false, 0, 0, [.read [(.scalar .int 1, .num 0)], .read [(.scalar .int 2, .num 0)]], []⟩
  | _ => ⟨0, 0, 9, Checks.le Checks.fixed (.fixed 1), false, 0, 0, [], []⟩

example : (∀ i, (exThreads i).c.g.resizable = false) ∧ (∀ i, (exThreads i).off + (exThreads i).len ≤ 8) ∧ (∀ i, (exThreads i).wpos ≤ (exThreads i).len) ∧
    ∀ i j, i ≠ j → hasWrite (exThreads i).todo = true → NoShare (exThreads i) (exThreads j) := by
  refine ⟨fun i => ?_, fun i => ?_, fun i => ?_, fun i j hij hw => ?_⟩
  · match i with | 0 => rfl | 1 => rfl | 2 => rfl | _ + 3 => rfl
  · match i with | 0 => decide | 1 => decide | 2 => decide | _ + 3 => simp [exThreads]
  · match i with | 0 => decide | 1 => decide | 2 => decide | _ + 3 => simp [exThreads]
  · match i, j, hij, hw with
    | 0, 0, h, _ => exact absurd rfl h
    | 0, 1, _, _ => exact .inl (by decide)
    | 0, 2, _, _ => exact .inl (by decide)
    | 0, _ + 3, _, _ => exact .inr (by simp [exThreads])
    | 1, 0, _, _ => exact .inr (by decide)
    | 1, 1, h, _ => exact absurd rfl h
    | 1, 2, _, _ => exact .inl (by decide)
    | 1, _ + 3, _, _ => exact .inr (by simp [exThreads])
    | 2, _, _, hw => exact absurd hw (by decide)
    | _ + 3, _, _, hw => exact absurd hw (by simp [exThreads, hasWrite])

example :
    let mem : List UInt8 := [0, 0, 0, 0, 0, 5, 6, 7]
    let results js := [0, 1, 2].map fun i => ((runSchedule js mem exThreads).2 i).done
    let want : List (List (Status × List Val)) := [[(.ok, []), (.err .resultOutOfRange, []), (.ok, [.num 258])], [(.ok, []), (.ok, [.num 9])],
      [(.ok, [.num 6]), (.err .resultOutOfRange, [.num 0])]]
    results [0, 1, 2, 0, 1, 0, 2] = want ∧ results [2, 2, 1, 1, 0, 0, 0] = want ∧
    (runSchedule [0, 1, 2, 0, 1, 0, 2] mem exThreads).1 = (runSchedule [2, 2, 1, 1, 0, 0, 0] mem exThreads).1 := by decide +kernel

/-- Sharing a part that is written to does make a difference. -/
example :
    let ts (i : Nat) : Thread := if i = 0 then ⟨0, 2, 9, Checks.le Checks.fixed (.fixed 1), false, 0, 0, [.write [(.scalar .int 2, .num 258)]], []⟩
      else ⟨1, 1, 9, Checks.le Checks.fixed (.fixed 1), false, 0, 0, [.read [(.scalar .int 1, .num 0)]], []⟩
    ((runSchedule [0, 1] [0, 0] ts).2 1).done = [(.ok, [.num 1])] ∧ ((runSchedule [1, 0] [0, 0] ts).2 1).done = [(.ok, [.num 0])] := by decide +kernel

end Zpp.Props
