import Verif.Proof.LogFile
import Verif.Props.Output
/-!
# C112: a log file that survives crashes
-/

namespace Zpp.Props
open Spec

/-- C112. Records of one type are appended to a growing buffer, whose processed bytes go to a file; crashes at any points leave any initial parts of the file.
The program finds after every crash exactly the records that are complete within the bytes left, and in the end the file holds the encodings of exactly the
records that should be there. Encodings of records are not empty, and there is room for all records appended. -/
theorem C112_recovers (d : Nat) (c : Cfg) (noFit : Bool) (dests : List (Ty × Val)) (ops : List LogOp) (total : Nat) (hres : c.g.resizable = true)
    (hr : Receivable d c (appended ops)) (hsome : ∀ r ∈ appended ops, (wireItems (fmtOf c) r).isSome)
    (hty : ∀ r ∈ appended ops, r.map Prod.fst = dests.map Prod.fst) (hs : ∀ r ∈ appended ops, Supported c r)
    (hne : ∃ r b, Receivable d c [r] ∧ dests.map Prod.fst = r.map Prod.fst ∧ wireItems (fmtOf c) r = some b ∧ b ≠ [] ∧ b.length < 2 ^ 63)
    (htot : ((appended ops).map fun r => (wireItems (fmtOf c) r).getD []).flatten.length ≤ total) (hlt : total < 2 ^ 63)
    (hlim : LimitRoom c.g total) (hmem : MemRoom c.g total) :
    let ideal := logIdeal (fmtOf c) ops []
    ∃ st, logRun d c noFit true dests ops ⟨[], 0⟩ = some (ideal.1, st) ∧ wireItems (fmtOf c) ideal.2.flatten = some (st.data.take st.pos) := by
  obtain ⟨v0, b0, h1, h2, h3, h4, h5⟩ := hne
  obtain ⟨st, i1, i2⟩ := logRun_spec (noFit := noFit) h1 h3 h4 h5 h2 hres ops [] ⟨[], 0⟩ total hr hsome hty hs htot hlt hlim hmem
    ⟨Nat.le_refl _, by simp, [], rfl, rfl, rfl⟩ (by simp)
  obtain ⟨b, e1, -, e2⟩ := i2.body
  exact ⟨st, i1, by rw [e1, ← e2, List.drop_zero]⟩

/-- What `complete` means: so many encodings are complete within `n` bytes, and no more. -/
theorem C112_complete (bss : List (List UInt8)) (n j : Nat) (hj : j ≤ bss.length) :
    j ≤ complete bss n ↔ (bss.take j).flatten.length ≤ n := by
  induction bss generalizing n j with
  | nil => simp at hj; subst hj; simp
  | cons b bs ih =>
    cases j with
    | zero => simp
    | succ j =>
      simp only [List.length_cons, Nat.add_le_add_iff_right] at hj
      simp only [complete, List.take_succ_cons, List.flatten_cons, List.length_append]
      by_cases h : b.length ≤ n
      · rw [if_pos h, Nat.add_le_add_iff_right, ih (n - b.length) j hj]
        omega
      · rw [if_neg h]
        omega

/-! ## Cutting the buffer is needed -/

/-- Without cutting the buffer after a crash, bytes of the lost record come back: a bitset is written into the bytes that are there. A record with all bits set is
appended; a crash leaves one of its two bytes, so no record is found. Then a record without any bit set is appended; after a crash that leaves all bytes, a record
is found that was never appended. -/
theorem C112_uncut_refuted :
    let c := Checks.le Checks.grow (.fixed 1)
    let ops : List LogOp := [.append [(.bitset 16, .bits (List.replicate 16 true))], .crash 1, .append [(.bitset 16, .bits (List.replicate 16 false))], .crash 9]
    let found cut := (logRun 9 c false cut [(.bitset 16, .bits (List.replicate 16 false))] ops ⟨[], 0⟩).map (·.1)
    (logIdeal (fmtOf c) ops []).1 = [[], [[.bits (List.replicate 16 false)]]] ∧
    found true = some [[], [[.bits (List.replicate 16 false)]]] ∧
    found false = some [[], [[.bits (List.replicate 8 true ++ List.replicate 8 false)]]] := by decide +kernel

/-! ## The hypotheses are met -/

/-- Three records are appended; a crash cuts the third; another record is appended; a crash leaves everything; a crash leaves nothing. -/
example :
    let c := Checks.le Checks.grow (.fixed 1)
    let r (s : List UInt8) (n : Nat) : List (Ty × Val) := [(Checks.str, Checks.strV s), (.scalar .int 1, .num n)]
    let ops : List LogOp := [.append (r [65] 1), .append (r [] 2), .append (r [66, 67] 3), .crash 8, .append (r [68] 4), .crash 99, .crash 0, .append (r [] 5)]
    let v (s : List UInt8) (n : Nat) : List Val := [Checks.strV s, .num n]
    (logIdeal (fmtOf c) ops []).1 = [[v [65] 1, v [] 2], [v [65] 1, v [] 2, v [68] 4], []] ∧
    (logRun 9 c false true (r [] 0) ops ⟨[], 0⟩).map (·.1) = some [[v [65] 1, v [] 2], [v [65] 1, v [] 2, v [68] 4], []] ∧
    (logRun 9 c false true (r [] 0) ops ⟨[], 0⟩).map (fun x => x.2.data.take x.2.pos) = some [0, 5] ∧
    (appended ops).map (wireItems (fmtOf c)) = [some [1, 65, 1], some [0, 2], some [2, 66, 67, 3], some [1, 68, 4], some [0, 5]] := by decide +kernel

/-- The other hypotheses, for records of this kind. -/
example :
    let c := Checks.le Checks.grow (.fixed 1)
    let r (s : List UInt8) (n : Nat) : List (Ty × Val) := [(Checks.str, Checks.strV s), (.scalar .int 1, .num n)]
    Receivable 9 c [r [65] 1, r [] 2] ∧ (∀ x ∈ [r [65] 1, r [] 2], Supported c x) ∧ LimitRoom c.g 14 ∧ MemRoom c.g 14 ∧ c.g.resizable = true := by
  refine ⟨⟨?_, ?_, fun _ => ⟨rfl, rfl⟩, ?_⟩, ?_, ?_, ?_, rfl⟩
  · intro m hm
    simp only [List.mem_cons, List.not_mem_nil, or_false] at hm
    refine ⟨so_abi, fun _ => ⟨rfl, rfl⟩, ?_, ?_⟩ <;> intro x hx <;> rcases hm with rfl | rfl <;>
      simp only [List.mem_cons, List.not_mem_nil, or_false] at hx <;> rcases hx with rfl | rfl <;>
      first | rfl | simp [Loadable, LoadableL, Checks.str, Checks.strV, Fits, Checks.le, Checks.grow, Checks.so, Checks.chr]
  · intro m hm x hx
    simp only [List.mem_cons, List.not_mem_nil, or_false] at hm
    rcases hm with rfl | rfl <;> simp only [List.mem_cons, List.not_mem_nil, or_false] at hx <;> rcases hx with rfl | rfl <;> decide
  · intro m hm x hx
    simp only [List.mem_cons, List.not_mem_nil, or_false] at hm
    rcases hm with rfl | rfl <;> simp only [List.mem_cons, List.not_mem_nil, or_false] at hx <;> rcases hx with rfl | rfl <;> exact ⟨rfl, rfl⟩
  · intro m hm
    simp only [List.mem_cons, List.not_mem_nil, or_false] at hm
    refine ⟨grow_ok, so_abi, fun _ => ⟨rfl, rfl⟩, ?_⟩
    intro x hx
    rcases hm with rfl | rfl <;> simp only [List.mem_cons, List.not_mem_nil, or_false] at hx <;> rcases hx with rfl | rfl <;> rfl
  · simp [LimitRoom, Checks.le, Checks.grow, sizeMax]
  · simp [MemRoom, Checks.le, Checks.grow, sizeMax]

end Zpp.Props
