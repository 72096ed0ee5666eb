import Verif.Proof.OutSlack
import Verif.Props.Output
/-!
# `exact_enlarger`
-/

namespace Zpp.Props
open Zpp Zpp.Spec

/-- C55, weaker than stated: with `exact_enlarger` and without variable length integers, calls that start at the end of the
buffer leave the position at the end of the buffer, whatever their outcome. Missing: variable length integers and
positions inside the buffer, for which it fails (`C55_varint`, `C55_inside`). -/
theorem C55_exact_partial (d : Nat) (c : Cfg) (noFit : Bool) (items : List (Ty × Val)) (st : OutSt)
    (hg : GrowthLaws c.g) (hr : c.g.resizable = true) (hm : c.g.mul = 1) (hd : c.g.div = 1)
    (hpos : st.pos = st.data.length) (hlen : st.data.length < 2 ^ 63)
    (henv : ∀ i, noVarint c.dsz (c.env i) = true) (hno : ∀ x ∈ items, noVarint c.dsz x.1 = true) :
    (outCall d c noFit items st).2.data.length = (outCall d c noFit items st).2.pos := by
  have h := encMany_exact d ⟨hg, hr, hm, hd⟩ henv items hno st ⟨by omega, hlen⟩ hpos
  unfold outCall fitCall
  rw [if_neg (by simp [hm, hd])]
  exact h.symm

/-- A growing buffer with `exact_enlarger`. -/
def exactGrow : Growth := { Checks.grow with mul := 1, div := 1 }

theorem exactGrow_laws : GrowthLaws exactGrow := ⟨by decide, by decide, by decide, rfl, by decide⟩

example : (∀ x ∈ [((.seq .vector none (.scalar .int 2) : Ty), Val.list [.num 1])], noVarint (.fixed 4) x.1 = true) ∧
    outCall 20 (Checks.le exactGrow (.fixed 4)) false [(.seq .vector none (.scalar .int 2), .list [.num 1])] ⟨[9, 9], 2⟩ =
      (.ok, ⟨[9, 9, 1, 0, 0, 0, 1, 0], 8⟩) := by decide +kernel

/-- C55 fails for variable length integers: the buffer grows for the longest encoding, and is not fitted afterwards. One byte is
written, four more stay behind it. -/
theorem C55_varint : ∃ (c : Cfg) (items : List (Ty × Val)) (st : OutSt),
    GrowthLaws c.g ∧ c.g.resizable = true ∧ c.g.mul = 1 ∧ c.g.div = 1 ∧ st.pos = st.data.length ∧
    outCall 20 c false items st = (.ok, ⟨[1, 0, 0, 0, 0], 1⟩) := by
  refine ⟨Checks.le exactGrow (.fixed 4), [(.varint 4 false, .num 1)], ⟨[], 0⟩, exactGrow_laws, ?_⟩
  decide +kernel

/-- C55 fails inside a buffer: four bytes written at position 1 of a buffer of three bytes leave it seven bytes long, because
the buffer is enlarged by the size of the whole object. -/
theorem C55_inside : ∃ (c : Cfg) (items : List (Ty × Val)) (st : OutSt),
    GrowthLaws c.g ∧ c.g.resizable = true ∧ c.g.mul = 1 ∧ c.g.div = 1 ∧ st.pos ≤ st.data.length ∧
    outCall 20 c false items st = (.ok, ⟨[9, 1, 0, 0, 0, 0, 0], 5⟩) := by
  refine ⟨Checks.le exactGrow (.fixed 4), [(.scalar .int 4, .num 1)], ⟨[9, 9, 9], 1⟩, exactGrow_laws, ?_⟩
  decide +kernel

/-- C55, weaker than stated: for objects of every type, variable length integers and messages included, from any
position and whatever the outcome, `exact_enlarger` leaves at most eighteen unused bytes behind the position, or as
many as there were before the call. Missing: zero instead of eighteen, for which it fails (`C55_unused_sharp`). -/
theorem C55_unused_partial (d : Nat) (c : Cfg) (noFit : Bool) (items : List (Ty × Val)) (st : OutSt)
    (hg : GrowthLaws c.g) (hr : c.g.resizable = true) (hm : c.g.mul = 1) (hd : c.g.div = 1)
    (hpos : st.pos ≤ st.data.length) (hlen : st.data.length < 2 ^ 63) :
    (outCall d c noFit items st).2.data.length - (outCall d c noFit items st).2.pos ≤
      max (st.data.length - st.pos) 18 := by
  have h := encMany_near d c (fun _ => hg) (track_unused ⟨hg, hr, hm, hd⟩) items st ⟨hpos, hlen⟩
  unfold outCall fitCall
  rw [if_neg (by simp [hm, hd])]
  omega

/-- Two short variable length integers do leave eighteen unused bytes, and then no more are added. -/
theorem C55_unused_sharp :
    outCall 20 (Checks.le exactGrow (.fixed 4)) false [(.varint 8 false, .num 1), (.varint 8 false, .num 2)] ⟨[], 0⟩ =
      (.ok, ⟨[1, 2] ++ List.replicate 18 0, 2⟩) ∧
    outCall 20 (Checks.le exactGrow (.fixed 4)) false [(.varint 8 false, .num 3), (.array 20 (.scalar .int 1),
        .list (List.replicate 20 (.num 9)))] ⟨[1, 2] ++ List.replicate 18 0, 2⟩ =
      (.ok, ⟨[1, 2, 3] ++ List.replicate 20 9 ++ List.replicate 17 0, 23⟩) := by decide +kernel

/-! ## Memory of a growing buffer -/

/-- A history of calls on one archive; each may or may not fit the buffer. -/
def callAll (d : Nat) (c : Cfg) : List (Bool × List (Ty × Val)) → OutSt → OutSt
  | [], st => st
  | (noFit, items) :: rest, st => callAll d c rest (outCall d c noFit items st).2

/-- C65. After any history of calls with any outcomes the buffer is no longer than it was at the beginning or than
`mul / div` times twice the data plus eighteen bytes: with the default enlarger 3/2 three times the data plus 27. -/
theorem C65_memory (d : Nat) (c : Cfg) (calls : List (Bool × List (Ty × Val))) (st : OutSt)
    (hg : GrowthLaws c.g) (hpos : st.pos ≤ st.data.length) (hlen : st.data.length < 2 ^ 63) :
    (callAll d c calls st).data.length ≤
      max st.data.length (2 * ((callAll d c calls st).pos + 9) * c.g.mul / c.g.div) := by
  have key : ∀ (calls : List (Bool × List (Ty × Val))) (st : OutSt), Valid st →
      st.pos ≤ (callAll d c calls st).pos ∧
      (callAll d c calls st).data.length ≤
        max st.data.length (2 * ((callAll d c calls st).pos + 9) * c.g.mul / c.g.div) := by
    intro calls
    induction calls with
    | nil => intro st _; exact ⟨Nat.le_refl _, by simp only [callAll]; omega⟩
    | cons x rest ih =>
      intro st hv
      obtain ⟨noFit, items⟩ := x
      simp only [callAll]
      have hs := outCall_safe d c (fun _ => hg) noFit items st hv
      have h1 := encMany_near d c (fun _ => hg) track_linear items st hv
      have h2 := outCall_len_le (d := d) (fun _ => hg) noFit items hv
      have h3 := (outCall_state (d := d) (fun _ => hg) noFit items hv).1
      have hm := hs.mono
      obtain ⟨i1, i2⟩ := ih _ (hs.valid (fun _ => hg) hv)
      rw [← h3] at h1
      have mono : 2 * ((outCall d c noFit items st).2.pos + 9) * c.g.mul / c.g.div ≤
          2 * ((callAll d c rest (outCall d c noFit items st).2).pos + 9) * c.g.mul / c.g.div :=
        Nat.div_le_div_right (Nat.mul_le_mul_right _ (by omega))
      omega
  exact (key calls st ⟨hpos, hlen⟩).2

example : callAll 20 (Checks.le Checks.grow .varint) [(true, [(.varint 8 false, .num 1)]), (true, [(.varint 2 false, .num 2)])] ⟨[], 0⟩ =
      ⟨[1, 2] ++ List.replicate 13 0, 2⟩ ∧ 2 * (2 + 9) * Checks.grow.mul / Checks.grow.div = 33 := by decide +kernel

end Zpp.Props
