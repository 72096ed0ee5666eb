import Verif.Proof.TwoSlots
/-!
# C114: atomic updates by two slots
-/

namespace Zpp.Props
open Spec

/-- C114. The file holds an object in slot 0. Updates are made, and some are interrupted and leave any bytes in the slot that is not in use. After every
operation the program reads the object of the last update that was not interrupted. -/
theorem C114_atomic (d : Nat) (c : Cfg) (noFit : Bool) (size : Nat) (dests first : List (Ty × Val)) (b rest : List UInt8) (ops : List SlotOp)
    (hfix : c.g.resizable = false) (hd : 2 ≤ d) (hlt : 1 + 2 * size < 2 ^ 63) (hw : wireItems (fmtOf c) first = some b)
    (hlen : (b ++ rest).length = 2 * size) (hfirst : Keepable d c size dests first)
    (hu : ∀ items, SlotOp.update items ∈ ops → Keepable d c size dests items) (ht : ∀ g, SlotOp.torn g ∈ ops → g.length ≤ size) :
    slotLoad d c size dests (0 :: (b ++ rest)) = some (first.map Prod.snd) ∧
    slotRun d c noFit size dests ops (0 :: (b ++ rest)) = slotIdeal ops (first.map Prod.snd) := by
  have hinv : SlotInv c size first 0 (0 :: (b ++ rest)) := by
    refine ⟨Or.inl rfl, by simp only [List.length_cons, hlen]; omega, rfl, b, rest, hw, ?_, by simp [slotAt]⟩
    obtain ⟨b', hb', hl⟩ := hfirst.fits
    rw [hw] at hb'
    cases hb'
    exact hl
  exact ⟨hinv.load hfirst hd hlt, slotRun_spec hfix hd hlt ops first 0 _ hinv hfirst hu ht⟩

/-! ## What is needed -/

/-- Objects without bitsets are needed: a bitset is written into the bytes that are there. A new set of flags, all clear, is stored over the bytes of an
interrupted update; the program then reads flags that were never stored. -/
theorem C114_bits_refuted :
    let c := Checks.le Checks.fixed (.fixed 1)
    let flags (b : Bool) : List (Ty × Val) := [(.bitset 8, .bits (List.replicate 8 b))]
    slotRun 9 c false 1 (flags false) [.torn [0x3c], .update (flags false)] [0, 0xff, 0] =
      [some [.bits (List.replicate 8 true)], some [.bits [false, false, true, true, true, true, false, false]]] ∧
    slotIdeal [.torn [0x3c], .update (flags false)] [.bits (List.replicate 8 true)] =
      [some [.bits (List.replicate 8 true)], some [.bits (List.replicate 8 false)]] := by decide +kernel

/-- The slot that is not in use is needed: when the object is written over the old one and the writing is interrupted, the program reads an object that was never
stored. -/
theorem C114_one_slot_refuted :
    let c := Checks.le Checks.fixed (.fixed 1)
    let word (n : Nat) : List (Ty × Val) := [(.scalar .int 2, .num n)]
    let disk : List UInt8 := [0, 0x11, 0x11, 0, 0]
    let new := (outCall 9 c false (word 0x2222) ⟨disk, slotAt 2 0⟩).2.data
    slotLoad 9 c 2 (word 0) disk = some [.num 0x1111] ∧ slotLoad 9 c 2 (word 0) new = some [.num 0x2222] ∧
    slotLoad 9 c 2 (word 0) (new.take 2 ++ disk.drop 2) = some [.num 0x1122] := by decide +kernel

/-! ## The hypotheses are met -/

/-- Strings in slots of eight bytes: an update, an interrupted update, and two further updates. -/
example :
    let c := Checks.le Checks.fixed (.fixed 1)
    let text (l : List UInt8) : List (Ty × Val) := [(Checks.str, Checks.strV l)]
    let ops : List SlotOp := [.update (text [1, 2, 3]), .torn [7, 9, 9, 9, 9, 9, 9, 9], .update (text []), .update (text [5, 6])]
    slotRun 9 c false 8 (text []) ops (0 :: ([1, 4] ++ List.replicate 14 0)) = slotIdeal ops [Checks.strV [4]] ∧
    slotIdeal ops [Checks.strV [4]] =
      [some [Checks.strV [1, 2, 3]], some [Checks.strV [1, 2, 3]], some [Checks.strV []], some [Checks.strV [5, 6]]] := by
  intro c text ops
  have hk : ∀ l ∈ [[1, 2, 3], [], [5, 6], [4]], Keepable 9 c 8 (text []) (text l) := by
    intro l hl
    refine ⟨⟨(fun h => nomatch h), so_abi, fun _ => ⟨rfl, rfl⟩, ?_⟩, ⟨so_abi, fun _ => ⟨rfl, rfl⟩, ?_, ?_⟩, ?_, rfl, ?_, ?_⟩
    · intro x hx
      simp only [text, List.mem_singleton] at hx
      subst hx
      rfl
    · intro x hx
      simp only [text, List.mem_singleton] at hx
      subst hx
      rfl
    · intro x hx
      simp only [text, List.mem_singleton] at hx
      subst hx
      simp only [List.mem_cons, List.not_mem_nil, or_false] at hl
      rcases hl with rfl | rfl | rfl | rfl <;> simp [c, Loadable, LoadableL, Checks.str, Checks.strV, Fits, Checks.le, Checks.fixed, Checks.so, Checks.chr]
    · simp only [List.mem_cons, List.not_mem_nil, or_false] at hl
      rcases hl with rfl | rfl | rfl | rfl <;> (intro x hx; simp only [text, List.mem_singleton] at hx; subst hx; decide)
    · simp only [List.mem_cons, List.not_mem_nil, or_false] at hl
      rcases hl with rfl | rfl | rfl | rfl <;> (intro x hx; simp only [text, List.mem_singleton] at hx; subst hx; decide)
    · simp only [List.mem_cons, List.not_mem_nil, or_false] at hl
      rcases hl with rfl | rfl | rfl | rfl <;> exact ⟨_, rfl, by decide⟩
  refine ⟨(C114_atomic 9 c false 8 (text []) (text [4]) [1, 4] (List.replicate 14 0) ops rfl (by decide) (by decide) (by decide) (by decide) (hk _ (by decide)) ?_ ?_).2,
    by decide +kernel⟩
  · intro items h
    simp only [ops, List.mem_cons, SlotOp.update.injEq, List.not_mem_nil, or_false, reduceCtorEq, false_or] at h
    rcases h with rfl | rfl | rfl <;> exact hk _ (by decide)
  · intro g h
    simp only [ops, List.mem_cons, SlotOp.torn.injEq, List.not_mem_nil, or_false, reduceCtorEq, false_or] at h
    subst h
    decide

end Zpp.Props
