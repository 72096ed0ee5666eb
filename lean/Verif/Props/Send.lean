import Verif.Proof.Send
import Verif.Props.Receive
/-! # C109: sending messages through a buffer of limited size -/

namespace Zpp.Props
open Zpp Zpp.Spec

/-- C109. A program sends messages through a fixed buffer in which each of them fits alone: it writes one behind the other, and when one fails for lack of room,
it hands over what stands in front of it, goes back to the beginning and writes it again. This always works, whatever the buffer contained and failed
calls left in it. The chunks handed over, one behind the other, are the encodings of the messages, none missing or twice; each chunk consists of whole
messages and fits in the buffer; and there is no way to cut the messages into fewer groups that do. -/
theorem C109_chunks (d : Nat) (c : Cfg) (noFit : Bool) (msgs : List (List (Ty × Val))) (bss : List (List UInt8)) (st : OutSt)
    (hfix : c.g.resizable = false) (hpos : st.pos = 0) (hlen : st.data.length < 2 ^ 63)
    (hs : ∀ m ∈ msgs, Supported c m ∧ StackOk d m ∧ ∀ x ∈ m, noBits x.2 = true)
    (hw : msgs.map (wireItems (fmtOf c)) = bss.map some) (hfit : ∀ b ∈ bss, b.length ≤ st.data.length) :
    ∃ groups : List (List (List UInt8)), sendAll d c noFit msgs st = some (groups.map List.flatten) ∧ groups.flatten = bss ∧
      (∀ g ∈ groups, g.flatten.length ≤ st.data.length) ∧
      ∀ gs : List (List (List UInt8)), gs ≠ [] → gs.flatten = bss → (∀ g ∈ gs, g.flatten.length ≤ st.data.length) →
        groups.length ≤ gs.length := by
  have h := sendAll_packs (noFit := noFit) hfix msgs bss st (by omega) hlen hs hw hfit
  rw [hpos, List.take_zero] at h
  obtain ⟨g, gs, h1, h2⟩ := pack_groups (room := st.data.length) bss []
  have h2' : pack st.data.length bss [] = (g :: gs).map List.flatten := by rw [h2]; simp
  have hle := pack_le (room := st.data.length) bss [] (by simp) hfit
  refine ⟨g :: gs, by rw [h, h2'], by rw [List.flatten_cons, h1], ?_, ?_⟩
  · intro g' hg'
    exact hle _ (by rw [h2']; exact List.mem_map.mpr ⟨g', hg', rfl⟩)
  · intro gs' hne h3 h4
    have hlen' : (g :: gs).length = (pack st.data.length bss []).length := by rw [h2']; simp
    rw [hlen']
    cases gs' with
    | nil => exact absurd rfl hne
    | cons g' gs' =>
      have := (pack_least (room := st.data.length) bss).2 [] g' gs' h3 (by simpa using h4 g' List.mem_cons_self)
        fun x hx => h4 x (List.mem_cons_of_mem _ hx)
      simp only [List.length_cons]; omega

/-- C109 and C96 together. The chunks are received by a program that reads messages as soon as they are complete (C96), discarding read bytes before any
of them: in the end it has exactly the messages sent, in order, and no bytes left. -/
theorem C109_received (d d' : Nat) (co ci : Cfg) (noFit : Bool) (msgs wanted : List (List (Ty × Val))) (bss : List (List UInt8)) (st : OutSt)
    (pieces : List (Bool × List UInt8)) (hf : fmtOf ci = fmtOf co)
    (hfix : co.g.resizable = false) (hpos : st.pos = 0) (hlen : st.data.length < 2 ^ 63)
    (hs : ∀ m ∈ msgs, Supported co m ∧ StackOk d m ∧ ∀ x ∈ m, noBits x.2 = true)
    (hw : msgs.map (wireItems (fmtOf co)) = bss.map some) (hfit : ∀ b ∈ bss, b.length ≤ st.data.length) (hl : bss.flatten.length < 2 ^ 64)
    (hr : Receivable d' ci msgs) (hdest : wanted.map (List.map Prod.fst) = msgs.map (List.map Prod.fst))
    (hpieces : sendAll d co noFit msgs st = some (pieces.map Prod.snd)) :
    ∃ r, receive d' ci pieces ⟨[], 0, wanted, []⟩ = some r ∧ r.got = msgs.map (List.map Prod.snd) ∧ r.data.drop r.pos = [] := by
  have h := sendAll_packs (noFit := noFit) hfix msgs bss st (by omega) hlen hs hw hfit
  rw [hpos, List.take_zero] at h
  rw [h, Option.some.injEq] at hpieces
  have hfl := pack_flatten (room := st.data.length) bss []
  rw [hpieces, List.nil_append] at hfl
  have hne : pieces ≠ [] := by
    rintro rfl
    obtain ⟨g, gs, h1, h2⟩ := pack_groups (room := st.data.length) bss []
    rw [h2] at hpieces
    simp at hpieces
  obtain ⟨r, h1, h2, h3⟩ := C96_pieces d' ci msgs wanted bss [] pieces hne hr (by rw [hf]; exact hw) hdest
    ⟨[], by simp [hfl]⟩ (by simpa using hl)
  have hml : msgs.length = bss.length := by simpa using congrArg List.length hw
  have hall : ∀ (bss : List (List UInt8)), complete bss bss.flatten.length = bss.length := by
    intro bss
    induction bss with
    | nil => rfl
    | cons b bs ih =>
      simp only [complete, List.flatten_cons, List.length_append]
      rw [if_pos (by omega), Nat.add_sub_cancel_left, ih, List.length_cons]
  rw [hfl, hall] at h2 h3
  refine ⟨r, h1, ?_, ?_⟩
  · rw [h2, ← hml, List.take_length]
  · rw [h3, List.take_length, List.drop_length]

/-- Strings of 2, 3, 4 and 1 characters in a buffer of 8 bytes: two chunks; what failed attempts left in the buffer (here it is full of 7s) does not matter. -/
example :
    let c := Checks.le Checks.fixed (.fixed 1)
    let msgs : List (List (Ty × Val)) := [[(Checks.str, Checks.strV [65, 66])], [(Checks.str, Checks.strV [67, 68, 69])],
      [(.scalar .int 1, .num 9), (Checks.str, Checks.strV [70, 71, 72])], [(Checks.str, Checks.strV [73])]]
    sendAll 9 c false msgs ⟨[7, 7, 7, 7, 7, 7, 7, 7], 0⟩ = some [[2, 65, 66, 3, 67, 68, 69], [9, 3, 70, 71, 72, 1, 73]] ∧
    msgs.map (wireItems (fmtOf c)) = [[2, 65, 66], [3, 67, 68, 69], [9, 3, 70, 71, 72], [1, 73]].map some ∧
    (∀ m ∈ msgs, Supported c m ∧ StackOk 9 m ∧ ∀ x ∈ m, noBits x.2 = true) := by
  refine ⟨by decide +kernel, by decide +kernel, ?_⟩
  intro m hm
  simp only [List.mem_cons, List.not_mem_nil, or_false] at hm
  rcases hm with rfl | rfl | rfl | rfl
  all_goals refine ⟨⟨(fun h => nomatch h), so_abi, fun _ => ⟨rfl, rfl⟩, ?_⟩, ?_, ?_⟩
  all_goals
    intro x hx
    simp only [List.mem_cons, List.not_mem_nil, or_false] at hx
    first
      | (subst hx; first | rfl | decide)
      | (rcases hx with rfl | rfl <;> first | rfl | decide)

/-- Bitsets have to be excluded (C08): the second one is written over the bytes of the first chunk and comes out with the bits of both. -/
theorem C109_bits_refuted :
    let c := Checks.le Checks.fixed (.fixed 1)
    let msgs : List (List (Ty × Val)) := [[(.bitset 4, .bits [true, false, false, false])], [(.bitset 4, .bits [false, true, false, false])]]
    msgs.map (wireItems (fmtOf c)) = [[1], [2]].map some ∧ sendAll 9 c false msgs ⟨[0], 0⟩ = some [[1], [3]] := by
  exact ⟨by decide +kernel, by decide +kernel⟩

end Zpp.Props
