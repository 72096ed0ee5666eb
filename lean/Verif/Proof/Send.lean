import Verif.Spec.Send
import Verif.Props.Output
/-! # Sending through a buffer of limited size: the program packs like `pack`; `pack` is the best way -/

namespace Zpp
open Spec Props

theorem sendAll_packs {d : Nat} {c : Cfg} {noFit : Bool} (hfix : c.g.resizable = false) :
    ∀ (msgs : List (List (Ty × Val))) (bss : List (List UInt8)) (st : OutSt), st.pos ≤ st.data.length → st.data.length < 2 ^ 63 →
    (∀ m ∈ msgs, Supported c m ∧ StackOk d m ∧ ∀ x ∈ m, noBits x.2 = true) →
    msgs.map (wireItems (fmtOf c)) = bss.map some → (∀ b ∈ bss, b.length ≤ st.data.length) →
    sendAll d c noFit msgs st = some (pack st.data.length bss (st.data.take st.pos)) := by
  intro msgs
  induction msgs with
  | nil =>
    intro bss st _ _ _ hw _
    have : bss = [] := by cases bss with | nil => rfl | cons => simp at hw
    subst this; rfl
  | cons m ms ih =>
    intro bss st hpos hlen hs hw hfit
    obtain ⟨b, bs, rfl⟩ : ∃ b bs, bss = b :: bs := by cases bss with | nil => simp at hw | cons b bs => exact ⟨b, bs, rfl⟩
    simp only [List.map_cons, List.cons.injEq] at hw
    obtain ⟨hs1, hs2, hs3⟩ := hs m List.mem_cons_self
    have hb := hfit b List.mem_cons_self
    obtain ⟨h1, h2⟩ := C02_fixed_exact d c noFit m st b hfix hpos hlen hs1 hs2 (.inl hs3) hw.1 (by omega)
    have htl : (st.data.take st.pos).length = st.pos := by rw [List.length_take]; omega
    by_cases e : st.pos + b.length ≤ st.data.length
    · have h1 := h1 e
      have hl' : (st.data.take st.pos ++ b ++ st.data.drop (st.pos + b.length)).length = st.data.length := by
        simp only [List.length_append, List.length_drop, htl]; omega
      simp only [sendAll, h1, pack, htl, if_pos e]
      rw [ih bs _ (by simp only [hl']; omega) (by simp only [hl']; exact hlen) (fun m' hm => hs m' (List.mem_cons_of_mem _ hm)) hw.2
        (by simp only [hl']; exact fun b' hb' => hfit b' (List.mem_cons_of_mem _ hb'))]
      simp only [hl']
      rw [List.take_append_of_le_length (by simp only [List.length_append, htl]; omega), List.take_of_length_le (by simp only [List.length_append, htl]; omega)]
    · have h2 := h2 (by omega)
      have h0 := C01_fixed_buffer_safe d c noFit m st hfix hpos hlen
      simp only at h0
      obtain ⟨-, -, -, k1, -, -, k2, -⟩ := h0
      generalize hr : outCall d c noFit m st = r at *
      obtain ⟨s, st'⟩ := r
      simp only at h2 k1 k2
      subst h2
      have h3 := (C02_fixed_exact d c noFit m ⟨st'.data, 0⟩ b hfix (Nat.zero_le _) (by simp only [k1]; exact hlen) hs1 hs2 (.inl hs3) hw.1 (by omega)).1
        (by simp only [k1]; omega)
      simp only [Nat.zero_add, List.take_zero, List.nil_append] at h3
      have hl' : (b ++ st'.data.drop b.length).length = st.data.length := by
        simp only [List.length_append, List.length_drop, k1]; omega
      simp only [sendAll, hr, h3, pack, htl, if_neg e]
      rw [ih bs _ (by simp only [hl']; omega) (by simp only [hl']; exact hlen) (fun m' hm => hs m' (List.mem_cons_of_mem _ hm)) hw.2
        (by simp only [hl']; exact fun b' hb' => hfit b' (List.mem_cons_of_mem _ hb'))]
      simp only [hl', Option.map_some, k2]
      rw [List.take_append_of_le_length (Nat.le_refl _), List.take_of_length_le (Nat.le_refl _)]

theorem pack_flatten {room : Nat} : ∀ (bss : List (List UInt8)) (cur : List UInt8), (pack room bss cur).flatten = cur ++ bss.flatten
  | [], cur => by simp [pack]
  | b :: bs, cur => by
    simp only [pack]
    split
    · rw [pack_flatten bs]; simp
    · rw [List.flatten_cons, pack_flatten bs]; simp

theorem pack_le {room : Nat} : ∀ (bss : List (List UInt8)) (cur : List UInt8), cur.length ≤ room → (∀ b ∈ bss, b.length ≤ room) →
    ∀ x ∈ pack room bss cur, x.length ≤ room
  | [], cur, hc, _, x, hx => by simp only [pack, List.mem_singleton] at hx; subst hx; exact hc
  | b :: bs, cur, hc, hb, x, hx => by
    simp only [pack] at hx
    split at hx
    · exact pack_le bs _ (by rw [List.length_append]; assumption) (fun b' h => hb b' (List.mem_cons_of_mem _ h)) x hx
    · rcases List.mem_cons.mp hx with rfl | hx
      · exact hc
      · exact pack_le bs _ (hb b List.mem_cons_self) (fun b' h => hb b' (List.mem_cons_of_mem _ h)) x hx

/-- Chunks consist of whole messages. -/
theorem pack_groups {room : Nat} : ∀ (bss : List (List UInt8)) (cur : List UInt8),
    ∃ (g : List (List UInt8)) (gs : List (List (List UInt8))), g ++ gs.flatten = bss ∧ pack room bss cur = (cur ++ g.flatten) :: gs.map List.flatten
  | [], cur => ⟨[], [], rfl, by simp [pack]⟩
  | b :: bs, cur => by
    simp only [pack]
    split
    · obtain ⟨g, gs, h1, h2⟩ := pack_groups bs (cur ++ b) (room := room)
      exact ⟨b :: g, gs, by rw [← h1]; rfl, by rw [h2]; simp⟩
    · obtain ⟨g, gs, h1, h2⟩ := pack_groups bs b (room := room)
      exact ⟨[], (b :: g) :: gs, by rw [← h1]; simp, by rw [h2]; simp⟩

/-- Any other way to cut the messages into groups that fit has at least as many groups. -/
theorem pack_least {room : Nat} : ∀ (bss : List (List UInt8)),
    (∀ (cur : List UInt8) (gs : List (List (List UInt8))), gs.flatten = bss → (∀ g ∈ gs, g.flatten.length ≤ room) →
      (pack room bss cur).length ≤ 1 + gs.length) ∧
    (∀ (cur : List UInt8) (g : List (List UInt8)) (gs : List (List (List UInt8))), g ++ gs.flatten = bss →
      cur.length + g.flatten.length ≤ room → (∀ g ∈ gs, g.flatten.length ≤ room) → (pack room bss cur).length ≤ 1 + gs.length) := by
  intro bss
  induction bss with
  | nil => exact ⟨fun cur gs _ _ => by simp [pack], fun cur g gs _ _ _ => by simp [pack]⟩
  | cons b bs ih =>
    have hA : ∀ (gs : List (List (List UInt8))) (cur : List UInt8), gs.flatten = b :: bs → (∀ g ∈ gs, g.flatten.length ≤ room) →
        (pack room (b :: bs) cur).length ≤ 1 + gs.length := by
      intro gs
      induction gs with
      | nil => intro cur h; simp at h
      | cons g gs ihg =>
        intro cur h hle
        cases g with
        | nil =>
          have := ihg cur (by simpa using h) fun g hg => hle g (List.mem_cons_of_mem _ hg)
          simp only [List.length_cons]; omega
        | cons x g =>
          simp only [List.flatten_cons, List.cons_append, List.cons.injEq] at h
          obtain ⟨rfl, h⟩ := h
          have h0 := hle _ List.mem_cons_self
          simp only [List.flatten_cons, List.length_append] at h0
          simp only [pack, List.length_cons]
          split
          · have := ih.1 (cur ++ x) (g :: gs) h (by
              intro g' hg'
              rcases List.mem_cons.mp hg' with rfl | hg'
              · omega
              · exact hle g' (List.mem_cons_of_mem _ hg'))
            simp only [List.length_cons] at this; omega
          · have := ih.2 x g gs h h0 fun g' hg' => hle g' (List.mem_cons_of_mem _ hg')
            simp only [List.length_cons]; omega
    refine ⟨fun cur gs => hA gs cur, ?_⟩
    intro cur g gs h hc hle
    cases g with
    | nil => exact hA gs cur (by simpa using h) hle
    | cons x g =>
      simp only [List.cons_append, List.cons.injEq] at h
      obtain ⟨rfl, h⟩ := h
      simp only [List.flatten_cons, List.length_append] at hc
      simp only [pack]
      rw [if_pos (by omega)]
      exact ih.2 (cur ++ x) g gs h (by rw [List.length_append]; omega) hle

end Zpp
