import Verif.Spec.Threads
import Verif.Props.Output
/-! # Threads with archives over parts of one memory -/

namespace Zpp
open Spec Props

/-- What the proof assumes of a thread. -/
structure ThreadOk (mem : List UInt8) (t : Thread) : Prop where
  fixed : t.c.g.resizable = false
  inside : t.off + t.len ≤ mem.length
  pos : t.wpos ≤ t.len

theorem view_length {mem : List UInt8} {t : Thread} (h : ThreadOk mem t) : (t.view mem).data.length = t.len := by
  have := h.inside
  simp only [Thread.view, List.length_take, List.length_drop]
  omega

theorem step_len {mem : List UInt8} {t : Thread} (h : ThreadOk mem t) (hm : mem.length < 2 ^ 63) (op : Op) :
    ((t.view mem).step t.d t.c t.noFit op).2.data.length = t.len ∧ ((t.view mem).step t.d t.c t.noFit op).2.wpos ≤ t.len := by
  have hv := view_length h
  have hi := h.inside
  cases op with
  | read ds => exact ⟨hv, h.pos⟩
  | write items =>
    have := C01_fixed_buffer_safe t.d t.c t.noFit items ⟨(t.view mem).data, t.wpos⟩ h.fixed (by simp only [hv]; exact h.pos) (by simp only [hv]; omega)
    simp only at this
    obtain ⟨-, -, -, h1, -, h2, -⟩ := this
    simp only [Duplex.step, Duplex.write]
    show (outCall t.d t.c t.noFit items ⟨(t.view mem).data, t.wpos⟩).2.data.length = t.len ∧ (outCall t.d t.c t.noFit items ⟨(t.view mem).data, t.wpos⟩).2.pos ≤ t.len
    rw [h1] at h2 ⊢
    rw [hv] at h2 ⊢
    exact ⟨rfl, h2⟩

/-- The memory behind a splice. -/
theorem splice_apart {mem bs : List UInt8} {off len a n : Nat} (hl : bs.length = len) (hi : off + len ≤ mem.length) (h : a + n ≤ off ∨ off + len ≤ a) :
    ((mem.take off ++ bs ++ mem.drop (off + len)).drop a).take n = (mem.drop a).take n := by
  apply List.ext_getElem?
  intro i
  simp only [List.getElem?_take, List.getElem?_drop, List.getElem?_append, List.length_append, List.length_take, hl, Nat.min_eq_left (show off ≤ mem.length by omega)]
  by_cases hn : i < n
  · simp only [hn, if_true]
    rcases h with h | h
    · rw [if_pos (by omega), if_pos (by omega), if_pos (by omega)]
    · rw [if_neg (by omega)]
      congr 1
      omega
  · simp only [hn, if_false]

theorem splice_same {mem bs : List UInt8} {off len : Nat} (hl : bs.length = len) (hi : off + len ≤ mem.length) :
    ((mem.take off ++ bs ++ mem.drop (off + len)).drop off).take len = bs := by
  have h1 : (mem.take off).length = off := by rw [List.length_take]; omega
  rw [List.append_assoc, List.drop_left' h1, List.take_left' hl]

theorem splice_id {mem : List UInt8} {off len : Nat} : mem.take off ++ (mem.drop off).take len ++ mem.drop (off + len) = mem := by
  rw [List.append_assoc, ← List.drop_drop, List.take_append_drop, List.take_append_drop]

theorem turn_length {mem : List UInt8} {t : Thread} (h : ThreadOk mem t) (hm : mem.length < 2 ^ 63) : (t.turn mem).1.length = mem.length := by
  unfold Thread.turn
  split
  · rfl
  · rename_i op ops _
    have := (step_len h hm op).1
    have hi := h.inside
    simp only [List.length_append, List.length_take, List.length_drop, this]
    omega

/-- A turn leaves the bytes outside its part, and all bytes if it does not write. -/
theorem turn_other {mem : List UInt8} {t : Thread} (h : ThreadOk mem t) (hm : mem.length < 2 ^ 63) {a n : Nat}
    (ha : hasWrite t.todo = true → a + n ≤ t.off ∨ t.off + t.len ≤ a) : ((t.turn mem).1.drop a).take n = (mem.drop a).take n := by
  unfold Thread.turn
  split
  · rfl
  · rename_i op ops he
    cases op with
    | write items =>
      rw [he] at ha
      exact splice_apart (step_len h hm _).1 h.inside (ha rfl)
    | read ds =>
      simp only [Duplex.step, Duplex.read, Thread.view]
      rw [splice_id]

theorem hasWrite_tail {op : Op} {ops : List Op} (h : hasWrite ops = true) : hasWrite (op :: ops) = true := by
  cases op
  · rfl
  · exact h

theorem turn_ok {mem : List UInt8} {t : Thread} (h : ThreadOk mem t) (hm : mem.length < 2 ^ 63) :
    ThreadOk (t.turn mem).1 (t.turn mem).2 ∧ (t.turn mem).2.off = t.off ∧ (t.turn mem).2.len = t.len ∧ (hasWrite (t.turn mem).2.todo = true → hasWrite t.todo = true) := by
  have hl := turn_length h hm
  unfold Thread.turn at *
  split
  · exact ⟨h, rfl, rfl, id⟩
  · rename_i op ops he
    rw [he] at hl
    refine ⟨⟨h.fixed, ?_, (step_len h hm op).2⟩, rfl, rfl, fun h' => he ▸ hasWrite_tail h'⟩
    simp only at hl
    simp only [hl]
    exact h.inside

/-- Every thread runs as if alone. -/
theorem schedule_alone : ∀ (js : List Nat) (mem : List UInt8) (ts : Nat → Thread), mem.length < 2 ^ 63 → (∀ i, ThreadOk mem (ts i)) →
    (∀ i j, i ≠ j → hasWrite (ts i).todo = true → NoShare (ts i) (ts j)) →
    (∀ i, ((runSchedule js mem ts).2 i).done =
        (ts i).done ++ (Duplex.run (ts i).d (ts i).c (ts i).noFit ((ts i).todo.take (js.count i)) ((ts i).view mem)).1 ∧
      ((runSchedule js mem ts).2 i).view (runSchedule js mem ts).1 =
        (Duplex.run (ts i).d (ts i).c (ts i).noFit ((ts i).todo.take (js.count i)) ((ts i).view mem)).2 ∧
      ((runSchedule js mem ts).2 i).todo = (ts i).todo.drop (js.count i)) ∧
    ∀ a n, (∀ i, hasWrite (ts i).todo = true → a + n ≤ (ts i).off ∨ (ts i).off + (ts i).len ≤ a) →
      ((runSchedule js mem ts).1.drop a).take n = (mem.drop a).take n
  | [], mem, ts, _, _, _ => ⟨fun i => by simp [runSchedule, Duplex.run], fun _ _ _ => rfl⟩
  | j :: js, mem, ts, hm, hok, hap => by
    have hl := turn_length (hok j) hm
    obtain ⟨k1, k2, k3, k4⟩ := turn_ok (hok j) hm
    have hok' : ∀ i, ThreadOk ((ts j).turn mem).1 (if i = j then ((ts j).turn mem).2 else ts i) := by
      intro i
      split
      · exact k1
      · exact ⟨(hok i).fixed, by rw [hl]; exact (hok i).inside, (hok i).pos⟩
    have hoff : ∀ i, (if i = j then ((ts j).turn mem).2 else ts i).off = (ts i).off := by
      intro i; split
      · rename_i e; rw [e]; exact k2
      · rfl
    have hlen : ∀ i, (if i = j then ((ts j).turn mem).2 else ts i).len = (ts i).len := by
      intro i; split
      · rename_i e; rw [e]; exact k3
      · rfl
    have hwr : ∀ i, hasWrite (if i = j then ((ts j).turn mem).2 else ts i).todo = true → hasWrite (ts i).todo = true := by
      intro i; split
      · rename_i e; rw [e]; exact k4
      · exact id
    obtain ⟨h1, h2⟩ := schedule_alone js ((ts j).turn mem).1 (fun i => if i = j then ((ts j).turn mem).2 else ts i) (by rw [hl]; exact hm) hok'
      (by
        intro a b hab hw
        have := hap a b hab (hwr a hw)
        unfold NoShare at *
        simp only [hoff, hlen]
        exact this)
    refine ⟨fun i => ?_, fun a n ha => ?_⟩
    · obtain ⟨i1, i2, i3⟩ := h1 i
      by_cases e : i = j
      · subst e
        simp only [if_true] at i1 i2 i3
        simp only [runSchedule, List.count_cons_self]
        cases ht : (ts i).todo with
        | nil =>
          have ht' : (ts i).turn mem = (mem, ts i) := by simp only [Thread.turn, ht]
          simp only [ht'] at i1 i2 i3 ⊢
          rw [ht] at i1 i2 i3
          simp only [List.take_nil, List.drop_nil] at i1 i2 i3 ⊢
          exact ⟨i1, i2, i3⟩
        | cons op ops =>
          have hs := step_len (hok i) hm op
          have hv : ((ts i).turn mem).2.view ((ts i).turn mem).1 = (((ts i).view mem).step (ts i).d (ts i).c (ts i).noFit op).2 := by
            simp only [Thread.turn, ht, Thread.view]
            have := splice_same (mem := mem) (off := (ts i).off) hs.1 (hok i).inside
            simp only [Thread.view] at this
            rw [this]
          rw [hv] at i1 i2
          simp only [Thread.turn, ht] at i1 i2 i3 ⊢
          simp only [List.take_succ_cons, List.drop_succ_cons, Duplex.run]
          refine ⟨?_, i2, i3⟩
          rw [i1, List.append_assoc, List.singleton_append]
      · simp only [if_neg e] at i1 i2 i3
        have hv : (ts i).view ((ts j).turn mem).1 = (ts i).view mem := by
          simp only [Thread.view]
          rw [turn_other (hok j) hm fun hw => ?_]
          have := hap j i (fun h => e h.symm) hw
          unfold NoShare at this
          omega
        rw [hv] at i1 i2
        rw [List.count_cons_of_ne (fun h => e h.symm)]
        simp only [runSchedule]
        exact ⟨i1, i2, i3⟩
    · simp only [runSchedule]
      rw [h2 a n (fun i hw => by simp only [hoff, hlen]; exact ha i (hwr i hw)), turn_other (hok j) hm (ha j)]

end Zpp
