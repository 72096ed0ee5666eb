import Verif.Spec.Queue
import Verif.Props.RoundTrip
/-! # The shared buffer as a queue -/

namespace Zpp
open Spec Props

/-- The bytes between the positions are the encoding of the queued objects. -/
structure Holds (f : Fmt) (q : List (Ty × Val)) (x : Duplex) : Prop where
  wpos_le : x.wpos ≤ x.data.length
  len_lt : x.data.length < 2 ^ 63
  body : ∃ bs, wireItems f q = some bs ∧ x.rpos + bs.length = x.wpos ∧ (x.data.take x.wpos).drop x.rpos = bs

theorem Spec.RoomFor.mono {g : Growth} {s a b : Nat} (h : RoomFor g s b) (hab : a ≤ b) : RoomFor g s a := by
  unfold RoomFor at *
  split at h
  · rw [if_pos (by assumption)]; exact ⟨h.1.mono hab, h.2.mono hab⟩
  · rw [if_neg (by assumption)]; omega

theorem Spec.RoomFor.grow {g : Growth} {s s' a : Nat} (h : RoomFor g s a) (hs : s ≤ s') : RoomFor g s' a := by
  unfold RoomFor at *
  split at h
  · rw [if_pos (by assumption)]; exact h
  · rw [if_neg (by assumption)]; omega

theorem wireItems_append' {f : Fmt} {xs ys : List (Ty × Val)} {a b : List UInt8}
    (ha : wireItems f xs = some a) (hb : wireItems f ys = some b) : wireItems f (xs ++ ys) = some (a ++ b) := by
  induction xs generalizing a with
  | nil => cases ha; exact hb
  | cons x xs ih =>
    obtain ⟨t, v⟩ := x
    simp only [wireItems, cat_eq_some] at ha
    obtain ⟨p, q, hp, hq, rfl⟩ := ha
    simp [wireItems, hp, ih hq, cat]

/-- A write with room succeeds and appends to the queue. -/
theorem Holds.write {d : Nat} {c : Cfg} {noFit : Bool} {items q : List (Ty × Val)} {x : Duplex} {bs : List UInt8}
    {f : Fmt} (hff : fmtOf c = f) (h : Holds f q x) (hs : Supported c items) (hd : StackOk d items)
    (hb : BitsOk items ⟨x.data, x.wpos⟩) (hw : wireItems f items = some bs) (hl : bs.length < 2 ^ 63)
    (hroom : RoomFor c.g x.data.length (x.wpos + bs.length)) :
    ∃ y, x.write d c noFit items = (.ok, y) ∧ Holds f (q ++ items) y ∧ y.wpos = x.wpos + bs.length ∧
      x.data.length ≤ y.data.length ∧
      ∀ b ∈ y.data.drop y.wpos, b = 0 ∨ b ∈ x.data.drop x.wpos := by
  subst hff
  obtain ⟨q1, hq1, hr, hbody⟩ := h.body
  have hok : (outCall d c noFit items ⟨x.data, x.wpos⟩).1 = .ok := by
    unfold RoomFor at hroom
    split at hroom
    · rename_i hres
      exact C06_growing_succeeds d c noFit items ⟨x.data, x.wpos⟩ bs hres h.wpos_le h.len_lt hs hd hb hw hl
        hroom.1 hroom.2
    · rename_i hres
      have := (C02_fixed_exact d c noFit items ⟨x.data, x.wpos⟩ bs (by simpa using hres) h.wpos_le h.len_lt hs hd hb hw
        hl).1 hroom
      rw [this]
  have hv := (outCall_safe d c hs.growth noFit items ⟨x.data, x.wpos⟩ ⟨h.wpos_le, h.len_lt⟩).valid hs.growth
    ⟨h.wpos_le, h.len_lt⟩
  generalize hr' : outCall d c noFit items ⟨x.data, x.wpos⟩ = r at hok hv
  obtain ⟨s, st'⟩ := r
  simp only at hok
  subst hok
  obtain ⟨h1, k, h2⟩ := C04_growing_appends d c noFit items ⟨x.data, x.wpos⟩ st' bs h.wpos_le h.len_lt hs hd hb hw hl hr'
  simp only at h1 h2
  have hwl := h.wpos_le
  have htl : (x.data.take x.wpos).length = x.wpos := by simp; omega
  have htake : st'.data.take (x.wpos + bs.length) = x.data.take x.wpos ++ bs := by
    rw [h2, List.append_assoc, List.take_append_of_le_length (by simp; omega), List.take_of_length_le (by simp; omega)]
  refine ⟨⟨st'.data, st'.pos, x.rpos⟩, by simp [Duplex.write, hr'], ⟨hv.pos_le, hv.len_lt, q1 ++ bs, ?_, ?_, ?_⟩, h1,
    ?_, ?_⟩
  · exact wireItems_append' hq1 hw
  · simp only [h1, List.length_append]; omega
  · simp only [h1, htake]
    rw [List.drop_append_of_le_length (by omega), hbody]
  · simp only
    rw [h2]
    simp only [List.length_append, List.length_take, List.length_drop, List.length_replicate]
    omega
  · intro b hb'
    simp only [h1] at hb'
    have : (x.data.take x.wpos ++ bs).length = x.wpos + bs.length := by simp; omega
    rw [h2, List.append_assoc, ← this, List.drop_left, List.mem_append] at hb'
    rcases hb' with hb' | hb'
    · right
      rw [this, ← List.drop_drop] at hb'
      exact List.mem_of_mem_drop hb'
    · left; exact (List.mem_replicate.mp hb').2

/-- The bytes at the read position start with the encoding of the front of the queue. -/
theorem Holds.front {front rest : List (Ty × Val)} {x : Duplex} {f : Fmt} (h : Holds f (front ++ rest) x) :
    ∃ b1 tail, wireItems f front = some b1 ∧ x.data.drop x.rpos = b1 ++ tail ∧ x.rpos ≤ x.data.length ∧
      Holds f rest { x with rpos := x.rpos + b1.length } := by
  obtain ⟨bs, hbs, hr, hbody⟩ := h.body
  obtain ⟨b1, b2, h1, h2, rfl⟩ := wireItems_append hbs
  have hwl := h.wpos_le
  simp only [List.length_append] at hr
  have hsplit : x.data.drop x.rpos = (b1 ++ b2) ++ x.data.drop x.wpos := by
    have : x.data.drop x.rpos = (x.data.take x.wpos ++ x.data.drop x.wpos).drop x.rpos := by rw [List.take_append_drop]
    rw [this, List.drop_append_of_le_length (by simp; omega), hbody]
  refine ⟨b1, b2 ++ x.data.drop x.wpos, h1, by rw [hsplit, List.append_assoc], by omega, h.wpos_le, h.len_lt, b2, h2,
    by simp only; omega, ?_⟩
  simp only
  rw [← List.drop_drop, hbody, List.drop_left]

/-- A read of objects of the types at the front of the queue gives the objects at the front and removes them. -/
theorem Holds.read {d : Nat} {c : Cfg} {front rest dests : List (Ty × Val)} {x : Duplex} {f : Fmt}
    (hff : fmtOf c = f) (h : Holds f (front ++ rest) x) (hr : Readable c front) (hd : StackOk d front)
    (hds : dests.map Prod.fst = front.map Prod.fst) :
    ∃ y, x.read d c dests = (.ok, front.map Prod.snd, y) ∧ Holds f rest y ∧ y.data = x.data ∧ y.wpos = x.wpos := by
  subst hff
  obtain ⟨b1, tail, h1, h2, h3, h4⟩ := h.front
  have hx := h.len_lt
  have := decMany_rd hr.abi hr.env (data := x.data) (by omega) front dests b1 h1 hr.types hr.load hd hds x.rpos tail h3 h2
  exact ⟨_, by simp only [Duplex.read, this], h4, rfl, rfl⟩

end Zpp
