import Verif.Proof.InLocal
/-! # Input calls with several destinations -/

namespace Zpp
open Spec

theorem decMany_old {d : Nat} {c : Cfg} {data : List UInt8} (habi : ∀ t, 0 < c.sizeof t)
    (henv : ∀ i, oldFree c.dsz (c.env i) = true) :
    ∀ (items items' : List (Ty × Val)) (p : Nat), items.map Prod.fst = items'.map Prod.fst →
      (∀ it ∈ items, oldFree c.dsz it.1 = true) →
      SameL (decMany d c data items p) (decMany d c data items' p) := by
  intro items
  induction items with
  | nil =>
    intro items' p h _
    cases items' with
    | nil => exact .rfl' _
    | cons => simp at h
  | cons it rest ih =>
    intro items' p h hf
    cases items' with
    | nil => simp at h
    | cons it' rest' =>
      obtain ⟨t, o⟩ := it
      obtain ⟨t', o'⟩ := it'
      simp only [List.map_cons, List.cons.injEq] at h
      obtain ⟨rfl, h⟩ := h
      have h1 := decode_old c habi henv d t data o o' p (hf (t, o) (by simp))
      unfold decMany
      generalize decode d c t o data p = r at *
      generalize decode d c t o' data p = r' at *
      obtain ⟨s, v, p1⟩ := r
      obtain ⟨s', v', p1'⟩ := r'
      obtain ⟨hs, hp, hv⟩ := h1
      dsimp only at hs hp hv
      subst hs hp
      cases s
      · have := hv rfl; subst this
        have h2 := ih rest' p1 h (fun it hi => hf it (by simp [hi]))
        exact ⟨h2.s, h2.p, fun hs => congrArg (v :: ·) (h2.v hs)⟩
      all_goals exact ⟨rfl, rfl, by simp⟩

theorem decMany_loc {d : Nat} {c : Cfg} (habi : ∀ t, 0 < c.sizeof t)
    (henv : ∀ i, widthsOk (c.env i) = true ∧ selfDelimiting c.dsz (c.env i) = true) :
    ∀ (ts : List Ty), (∀ t ∈ ts, widthsOk t = true ∧ selfDelimiting c.dsz t = true) →
      Loc (fun (items : { l : List (Ty × Val) // l.map Prod.fst = ts }) data p => (decMany d c data items.1 p).t) := by
  intro ts
  induction ts with
  | nil =>
    intro _
    refine (Loc.pure (ι := Unit) ([] : List Val)).map (fun _ => ()) id ?_ ?_
    · intro ⟨g, hg⟩ data p a p1 h
      cases g with
      | nil => cases h; rfl
      | cons => simp at hg
    · intro _ _ _ h; exact absurd rfl h
  | cons t ts ih =>
    intro hw
    have hl := decode_loc c habi henv d t (hw t (by simp)).1 (hw t (by simp)).2
    refine hl.bind (κ := { l : List (Ty × Val) // l.map Prod.fst = ts })
      (K := fun v items data p => let r := decMany d c data items.1 p; (r.s, v :: r.vs, r.p))
      (fun g => (g.1.headD (t, .unit)).2)
      (fun g _ => ⟨g.1.tail, by obtain ⟨g, hg⟩ := g; cases g <;> simp at hg ⊢; exact hg.2⟩) ?_ ?_ ?_
    · intro v
      refine (ih fun t' ht => hw t' (by simp [ht])).map id (fun vs => v :: vs) ?_ ?_
      · intro g data p a p1 h
        simp only [ResL.t, Prod.mk.injEq, id] at h ⊢
        exact ⟨h.1, by rw [h.2.1], h.2.2⟩
      · intro g data p h; rfl
    · intro ⟨g, hg⟩ data p v p1 h
      cases g with
      | nil => simp at hg
      | cons it rest =>
        obtain ⟨t', o⟩ := it
        simp only [List.map_cons, List.cons.injEq] at hg
        obtain ⟨rfl, hg⟩ := hg
        simp only [List.headD_cons, List.tail_cons] at h ⊢
        rw [decMany]
        generalize decode d c t' o data p = r at *
        obtain ⟨s, v, p'⟩ := r
        cases h
        rfl
    · intro ⟨g, hg⟩ data p h
      cases g with
      | nil => simp at hg
      | cons it rest =>
        obtain ⟨t', o⟩ := it
        simp only [List.map_cons, List.cons.injEq] at hg
        obtain ⟨rfl, hg⟩ := hg
        simp only [List.headD_cons] at h ⊢
        rw [decMany]
        generalize decode d c t' o data p = r at *
        obtain ⟨s, v, p'⟩ := r
        cases s <;> first | exact absurd rfl h | rfl

end Zpp
