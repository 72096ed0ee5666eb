import Verif.Proof.InRound
/-!
# Insertion into associative containers
-/

namespace Zpp
open Zpp.Spec

variable {lt : Val → Val → Bool} {isMap : Bool}

theorem insertSorted_perm (e : Val) (vs : List Val) : (insertSorted lt isMap e vs).Perm (e :: vs) := by
  induction vs with
  | nil => exact .refl _
  | cons x xs ih =>
    unfold insertSorted
    split
    · exact .refl _
    · exact (ih.cons x).trans (.swap e x xs)

/-- The order condition, by keys. -/
def OrderedK (lt : Val → Val → Bool) (multi hashed isMap : Bool) (vs : List Val) : Prop :=
  vs.Pairwise fun x y =>
    if hashed then multi = true ∨ assocKey isMap x ≠ assocKey isMap y
    else lt (assocKey isMap y) (assocKey isMap x) = false ∧ (multi = true ∨ lt (assocKey isMap x) (assocKey isMap y) = true)

theorem orderedK_iff {multi hashed : Bool} {vs : List Val} : OrderedK lt multi hashed isMap vs ↔ Ordered lt multi hashed isMap vs := by
  constructor
  · intro h
    unfold Ordered
    refine List.Pairwise.imp ?_ h
    intro x y hxy
    rw [assocKey_eq, assocKey_eq] at hxy
    exact hxy
  · exact ordered_keys

theorem insertSorted_ordered (hlt : WeakOrder lt) {multi : Bool} {e : Val} {vs : List Val} (h : OrderedK lt multi false isMap vs)
    (hm : multi = true ∨ ∀ x ∈ vs, lt (assocKey isMap x) (assocKey isMap e) = true ∨ lt (assocKey isMap e) (assocKey isMap x) = true) :
    OrderedK lt multi false isMap (insertSorted lt isMap e vs) := by
  unfold OrderedK at *
  simp only [Bool.false_eq_true, if_false] at *
  induction vs with
  | nil => simp [insertSorted]
  | cons x xs ih =>
    have h' := List.pairwise_cons.mp h
    unfold insertSorted
    split
    · next hex =>
      refine List.pairwise_cons.mpr ⟨?_, h⟩
      intro y hy
      have hye : lt (assocKey isMap y) (assocKey isMap e) = false := by
        rcases List.mem_cons.mp hy with rfl | hy
        · exact hlt.asymm _ _ hex
        · exact hlt.negTrans _ _ _ (h'.1 y hy).1 (hlt.asymm _ _ hex)
      refine ⟨hye, ?_⟩
      rcases hm with hm | hm
      · exact Or.inl hm
      · rcases hm y hy with h1 | h1
        · rw [hye] at h1; cases h1
        · exact Or.inr h1
    · next hex =>
      refine List.pairwise_cons.mpr ⟨?_, ih (hm.imp id fun h y hy => h y (by simp [hy])) h'.2⟩
      intro y hy
      rcases List.mem_cons.mp ((insertSorted_perm e xs).mem_iff.mp hy) with rfl | hy
      · have hex' : lt (assocKey isMap y) (assocKey isMap x) = false := by simpa using hex
        refine ⟨hex', ?_⟩
        rcases hm with hm | hm
        · exact Or.inl hm
        · rcases hm x (by simp) with h1 | h1
          · exact Or.inr h1
          · rw [hex'] at h1; cases h1
      · exact h'.1 y hy

/-- The two keys are the same key of the container. -/
theorem sameKey_eq {hashed : Bool} (a b : Val) : sameKey lt hashed isMap a b =
    (if hashed then decide (assocKey isMap a = assocKey isMap b)
     else !lt (assocKey isMap a) (assocKey isMap b) && !lt (assocKey isMap b) (assocKey isMap a)) := by
  rw [assocKey_eq, assocKey_eq]
  rfl

theorem sameKey_trans (hlt : WeakOrder lt) {hashed : Bool} {a b c : Val} (h1 : sameKey lt hashed isMap a b = true)
    (h2 : sameKey lt hashed isMap b c = true) : sameKey lt hashed isMap a c = true := by
  simp only [sameKey_eq] at *
  cases hashed
  · simp only [Bool.false_eq_true, if_false, Bool.and_eq_true, Bool.not_eq_true'] at *
    exact ⟨hlt.negTrans _ _ _ h1.1 h2.1, hlt.negTrans _ _ _ h2.2 h1.2⟩
  · simp only [if_true, decide_eq_true_eq] at *
    exact h1.trans h2

theorem sameKey_symm {hashed : Bool} {a b : Val} (h : sameKey lt hashed isMap a b = true) : sameKey lt hashed isMap b a = true := by
  simp only [sameKey_eq] at *
  cases hashed
  · simp only [Bool.false_eq_true, if_false, Bool.and_eq_true] at *
    exact ⟨h.2, h.1⟩
  · simp only [if_true, decide_eq_true_eq] at *
    exact h.symm

theorem assocInsert_multi {hashed : Bool} (e : Val) (vs : List Val) : (assocInsert lt true hashed isMap e vs).Perm (e :: vs) := by
  unfold assocInsert
  cases hashed
  · simpa using insertSorted_perm e vs
  · simpa using (List.perm_append_comm (l₁ := vs) (l₂ := [e]))

theorem assocInsert_new {hashed : Bool} {e : Val} {vs : List Val} (h : ∀ x ∈ vs, sameKey lt hashed isMap x e = false) :
    (assocInsert lt false hashed isMap e vs).Perm (e :: vs) := by
  unfold assocInsert
  simp only [sameKey_eq] at h
  cases hashed
  · rw [if_neg (by simp), if_pos]
    · exact insertSorted_perm e vs
    · simp only [Bool.false_or, List.all_eq_true]
      intro x hx
      have := h x hx
      simp only [Bool.false_eq_true, if_false] at this
      cases h1 : lt (assocKey isMap x) (assocKey isMap e) <;> cases h2 : lt (assocKey isMap e) (assocKey isMap x) <;> simp_all
  · rw [if_pos rfl, if_pos]
    · exact List.perm_append_comm (l₁ := vs) (l₂ := [e])
    · simp only [Bool.false_or, List.all_eq_true]
      intro x hx
      have := h x hx
      simpa using this

theorem assocInsert_dup {hashed : Bool} {e x : Val} {vs : List Val} (hx : x ∈ vs) (h : sameKey lt hashed isMap x e = true) :
    assocInsert lt false hashed isMap e vs = vs := by
  unfold assocInsert
  rw [sameKey_eq] at h
  cases hashed
  · rw [if_neg (by simp), if_neg]
    simp only [Bool.false_or, List.all_eq_true, Classical.not_forall]
    refine ⟨x, hx, ?_⟩
    simp only [Bool.false_eq_true, if_false, Bool.and_eq_true, Bool.not_eq_true'] at h
    simp [h.1, h.2]
  · rw [if_pos rfl, if_neg]
    simp only [Bool.false_or, List.all_eq_true, Classical.not_forall]
    refine ⟨x, hx, ?_⟩
    simpa using h

theorem assocInsert_ordered (hlt : WeakOrder lt) {multi hashed : Bool} {e : Val} {vs : List Val}
    (h : OrderedK lt multi hashed isMap vs) : OrderedK lt multi hashed isMap (assocInsert lt multi hashed isMap e vs) := by
  unfold assocInsert
  cases hashed
  · rw [if_neg (by simp)]
    split
    · next hc =>
      refine insertSorted_ordered hlt h ?_
      simp only [Bool.or_eq_true, List.all_eq_true] at hc
      exact hc
    · exact h
  · rw [if_pos rfl]
    split
    · next hc =>
      unfold OrderedK at *
      simp only [if_true] at *
      refine List.pairwise_append.mpr ⟨h, by simp, ?_⟩
      intro x hx y hy
      simp only [List.mem_singleton] at hy
      subst hy
      simp only [Bool.or_eq_true, List.all_eq_true, decide_eq_true_eq] at hc
      exact hc.imp id fun h => h x hx
    · exact h

/-- Elements inserted one after the other. -/
def insertAll (lt : Val → Val → Bool) (multi hashed isMap : Bool) (es vs : List Val) : List Val :=
  es.foldl (fun vs e => assocInsert lt multi hashed isMap e vs) vs

theorem insertAll_ordered (hlt : WeakOrder lt) {multi hashed : Bool} (es : List Val) {vs : List Val}
    (h : OrderedK lt multi hashed isMap vs) : OrderedK lt multi hashed isMap (insertAll lt multi hashed isMap es vs) := by
  induction es generalizing vs with
  | nil => exact h
  | cons e es ih => exact ih (assocInsert_ordered hlt h)

theorem insertAll_multi {hashed : Bool} (es vs : List Val) : (insertAll lt true hashed isMap es vs).Perm (vs ++ es) := by
  induction es generalizing vs with
  | nil => simp [insertAll]
  | cons e es ih =>
    refine (ih (assocInsert lt true hashed isMap e vs)).trans ?_
    refine ((assocInsert_multi e vs).append_right es).trans ?_
    exact (List.perm_middle (l₁ := vs)).symm

theorem filter_firsts_perm {hashed : Bool} {vs vs' : List Val} (h : vs.Perm vs') (es : List Val) :
    es.filter (fun x => vs.all fun a => !sameKey lt hashed isMap a x) =
      es.filter (fun x => vs'.all fun a => !sameKey lt hashed isMap a x) := by
  congr 1
  funext x
  rw [Bool.eq_iff_iff]
  simp only [List.all_eq_true]
  exact ⟨fun g a ha => g a (h.mem_iff.mpr ha), fun g a ha => g a (h.mem_iff.mp ha)⟩

theorem insertAll_firsts (hlt : WeakOrder lt) {hashed : Bool} (es vs : List Val) :
    (insertAll lt false hashed isMap es vs).Perm
      (vs ++ (firsts (sameKey lt hashed isMap) es).filter (fun x => vs.all fun a => !sameKey lt hashed isMap a x)) := by
  induction es generalizing vs with
  | nil => simp [insertAll, firsts]
  | cons e es ih =>
    refine (ih (assocInsert lt false hashed isMap e vs)).trans ?_
    by_cases hex : ∃ a ∈ vs, sameKey lt hashed isMap a e = true
    · obtain ⟨a, ha, hae⟩ := hex
      rw [assocInsert_dup ha hae]
      refine .append_left vs ?_
      rw [firsts]
      rw [List.filter_cons_of_neg, List.filter_filter]
      · refine List.Perm.of_eq ?_
        apply List.filter_congr
        intro x _
        rw [Bool.eq_iff_iff]
        simp only [Bool.and_eq_true, List.all_eq_true, Bool.not_eq_true']
        refine ⟨fun g => ⟨g, ?_⟩, fun g => g.1⟩
        cases hh : sameKey lt hashed isMap e x with
        | false => rfl
        | true =>
          have := g a ha
          rw [sameKey_trans hlt hae hh] at this
          cases this
      · simp only [List.all_eq_true, Classical.not_forall]
        exact ⟨a, ha, by simp [hae]⟩
    · have hnew : ∀ x ∈ vs, sameKey lt hashed isMap x e = false := by
        intro x hx
        cases hh : sameKey lt hashed isMap x e with
        | false => rfl
        | true => exact absurd ⟨x, hx, hh⟩ hex
      have hp := assocInsert_new (lt := lt) (isMap := isMap) hnew
      rw [filter_firsts_perm hp]
      refine (hp.append_right _).trans ?_
      rw [firsts]
      rw [List.filter_cons_of_pos, List.filter_filter]
      · refine List.Perm.trans ?_ (List.perm_middle (l₁ := vs)).symm
        refine List.Perm.of_eq ?_
        simp only [List.cons_append, List.all_cons, List.cons.injEq, true_and, List.append_cancel_left_eq]
        apply List.filter_congr
        intro x _
        rw [Bool.and_comm]
      · simp only [List.all_eq_true]
        intro a ha
        simp [hnew a ha]

end Zpp
