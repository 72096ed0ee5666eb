import Verif.Spec.Result
/-!
# Lemmas: `value_or_errc`
-/

namespace Zpp
open Zpp.Spec

/-- Simulation: every variable holds what it should, different variables own different objects, and objects owned by no
variable are dead. -/
structure VoeSim {α : Type} (triv : Bool) (s : VoeSt α) (m : Outcomes α) : Prop where
  free : ∀ i, m i = none → s.vars i = none
  err : ∀ i e, m i = some (.error e) → s.vars i = some ⟨.error e, true⟩
  val : ∀ i v, m i = some (.value v) → ∃ o, s.vars i = some ⟨.value o, false⟩ ∧ s.objs[o]? = some ⟨v, 0⟩
  inj : ∀ i j o, s.vars i = some ⟨.value o, false⟩ → s.vars j = some ⟨.value o, false⟩ → i = j
  dead : triv = false → ∀ (o : Nat) (b : VObj α), s.objs[o]? = some b → b.destroyed = 1 ∨ ∃ i, s.vars i = some ⟨.value o, false⟩
  le : ∀ (o : Nat) (b : VObj α), s.objs[o]? = some b → b.destroyed ≤ 1

theorem VoeSim.lt {α : Type} {t : Bool} {s : VoeSt α} {m : Outcomes α} (h : VoeSim t s m) {i o : Nat}
    (hi : s.vars i = some ⟨.value o, false⟩) : o < s.objs.length := by
  rcases hm : m i with _ | (v | e)
  · rw [h.free i hm] at hi; cases hi
  · obtain ⟨o', h1, h2⟩ := h.val i v hm
    rw [h1] at hi
    cases hi
    exact (List.getElem?_eq_some_iff.1 h2).1
  · rw [h.err i e hm] at hi; cases hi

theorem set_vars {α : Type} (s : VoeSt α) (i k : Nat) (x : Option Voe) :
    (s.set i x).vars k = if k = i then x else s.vars k := rfl

theorem set_objs {α : Type} (s : VoeSt α) (i : Nat) (x : Option Voe) : (s.set i x).objs = s.objs := rfl

/-- A new object in a free variable. -/
theorem VoeSim.create {α : Type} {t : Bool} {s : VoeSt α} {m : Outcomes α} (h : VoeSim t s m) {i : Nat} (v : α)
    (hi : m i = none) :
    VoeSim t (({ s with objs := s.objs ++ [⟨v, 0⟩] } : VoeSt α).set i (some ⟨.value s.objs.length, false⟩))
      (m.put i (some (.value v))) := by
  have hfree := h.free i hi
  have hlt : ∀ k o, s.vars k = some ⟨.value o, false⟩ → o < s.objs.length := fun k o hk => h.lt hk
  constructor
  · intro k hk
    simp only [Outcomes.put] at hk
    rw [set_vars]
    split at hk
    · cases hk
    · rename_i hne; rw [if_neg hne]; exact h.free k hk
  · intro k e hk
    simp only [Outcomes.put] at hk
    rw [set_vars]
    split at hk
    · cases hk
    · rename_i hne; rw [if_neg hne]; exact h.err k e hk
  · intro k w hk
    simp only [Outcomes.put] at hk
    rw [set_vars, set_objs]
    split at hk
    · rename_i he
      cases hk
      rw [if_pos he]
      exact ⟨_, rfl, by simp⟩
    · rename_i hne
      rw [if_neg hne]
      obtain ⟨o, h1, h2⟩ := h.val k w hk
      refine ⟨o, h1, ?_⟩
      rw [List.getElem?_append_left (hlt k o h1)]
      exact h2
  · intro a b o ha hb
    rw [set_vars] at ha hb
    split at ha <;> split at hb
    · omega
    · cases ha; exact absurd (hlt b _ hb) (by omega)
    · cases hb; exact absurd (hlt a _ ha) (by omega)
    · exact h.inj a b o ha hb
  · intro ht o b hb
    rw [set_objs] at hb
    by_cases ho : o < s.objs.length
    · rw [List.getElem?_append_left ho] at hb
      rcases h.dead ht o b hb with h1 | ⟨k, h1⟩
      · exact .inl h1
      · refine .inr ⟨k, ?_⟩
        rw [set_vars, if_neg]
        · exact h1
        · rintro rfl; rw [hfree] at h1; cases h1
    · have : o = s.objs.length := by
        have := (List.getElem?_eq_some_iff.1 hb).1
        simp at this; omega
      subst this
      exact .inr ⟨i, by rw [set_vars, if_pos rfl]⟩
  · intro o b hb
    rw [set_objs] at hb
    by_cases ho : o < s.objs.length
    · rw [List.getElem?_append_left ho] at hb; exact h.le o b hb
    · have : o = s.objs.length := by
        have := (List.getElem?_eq_some_iff.1 hb).1
        simp at this; omega
      subst this
      simp at hb
      subst hb
      exact Nat.zero_le _

/-- An error in a free variable. -/
theorem VoeSim.fail {α : Type} {t : Bool} {s : VoeSt α} {m : Outcomes α} (h : VoeSim t s m) {i : Nat} (e : Option Errc)
    (hi : m i = none) : VoeSim t (s.set i (some ⟨.error e, true⟩)) (m.put i (some (.error e))) := by
  have hfree := h.free i hi
  constructor
  · intro k hk
    simp only [Outcomes.put] at hk
    rw [set_vars]
    split at hk
    · cases hk
    · rename_i hne; rw [if_neg hne]; exact h.free k hk
  · intro k e' hk
    simp only [Outcomes.put] at hk
    rw [set_vars]
    split at hk
    · rename_i he; cases hk; rw [if_pos he]
    · rename_i hne; rw [if_neg hne]; exact h.err k e' hk
  · intro k w hk
    simp only [Outcomes.put] at hk
    rw [set_vars]
    split at hk
    · cases hk
    · rename_i hne
      rw [if_neg hne]
      exact h.val k w hk
  · intro a b o ha hb
    rw [set_vars] at ha hb
    split at ha <;> split at hb
    · cases ha
    · cases ha
    · cases hb
    · exact h.inj a b o ha hb
  · intro ht o b hb
    rcases h.dead ht o b hb with h1 | ⟨k, h1⟩
    · exact .inl h1
    · refine .inr ⟨k, ?_⟩
      rw [set_vars, if_neg]
      · exact h1
      · rintro rfl; rw [hfree] at h1; cases h1
  · exact h.le

/-- The contents of an object change. -/
theorem VoeSim.content {α : Type} {t : Bool} {s : VoeSt α} {m : Outcomes α} (h : VoeSim t s m) {i o : Nat} (v v' : α)
    (hv : s.vars i = some ⟨.value o, false⟩) (ho : s.objs[o]? = some ⟨v, 0⟩) :
    VoeSim t { s with objs := s.objs.set o ⟨v', 0⟩ } (m.put i (some (.value v'))) := by
  have hlt := (List.getElem?_eq_some_iff.1 ho).1
  constructor
  · intro k hk
    simp only [Outcomes.put] at hk
    split at hk
    · cases hk
    · exact h.free k hk
  · intro k e hk
    simp only [Outcomes.put] at hk
    split at hk
    · cases hk
    · exact h.err k e hk
  · intro k w hk
    simp only [Outcomes.put] at hk
    split at hk
    · rename_i he
      cases hk
      subst he
      exact ⟨o, hv, by simp [hlt]⟩
    · rename_i hne
      obtain ⟨o', h1, h2⟩ := h.val k w hk
      refine ⟨o', h1, ?_⟩
      simp only
      rw [List.getElem?_set, if_neg]
      · exact h2
      · rintro rfl; exact hne (h.inj k i _ h1 hv)
  · exact h.inj
  · intro ht o' b hb
    simp only [List.getElem?_set] at hb
    split at hb
    · rename_i he; subst he; exact .inr ⟨i, hv⟩
    · exact h.dead ht o' b hb
  · intro o' b hb
    simp only [List.getElem?_set] at hb
    split at hb
    · rename_i he
      subst he
      cases hb
      exact Nat.zero_le _
    · exact h.le o' b hb

/-- A variable ends. -/
theorem VoeSim.end {α : Type} {t : Bool} {s : VoeSt α} {m : Outcomes α} (h : VoeSim t s m) {i : Nat}
    (hd : t = false → ∀ o, s.vars i ≠ some ⟨.value o, false⟩) : VoeSim t (s.set i none) (m.put i none) := by
  constructor
  · intro k hk
    simp only [Outcomes.put] at hk
    rw [set_vars]
    split at hk
    · rename_i he; rw [if_pos he]
    · rename_i hne; rw [if_neg hne]; exact h.free k hk
  · intro k e' hk
    simp only [Outcomes.put] at hk
    rw [set_vars]
    split at hk
    · cases hk
    · rename_i hne; rw [if_neg hne]; exact h.err k e' hk
  · intro k w hk
    simp only [Outcomes.put] at hk
    rw [set_vars]
    split at hk
    · cases hk
    · rename_i hne
      rw [if_neg hne]
      exact h.val k w hk
  · intro a b o ha hb
    rw [set_vars] at ha hb
    split at ha <;> split at hb
    · cases ha
    · cases ha
    · cases hb
    · exact h.inj a b o ha hb
  · intro ht o b hb
    rcases h.dead ht o b hb with h1 | ⟨k, h1⟩
    · exact .inl h1
    · refine .inr ⟨k, ?_⟩
      rw [set_vars, if_neg]
      · exact h1
      · rintro rfl; exact hd ht o h1
  · exact h.le

/-- A variable that owns an object ends with it. -/
theorem VoeSim.endValue {α : Type} {s : VoeSt α} {m : Outcomes α} (h : VoeSim false s m) {i o : Nat} {v : α}
    (hv : s.vars i = some ⟨.value o, false⟩) (ho : s.objs[o]? = some ⟨v, 0⟩) :
    VoeSim false (({ s with objs := s.objs.set o ⟨v, 1⟩ } : VoeSt α).set i none) (m.put i none) := by
  have hlt := (List.getElem?_eq_some_iff.1 ho).1
  constructor
  · intro k hk
    simp only [Outcomes.put] at hk
    rw [set_vars]
    split at hk
    · rename_i he; rw [if_pos he]
    · rename_i hne; rw [if_neg hne]; exact h.free k hk
  · intro k e' hk
    simp only [Outcomes.put] at hk
    rw [set_vars]
    split at hk
    · cases hk
    · rename_i hne; rw [if_neg hne]; exact h.err k e' hk
  · intro k w hk
    simp only [Outcomes.put] at hk
    rw [set_vars, set_objs]
    split at hk
    · cases hk
    · rename_i hne
      rw [if_neg hne]
      obtain ⟨o', h1, h2⟩ := h.val k w hk
      refine ⟨o', h1, ?_⟩
      rw [List.getElem?_set, if_neg]
      · exact h2
      · rintro rfl; exact hne (h.inj k i _ h1 hv)
  · intro a b o ha hb
    rw [set_vars] at ha hb
    split at ha <;> split at hb
    · cases ha
    · cases ha
    · cases hb
    · exact h.inj a b o ha hb
  · intro ht o' b hb
    rw [set_objs, List.getElem?_set] at hb
    split at hb
    · rename_i he
      subst he
      cases hb
      exact .inl rfl
    · rename_i hne
      rcases h.dead ht o' b hb with h1 | ⟨k, h1⟩
      · exact .inl h1
      · refine .inr ⟨k, ?_⟩
        rw [set_vars, if_neg]
        · exact h1
        · rintro rfl; rw [hv] at h1; cases h1; exact hne rfl
  · intro o' b hb
    rw [set_objs, List.getElem?_set] at hb
    split at hb
    · rename_i he
      subst he
      cases hb
      exact Nat.le_refl _
    · exact h.le o' b hb

theorem voe_step {α : Type} {t : Bool} {gone : α → α} {s : VoeSt α} {m m' : Outcomes α} {op : VoeOp α} {r : VoeRes α}
    (h : VoeSim t s m) (hs : ResultStep gone op m r m') :
    (voeStep t gone s op).1 = r ∧ VoeSim t (voeStep t gone s op).2 m' := by
  cases hs with
  | create hi =>
    simp only [voeStep, h.free _ hi]
    exact ⟨trivial, h.create _ hi⟩
  | fail hi =>
    simp only [voeStep, h.free _ hi]
    exact ⟨trivial, h.fail _ hi⟩
  | @moveValue _ i j v hi hj =>
    obtain ⟨o, h1, h2⟩ := h.val _ _ hi
    simp only [voeStep, h1, h.free _ hj, voeMove, h2]
    refine ⟨rfl, ?_⟩
    have hc := h.content v (gone v) h1 h2
    have hne : j ≠ i := by rintro rfl; rw [hi] at hj; cases hj
    have := hc.create (i := j) v (by simp only [Outcomes.put, if_neg hne]; exact hj)
    simp only [List.length_set] at this
    exact this
  | moveError hi hj =>
    simp only [voeStep, h.err _ _ hi, h.free _ hj, voeMove]
    exact ⟨rfl, h.fail _ hj⟩
  | @destroy _ i x hi =>
    cases x with
    | error e =>
      have h1 := h.err _ _ hi
      simp only [voeStep, h1, voeDestroy]
      cases t with
      | true => exact ⟨rfl, h.end (fun ht => by cases ht)⟩
      | false => exact ⟨rfl, h.end (fun _ o ho => by rw [h1] at ho; cases ho)⟩
    | value v =>
      obtain ⟨o, h1, h2⟩ := h.val _ _ hi
      simp only [voeStep, h1, voeDestroy, h2]
      cases t with
      | true => exact ⟨rfl, h.end (fun ht => by cases ht)⟩
      | false => exact ⟨rfl, h.endValue h1 h2⟩
  | successValue hi =>
    obtain ⟨o, h1, h2⟩ := h.val _ _ hi
    simp only [voeStep, h1]
    exact ⟨rfl, h⟩
  | successError hi =>
    simp only [voeStep, h.err _ _ hi]
    exact ⟨rfl, h⟩
  | failureValue hi =>
    obtain ⟨o, h1, h2⟩ := h.val _ _ hi
    simp only [voeStep, h1]
    exact ⟨trivial, h⟩
  | failureError hi =>
    simp only [voeStep, h.err _ _ hi]
    exact ⟨trivial, h⟩
  | value hi =>
    obtain ⟨o, h1, h2⟩ := h.val _ _ hi
    simp only [voeStep, h1, voeValue, h2]
    exact ⟨rfl, h⟩
  | error hi =>
    simp only [voeStep, h.err _ _ hi, voeError]
    exact ⟨trivial, h⟩
  | orThrowValue hi =>
    obtain ⟨o, h1, h2⟩ := h.val _ _ hi
    simp only [voeStep, h1, voeValue, h2]
    exact ⟨rfl, h⟩
  | orThrowError hi =>
    simp only [voeStep, h.err _ _ hi, voeError]
    exact ⟨rfl, h⟩

theorem voe_run {α : Type} {t : Bool} {gone : α → α} {ops : List (VoeOp α)} {s : VoeSt α} {m m' : Outcomes α}
    {rs : List (VoeRes α)} (h : VoeSim t s m) (hr : ResultRun gone ops m rs m') :
    (voeRun t gone ops s).1 = rs ∧ VoeSim t (voeRun t gone ops s).2 m' := by
  induction hr generalizing s with
  | done m => exact ⟨rfl, h⟩
  | step h1 _ ih =>
    obtain ⟨e, h2⟩ := voe_step h h1
    obtain ⟨e', h3⟩ := ih h2
    simp only [voeRun]
    exact ⟨by rw [e, e'], h3⟩

end Zpp
