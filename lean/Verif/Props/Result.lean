import Verif.Proof.Result
/-!
# `value_or_errc`

Object lifetimes in histories of results.
-/

namespace Zpp.Props
open Zpp Zpp.Spec

/-- No variable and no object. -/
def noVars {α : Type} : VoeSt α := ⟨fun _ => none, []⟩

/-- C54. Take any history of constructing (from values and errors), moving, reading and destroying any number of
`value_or_errc` objects that makes sense if a variable simply holds a value or an error: `value()` is only called when
there is a value, `error()` only when there is an error. Then there is no undefined behaviour: every caller sees what the
plain reading gives. No object inside is destroyed twice, and if its destructor has effects, then when all variables are
gone every object made has been destroyed exactly once. -/
theorem C54_results {α : Type} (triv : Bool) (gone : α → α) (ops : List (VoeOp α)) (rs : List (VoeRes α)) (m : Outcomes α)
    (hr : ResultRun gone ops (fun _ => none) rs m) :
    (voeRun triv gone ops noVars).1 = rs ∧
    (∀ b ∈ (voeRun triv gone ops noVars).2.objs, b.destroyed ≤ 1) ∧
    (triv = false → (∀ i, m i = none) → ∀ b ∈ (voeRun triv gone ops noVars).2.objs, b.destroyed = 1) := by
  have h0 : VoeSim triv (noVars : VoeSt α) (fun _ => none) :=
    ⟨fun _ _ => rfl, fun _ _ h => (by cases h), fun _ _ h => (by cases h), fun _ _ _ h => (by cases h),
      fun _ _ _ h => (by simp [noVars] at h), fun _ _ h => (by simp [noVars] at h)⟩
  obtain ⟨h1, h2⟩ := voe_run h0 hr
  refine ⟨h1, ?_, ?_⟩
  · intro b hb
    obtain ⟨o, ho⟩ := List.getElem?_of_mem hb
    exact h2.le o b ho
  · intro ht hm b hb
    obtain ⟨o, ho⟩ := List.getElem?_of_mem hb
    rcases h2.dead ht o b ho with h3 | ⟨i, h3⟩
    · exact h3
    · rw [h2.free i (hm i)] at h3; cases h3

/-- C54: objects inside are constructed as often as values are given and moved, so that none is lost: the number of objects is
the number of `create`s plus the number of moves that found a value. Here: a value is made, moved twice, read and
destroyed thrice; an error is moved and thrown. -/
example :
    let ops : List (VoeOp Nat) := [.create 0 7, .move 0 1, .fail 2 (some .badMessage), .move 1 3, .value 3, .orThrow 3,
      .move 2 4, .orThrow 4, .error 4, .success 0, .failure 4, .destroy 0, .destroy 1, .destroy 3, .destroy 2, .destroy 4]
    let rs : List (VoeRes Nat) := [.done, .done, .done, .done, .value 7, .value 7, .done, .thrown (some .badMessage),
      .error (some .badMessage), .bool true, .bool true, .done, .done, .done, .done, .done]
    (∃ m, ResultRun (fun _ => 0) ops (fun _ => none) rs m ∧ ∀ i, m i = none) ∧
    (voeRun false (fun _ => 0) ops noVars).1 = rs ∧
    (voeRun false (fun _ => 0) ops noVars).2.objs = [⟨0, 1⟩, ⟨0, 1⟩, ⟨7, 1⟩] := by
  refine ⟨?_, by decide +kernel, by decide +kernel⟩
  refine ⟨_, .step (.create rfl) <| .step (.moveValue rfl rfl) <| .step (.fail rfl) <| .step (.moveValue rfl rfl) <|
    .step (.value rfl) <| .step (.orThrowValue rfl) <| .step (.moveError rfl rfl) <| .step (.orThrowError rfl) <|
    .step (.error rfl) <| .step (.successValue rfl) <| .step (.failureError rfl) <| .step (.destroy rfl) <|
    .step (.destroy rfl) <| .step (.destroy rfl) <| .step (.destroy rfl) <| .step (.destroy rfl) <| .done _, ?_⟩
  intro i
  simp only [Outcomes.put]
  repeat' split
  all_goals first | rfl | omega

/-- C54 does not extend to default-constructed objects: `success()` is true although there is no value; reading the value, moving
the object, and destroying it (unless the value's destructor does nothing) are undefined. -/
theorem C54_default_constructed {α : Type} (gone : α → α) (s : VoeSt α) (i j : Nat) (hi : s.vars i = none) (hj : s.vars j = none)
    (hij : j ≠ i) :
    let s' := (voeStep false gone s (.default i)).2
    (voeStep false gone s' (.success i)).1 = .bool true ∧
    (voeStep false gone s' (.value i)).1 = .ub ∧
    (voeStep false gone s' (.move i j)).1 = .ub ∧
    (voeStep false gone s' (.destroy i)).1 = .ub := by
  simp only [voeStep, hi, set_vars, if_pos, if_neg hij, hj, voeValue, voeMove, voeDestroy]
  refine ⟨?_, ?_, ?_, ?_⟩ <;> first | rfl | trivial

end Zpp.Props
