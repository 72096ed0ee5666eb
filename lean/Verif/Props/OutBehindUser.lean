import Verif.Proof.OutSameUser
import Verif.Props.OutBehind
import Verif.Props.UserNest
/-!
# C117 and C118 for objects with user-written functions
-/

namespace Zpp.Props
open Spec

theorem fitCall_code (c : Cfg) (noFit : Bool) (m : OutM) (st : OutSt) :
    (fitCall c noFit m st).1 = (m st).1 ∨ (fitCall c noFit m st).1 = .badAlloc := by
  unfold fitCall
  split
  · generalize m st = r
    obtain ⟨s, st'⟩ := r
    cases s <;> simp only <;> first | exact .inl rfl | exact .inl trivial | (split <;> first | exact .inl rfl | (split <;> first | exact .inl rfl | exact .inr rfl))
  · exact .inl rfl

theorem uCall_not_ub (d : Nat) (u : UCfg) (hg : GrowthOk u.c.g) (noFit : Bool) (t : UTy) (v : Val) (st : OutSt) (hv : Valid st) :
    (uCall d u noFit t v st).1 ≠ .ub := by
  have h : (uEncode d u t v st).1 ≠ .ub := by
    rcases uEncode_safe u hg (fun i => uAll_true (u.env i)) d t v (uAll_true t) st hv with h | ⟨_, _, h, _⟩
    · intro e
      have := h.code
      rw [e] at this
      exact this
    · simp [h]
  intro e
  rcases fitCall_code u.c noFit (uEncode d u t v) st with h1 | h1
  · exact h (h1 ▸ e)
  · rw [uCall, h1] at e
    cases e

/-- C118, objects with user-written functions anywhere inside: as `C118_behind`. -/
theorem C118_user (k d : Nat) (u : UCfg) (g' : Growth) (noFit noFit' : Bool) (t : UTy) (v : Val) (a b : OutSt)
    (hg : GrowthOk u.c.g) (hg' : GrowthOk g') (h : SameBehind k a b) :
    let r := uCall d u noFit t v a
    let r' := uCall d { u with c := { u.c with g := g' } } noFit' t v b
    NoRoom r.1 ∨ NoRoom r'.1 ∨ (r.1 = r'.1 ∧ (r.1 = .ok → SameBehind k r.2 r'.2)) := by
  have fin : ∀ {s : Status}, Stuck s → s ≠ .ub → NoRoom s := fun h h' => h.elim id fun e => absurd e h'
  rcases (uCall_same d u noFit noFit' hg hg' t v).run a b h with h1 | h1 | h1
  · exact .inl (fin h1 (uCall_not_ub d u hg noFit t v a h.left))
  · exact .inr (.inl (fin h1 (uCall_not_ub d (u.withG g') hg' noFit' t v b h.right)))
  · exact .inr (.inr h1)

/-- C117, objects with user-written functions anywhere inside: as `C117_call`. -/
theorem C117_user (d : Nat) (u : UCfg) (g' : Growth) (noFit noFit' : Bool) (t : UTy) (v : Val) (a b : OutSt)
    (hg : GrowthOk u.c.g) (hg' : GrowthOk g') (h : SameOut a b) :
    let r := uCall d u noFit t v a
    let r' := uCall d { u with c := { u.c with g := g' } } noFit' t v b
    NoRoom r.1 ∨ NoRoom r'.1 ∨ (r.1 = r'.1 ∧ (r.1 = .ok → SameOut r.2 r'.2)) :=
  (C118_user 0 d u g' noFit noFit' t v a b hg hg' h.behind).imp id (Or.imp id fun h => ⟨h.1, fun ho => (h.2 ho).out⟩)

/-! ## The hypotheses are met -/

/-- A JSON document, read and written by a user-written recursive function: behind a byte in a growing buffer, and in a fixed buffer. -/
example : uCall 20 jsonCfg false (.ref 0) jDoc ⟨[9], 1⟩ = (.ok, ⟨9 :: jBytes, 20⟩) ∧
    uCall 20 { jsonCfg with c := { jsonCfg.c with g := Checks.fixed } } true (.ref 0) jDoc ⟨List.replicate 19 0, 0⟩ = (.ok, ⟨jBytes, 19⟩) ∧
    GrowthOk jsonCfg.c.g ∧ GrowthOk Checks.fixed := by
  refine ⟨by decide +kernel, by decide +kernel, grow_ok, (fun h => nomatch h)⟩

example : SameBehind 1 ⟨[9], 1⟩ ⟨List.replicate 19 0, 0⟩ := by
  refine ⟨⟨by decide, by decide⟩, ⟨by decide, by decide⟩, rfl, fun i => ?_⟩
  rw [List.getElem?_eq_none (by simp), List.getElem?_replicate]
  split <;> rfl

end Zpp.Props
