import Verif.Proof.Mirror6
import Verif.Props.Lifetime
/-!
# Reading neither leaks nor destroys twice: the runs of the archive

`C75_read` ranges over arbitrary scripts of answers. Here: whatever the archive does with actual data is one of these runs.
-/

namespace Zpp.Props
open Zpp Zpp.Spec

/-- C75. Reading actual data: for any object, any record of who owns what in it, any input and position from which the call
returns or throws, there is a run of the ownership model that is left in the same way, after which the record is one of the object
read; and nothing is leaked or destroyed twice. -/
theorem C75_every_run (d : Nat) (c : Cfg) (t : Ty) (v : Val) (o : OVal) (data : List UInt8) (p n tick : Nat)
    (hm : Mirror c.env t v o) (hs : Sound o.ids n) (x : Exit) (hx : leftBy (decode d c t v data p).s = some x) :
    ∃ script, let r := readO script d c t o ⟨n, [], tick⟩
      r.x = x ∧ Mirror c.env t (decode d c t v data p).v r.v ∧ Clean o.ids n r.h.next r.h.freed r.v.ids := by
  obtain ⟨q, cq, ex, mq⟩ := decode_sim d c t data v p o ⟨n, [], tick⟩ hm x hx
  obtain ⟨s, e⟩ := cq.some
  have cl := C75_read s d c t o n tick hs
  refine ⟨s, ?_⟩
  dsimp only at e cl ⊢
  rw [e] at cl ⊢
  exact ⟨ex, mq, cl⟩

/-- Reading several objects is reading the members of a structure. -/
theorem decMany_decFields (d : Nat) (c : Cfg) (data : List UInt8) : ∀ (args : List (Ty × Val)) (p : Nat),
    decMany d c data args p =
      decFields (fun t v p => decode d c t v data p) (args.map Prod.fst) (args.map Prod.snd) p
  | [], p => rfl
  | (t, v) :: rest, p => by
    simp only [decMany, decFields, List.map_cons, List.headD_cons, List.tail_cons]
    generalize decode d c t v data p = r
    obtain ⟨st, w, p1⟩ := r
    cases st <;> simp only [decMany_decFields d c data rest]

/-- C75. The same for a call with several destinations. -/
theorem C75_every_call (d : Nat) (c : Cfg) (args : List (Ty × Val)) (os : List OVal) (data : List UInt8) (p n tick : Nat)
    (hl : os.length = args.length)
    (hm : ∀ i a, args[i]? = some a → Mirror c.env a.1 a.2 (os.getD i .leaf)) (hs : Sound (idsAll os) n) (x : Exit)
    (hx : leftBy (decMany d c data args p).s = some x) :
    ∃ script, let r := readMany script d c (args.map Prod.fst) os ⟨n, [], tick⟩
      r.x = x ∧ (∀ i a, args[i]? = some a → Mirror c.env a.1 ((decMany d c data args p).vs.getD i .unit) (r.vs.getD i .leaf)) ∧
      Clean (idsAll os) n r.h.next r.h.freed (idsAll r.vs) := by
  rw [decMany_decFields] at hx ⊢
  have m : MirF c.env (args.map Prod.fst) (args.map Prod.snd) os := by
    refine ⟨fun i t g => ?_, fun i g => ?_⟩
    · rw [List.getElem?_map, Option.map_eq_some_iff] at g
      obtain ⟨a, ga, e⟩ := g
      have := hm i a ga
      subst e
      rw [show (args.map Prod.snd).getD i .unit = a.2 by
        rw [List.getD_eq_getElem?_getD, List.getElem?_map, ga]; rfl]
      exact this
    · rw [List.getD_eq_getElem?_getD, List.getElem?_eq_none (by simpa [hl] using g)]
      rfl
  obtain ⟨q, cq, ex, mq⟩ := sim_fields (recO := fun s => readO s d c) (fun t => decode_sim d c t data) _ _ os p ⟨n, [], tick⟩ m x hx
  obtain ⟨s, e⟩ := cq.some
  have cl := C75_call s d c (args.map Prod.fst) os n tick hs
  refine ⟨s, ?_⟩
  dsimp only at e cl ⊢
  unfold readMany at cl ⊢
  rw [e] at cl ⊢
  refine ⟨ex, fun i a g => mq.1 i a.1 ?_, cl⟩
  rw [List.getElem?_map, g]
  rfl

/-- What the records count: one object for each pointer that is not null. -/
example (o : OVal) (env : Nat → Ty)
    (m : Mirror env (.struct false [.uptr .bool, .uptr .bool]) (.list [.none, .some (.num 1)]) o) : o.ids.length = 1 := by
  cases m with
  | nothing h => simp [noneHeld, noneHeldAll] at h
  | struct a b =>
    rename_i os
    have a0 := a 0 _ rfl
    have a1 := a 1 _ rfl
    match os, a0, a1, b with
    | [], a0, a1, b => cases a1 with | nothing h => simp [noneHeld] at h
    | [_], a0, a1, b => cases a1 with | nothing h => simp [noneHeld] at h
    | o0 :: o1 :: os, a0, a1, b =>
      have z : idsAll os = [] := by
        have : ∀ (os : List OVal), (∀ i, (os.getD i .leaf).ids = []) → idsAll os = [] := by
          intro os
          induction os with
          | nil => intro _; rfl
          | cons w ws ih =>
            intro h
            simp only [idsAll]
            rw [show w.ids = [] from h 0, ih fun i => h (i + 1)]
            rfl
        exact this os fun i => b (i + 2) (by simp)
      have e0 : o0.ids = [] := by cases a0 with | nothing _ h => exact h
      cases a1 with
      | nothing h => simp [noneHeld] at h
      | uptr h =>
        cases h with
        | nothing _ h => simp [OVal.ids, idsAll, e0, z, h]

/-- A vector of owning pointers, the second one's object truncated: both pointers of the vector before the call are mirrored, the
call fails, and the theorem applies. -/
example :
    let t : Ty := .seq .vector none (.uptr (.scalar .int 2))
    let v : Val := .list [.some (.num 7), .some (.num 8)]
    let o : OVal := .node [.own 0 .leaf, .own 1 .leaf]
    let c : Cfg := { host := .little, aware := false, dsz := .fixed 1, g := ⟨true, 3, 2, 100, false, 100⟩,
                     env := fun _ => .bool, sizeof := fun _ => 1, keyLt := fun _ _ _ => false }
    let r := decode 3 c t v [3, 9, 0, 10] 0
    Mirror c.env t v o ∧ Sound o.ids 2 ∧ leftBy r.s = some .err ∧
    r.v.elems.length = 3 := by
  refine ⟨?_, ⟨?_, ?_⟩, ?_, ?_⟩
  · refine .seq (hidden := fun _ => .none) (by simp) (fun i h => ?_) (fun i h => ?_) (fun _ i h => ?_)
    · match i, h with
      | 0, _ => exact .uptr (.nothing rfl rfl)
      | 1, _ => exact .uptr (.nothing rfl rfl)
    · match i, h with
      | i + 2, _ => exact .nothing rfl rfl
    · match i, h with
      | i + 2, _ => rfl
  all_goals decide +kernel

end Zpp.Props
