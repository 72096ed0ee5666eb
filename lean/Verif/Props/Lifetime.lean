import Verif.Proof.Lifetime
import Verif.Spec.Lifetime
/-!
# Reading neither leaks nor destroys twice
-/

namespace Zpp.Props
open Zpp Zpp.Spec

/-- From the balance to the specification. -/
theorem clean_of_bal {a b : List Nat} {h h' : Heap} (hs : Sound a h.next) (hf : h.freed = []) (x : Bal a h b h') :
    Clean a h.next h'.next h'.freed b := by
  have key : ∀ id, b.count id + h'.freed.count id = a.count id + (if h.next ≤ id ∧ id < h'.next then 1 else 0) := by
    intro id
    have := x.eq id
    rw [hf] at this
    simpa using this
  have one : ∀ id, a.count id + (if h.next ≤ id ∧ id < h'.next then 1 else 0) ≤ 1 := by
    intro id
    by_cases hm : id ∈ a
    · have := hs.old id hm
      have := List.nodup_iff_count.mp hs.once id
      rw [if_neg (by omega)]
      omega
    · rw [List.count_eq_zero.mpr hm]
      split <;> omega
  refine ⟨?_, ?_, ?_, ?_, ?_⟩
  · exact List.nodup_iff_count.mpr fun id => by have := key id; have := one id; omega
  · intro id hb hd
    have := List.count_pos_iff.mpr hb
    have := List.count_pos_iff.mpr hd
    have := key id
    have := one id
    omega
  · exact List.nodup_iff_count.mpr fun id => by have := key id; have := one id; omega
  · intro id hid
    have hpos : 0 < a.count id + (if h.next ≤ id ∧ id < h'.next then 1 else 0) := by
      rcases hid with hid | hid
      · rw [if_pos hid]; omega
      · have := List.count_pos_iff.mpr hid; omega
    have := key id
    by_cases hb : 0 < b.count id
    · exact Or.inl (List.count_pos_iff.mp hb)
    · exact Or.inr (List.count_pos_iff.mp (by omega))
  · intro id hid
    have hpos : 0 < b.count id + h'.freed.count id := by
      rcases hid with hid | hid <;> (have := List.count_pos_iff.mpr hid; omega)
    have := key id
    by_cases hm : h.next ≤ id ∧ id < h'.next
    · exact Or.inl hm
    · rw [if_neg hm] at this
      exact Or.inr (List.count_pos_iff.mp (by omega))

/-- C75. Reading an object of any type, for any course of events (any input, any failure, an exception anywhere): when the call
is left, in whichever way, each object it created and each object the destination owned is either owned by the destination, once,
or was destroyed, once. -/
theorem C75_read (script : Nat → Nat) (d : Nat) (c : Cfg) (t : Ty) (old : OVal) (n tick : Nat) (hs : Sound old.ids n) :
    let r := readO script d c t old ⟨n, [], tick⟩
    Clean old.ids n r.h.next r.h.freed r.v.ids :=
  clean_of_bal (h := ⟨n, [], tick⟩) hs rfl (readO_bal script d c t old ⟨n, [], tick⟩)

/-- C75. The same for a call with several destinations. -/
theorem C75_call (script : Nat → Nat) (d : Nat) (c : Cfg) (ts : List Ty) (olds : List OVal) (n tick : Nat)
    (hs : Sound (idsAll olds) n) :
    let r := readMany script d c ts olds ⟨n, [], tick⟩
    Clean (idsAll olds) n r.h.next r.h.freed (idsAll r.vs) :=
  clean_of_bal (h := ⟨n, [], tick⟩) hs rfl (readFields_bal (readO_bal script d c) ts olds ⟨n, [], tick⟩)

/-- C75. Calling a function with parameters from an archive: what was created is destroyed or was given to the function,
which has all parameters if the call succeeds. -/
theorem C75_apply (script : Nat → Nat) (d : Nat) (c : Cfg) (ts : List Ty) (n tick : Nat) :
    let r := applyO script d c ts ⟨n, [], tick⟩
    Clean [] n r.h.next r.h.freed r.v.ids ∧ (r.x = .ok → ∃ vs, r.v = .node vs) := by
  refine ⟨?_, ?_⟩
  case refine_2 =>
    simp only [applyO, withTemp]
    split
    case h_2 => intro h; cases h
    split
    case h_2 => intro hx; simp_all
    rename_i hr
    split
    · intro _
      injection hr with h1 h2 h3
      exact ⟨_, h2.symm⟩
    · rename_i hc
      unfold commit at hc
      split at hc <;> simp at hc
    · intro h; cases h
  refine clean_of_bal (a := []) (h := ⟨n, [], tick⟩) ⟨List.nodup_nil, fun id h => by simp at h⟩ rfl ?_
  refine withTemp_bal (dest := .leaf) ?_ ?_ ⟨n, [], tick⟩
  · intro v h
    have := readFields_bal (readO_bal script d c) ts v.kids h
    rw [kids_ids] at this
    exact this
  · intro v h
    simp only [OVal.ids, List.append_nil]
    exact Bal.refl _ _

/-- Two owning pointers, the second one's object truncated: the first pointer owns its new object (2), the second keeps its old
one (1); the old object of the first (0) and the new one of the second (3) are destroyed. -/
example :
    let t : Ty := .struct false [.uptr (.scalar .int 4), .uptr (.scalar .int 4)]
    let old : OVal := .node [.own 0 .leaf, .own 1 .leaf]
    let c : Cfg := { host := .little, aware := false, dsz := .fixed 4, g := ⟨true, 3, 2, 100, false, 100⟩,
                     env := fun _ => .bool, sizeof := fun _ => 1, keyLt := fun _ _ _ => false }
    let r := readO (fun k => if k = 4 then 1 else 0) 3 c t old ⟨2, [], 0⟩
    Sound old.ids 2 ∧ r.x = .err ∧ r.v.ids = [2, 1] ∧ r.h.freed = [3, 0] ∧ r.h.next = 4 := by
  refine ⟨⟨?_, ?_⟩, ?_, ?_, ?_, ?_⟩ <;> decide +kernel

/-- A map of owning pointers into which the second insertion throws: the old object (0) went with `clear()`, the first temporary
(1) after its object (2) was moved to the map; the second temporary (3) and its object (4) are destroyed by the exception. -/
example :
    let t : Ty := .assoc false false none (.scalar .int 4) (some (.uptr (.scalar .int 4)))
    let old : OVal := .node [.node [.leaf, .own 0 .leaf]]
    let c : Cfg := { host := .little, aware := false, dsz := .fixed 4, g := ⟨true, 3, 2, 100, false, 100⟩,
                     env := fun _ => .bool, sizeof := fun _ => 1, keyLt := fun _ _ _ => false }
    let r := readO (fun k => if k = 1 then 2 else if k = 14 then 2 else 0) 3 c t old ⟨1, [], 0⟩
    Sound old.ids 1 ∧ r.x = .thrown ∧ r.v.ids = [2] ∧ r.h.freed = [3, 4, 1, 0] ∧ r.h.next = 5 := by
  refine ⟨⟨?_, ?_⟩, ?_, ?_, ?_, ?_⟩ <;> decide +kernel

end Zpp.Props
