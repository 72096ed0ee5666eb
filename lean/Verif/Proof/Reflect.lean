import Verif.Model.Reflect
/-!
# Lemmas: member reflection
-/

namespace Zpp

theorem visitBranches_eq : visitBranches = (List.range 51).map fun n => ⟨n, List.range' 1 n, List.range' 1 n⟩ := by
  decide +kernel

theorem visitTypesBranches_eq : visitTypesBranches = (List.range 51).map fun n => ⟨n, List.range' 1 n, List.range' 1 n⟩ := by
  decide +kernel

theorem braceChain_eq : braceChain = (List.range' 1 50).reverse.map fun n => (n, n) := by decide +kernel

theorem bindChain_eq : bindChain = (List.range' 1 50).map fun n => (n, n) := by decide +kernel

theorem namesOf_cons {α : Type} (x : Nat) (a : α) (env : List (Nat × α)) : ∀ xs : List Nat, x ∉ xs →
    namesOf ((x, a) :: env) xs = namesOf env xs
  | [], _ => rfl
  | y :: ys, h => by
    simp only [List.mem_cons, not_or] at h
    have hb : (y == x) = false := by simp; exact fun e => h.1 e.symm
    simp only [namesOf, List.lookup_cons, hb, namesOf_cons x a env ys h.2]

theorem namesOf_zip {α : Type} : ∀ (names : List Nat) (members : List α), names.Nodup → names.length = members.length →
    namesOf (names.zip members) names = some members
  | [], [], _, _ => rfl
  | x :: xs, a :: as, hn, hl => by
    rw [List.nodup_cons] at hn
    simp only [List.length_cons] at hl
    simp only [List.zip_cons_cons, namesOf, List.lookup_cons_self, namesOf_cons x a _ xs hn.1,
      namesOf_zip xs as hn.2 (by omega)]

theorem runBranch_eq {α : Type} (members : List α) (n : Nat) : ∀ ks : List Nat, n ∈ ks →
    runBranch n members (ks.map fun n => ⟨n, List.range' 1 n, List.range' 1 n⟩) =
      if n = 0 then some [] else if n = members.length then some members else none
  | k :: ks, h => by
    simp only [List.map_cons, runBranch]
    by_cases e : k = n
    · subst e
      simp only [if_true, bindNames, List.length_range']
      split
      · rfl
      · split
        · rename_i h2
          split at h2
          · rename_i hl
            cases h2
            rw [namesOf_zip _ _ (List.nodup_range') (by simpa using hl), if_pos hl]
          · cases h2
        · rename_i h2
          split at h2
          · cases h2
          · rename_i hl; rw [if_neg hl]
    · rw [if_neg e]
      exact runBranch_eq members n ks (by simpa [Ne.symm e] using h)

theorem firstOf_desc (n : Nat) (ok : Nat → Bool) (hok : ∀ k, ok k = true ↔ k ≤ n) : ∀ m,
    firstOf ok ((List.range' 1 m).reverse.map fun n => (n, n)) = if min n m = 0 then none else some (min n m)
  | 0 => by simp [firstOf]
  | m + 1 => by
    rw [show List.range' 1 (m + 1) = List.range' 1 m ++ [m + 1] by
      rw [show [m + 1] = List.range' (1 + 1 * m) 1 by simp [Nat.add_comm], List.range'_append]]
    rw [List.reverse_append]
    simp only [List.reverse_cons, List.reverse_nil, List.nil_append, List.cons_append, List.map_cons, firstOf]
    by_cases h : m + 1 ≤ n
    · rw [if_pos ((hok _).2 h), if_neg (by omega)]
      congr 1; omega
    · rw [if_neg (fun e => h ((hok _).1 e)), firstOf_desc n ok hok m]
      have : min n (m + 1) = min n m := by omega
      rw [this]

theorem firstOf_exact (n : Nat) (ok : Nat → Bool) (hok : ∀ k, ok k = true ↔ k = n) : ∀ ks : List Nat,
    firstOf ok (ks.map fun n => (n, n)) = if n ∈ ks then some n else none
  | [] => rfl
  | k :: ks => by
    simp only [List.map_cons, firstOf]
    by_cases h : k = n
    · subst h; simp [(hok k).2 rfl]
    · rw [if_neg (fun e => h ((hok _).1 e)), firstOf_exact n ok hok ks]
      simp [Ne.symm h]

end Zpp
