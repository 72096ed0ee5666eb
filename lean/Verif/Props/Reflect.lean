import Verif.Proof.Reflect
/-!
# Member reflection
-/

namespace Zpp.Props
open Zpp

/-- What is said about a type is true of an object with the given members: the size of an array, tuple or container is the
number of its elements, what is no class has no members, and a class said to be empty has none. The answers of the compiler
to the probes may be anything. A declared number of members may be anything but 0. -/
def SaidTruly {α : Type} (members : List α) : TypeInfo → Prop
  | .array n | .tuple n | .fixedContainer n => n = members.length
  | .noClass => members = []
  | .cls declared _ empty _ _ => declared ≠ some 0 ∧ (empty = true → members = [])

theorem firstOf_pos (ok : Nat → Bool) : ∀ ks : List Nat, 0 ∉ ks → firstOf ok (ks.map fun n => (n, n)) ≠ some 0
  | [], _ => by simp [firstOf]
  | k :: ks, h => by
    simp only [List.mem_cons, not_or] at h
    simp only [List.map_cons, firstOf]
    split
    · simp only [ne_eq, Option.some.injEq]; omega
    · exact firstOf_pos ok ks h.2

/-- No members are counted only if there are none. -/
theorem numberOfMembers_zero {α : Type} (mode1 : Bool) (info : TypeInfo) (members : List α) (ht : SaidTruly members info)
    (h0 : numberOfMembers mode1 info = 0) : members = [] := by
  cases info with
  | array n | tuple n | fixedContainer n =>
    simp only [numberOfMembers, SaidTruly] at h0 ht
    exact List.eq_nil_of_length_eq_zero (by omega)
  | noClass => exact ht
  | cls d agg empty braces binds =>
    cases d with
    | some d =>
      simp only [numberOfMembers, SaidTruly, ne_eq, Option.some.injEq] at h0 ht
      omega
    | none =>
      have h1 := firstOf_pos binds (List.range' 1 50) (by simp)
      have h2 := firstOf_pos braces (List.range' 1 50).reverse (by simp)
      rw [← bindChain_eq] at h1
      rw [← braceChain_eq] at h2
      simp only [numberOfMembers] at h0
      split at h0
      · split at h0
        · rename_i n hn
          exact absurd (by rw [hn, show n = 0 by omega]) h1
        · omega
      · split at h0
        · split at h0
          · rename_i n hn
            exact absurd (by rw [hn, show n = 0 by omega]) h2
          · split at h0
            · rename_i he
              exact ht.2 he
            · omega
        · omega

/-- C56. Whatever the compiler answers when it is asked about a class, and whatever number of members is declared for it: a
program that visits the members of an object either does not compile, or the visitor gets exactly the members, all of them,
in order of declaration. The same for the list of member types. (A declared count of 0 is taken literally:
`C56_declared_zero`.) -/
theorem C56_all_or_rejected {α : Type} (mode1 : Bool) (info : TypeInfo) (members args : List α)
    (ht : SaidTruly members info) :
    (visitMembers mode1 info members = some args → args = members) ∧
    (visitMembersTypes mode1 info members = some args → args = members) := by
  constructor
  all_goals
    intro h
    simp only [visitMembers, visitMembersTypes] at h
    split at h
    · rename_i hn
      simp only [maxVisitMembers] at hn
      first | rw [visitBranches_eq] at h | rw [visitTypesBranches_eq] at h
      rw [runBranch_eq _ _ _ (by simp; omega)] at h
      split at h
      · rw [numberOfMembers_zero mode1 info members ht (by omega)]
        cases h; rfl
      · split at h
        · cases h; rfl
        · cases h
    · cases h

/-- C56. A class with `n` members, at most 50, each of which takes one initializer: the members are counted correctly, and a
visitor gets them all in order. -/
theorem C56_aggregate {α : Type} (members : List α) (braces binds : Nat → Bool)
    (hb : ∀ k, braces k = true ↔ k ≤ members.length) (h : members.length ≤ 50) :
    let info := TypeInfo.cls none true members.isEmpty braces binds
    numberOfMembers false info = members.length ∧ visitMembers false info members = some members ∧
    visitMembersTypes false info members = some members := by
  intro info
  have hn : numberOfMembers false info = members.length := by
    simp only [info, numberOfMembers, braceChain_eq, firstOf_desc members.length braces hb 50]
    by_cases h0 : members.length = 0
    · rw [if_neg (by simp), if_pos trivial, if_pos (by omega)]
      have : members = [] := List.eq_nil_of_length_eq_zero h0
      subst this; rfl
    · rw [if_neg (by simp), if_pos trivial, if_neg (by omega)]
      simp only
      omega
  refine ⟨hn, ?_, ?_⟩
  all_goals
    simp only [visitMembers, visitMembersTypes, hn, maxVisitMembers, visitBranches_eq, visitTypesBranches_eq]
    rw [if_pos (by omega), Int.toNat_natCast, runBranch_eq _ _ _ (by simp; omega)]
    split
    · rename_i h0
      rw [List.eq_nil_of_length_eq_zero h0]
    · simp

/-- C56. The same if members are found by structured bindings (`ZPP_BITS_AUTODETECT_MEMBERS_MODE == 1`), for classes with at
least one member. -/
theorem C56_bindable {α : Type} (members : List α) (agg empty : Bool) (braces binds : Nat → Bool)
    (hb : ∀ k, binds k = true ↔ k = members.length) (h0 : 0 < members.length) (h : members.length ≤ 50) :
    let info := TypeInfo.cls none agg empty braces binds
    numberOfMembers true info = members.length ∧ visitMembers true info members = some members ∧
    visitMembersTypes true info members = some members := by
  intro info
  have hn : numberOfMembers true info = members.length := by
    simp only [info, numberOfMembers, bindChain_eq, firstOf_exact members.length binds hb]
    rw [if_pos trivial, if_pos (by simp [List.mem_range']; exact ⟨members.length - 1, by omega, by omega⟩)]
  refine ⟨hn, ?_, ?_⟩
  all_goals
    simp only [visitMembers, visitMembersTypes, hn, maxVisitMembers, visitBranches_eq, visitTypesBranches_eq]
    rw [if_pos (by omega), Int.toNat_natCast, runBranch_eq _ _ _ (by simp; omega), if_neg (by omega)]
    simp

/-- C56. A class with more than 50 members is rejected in both modes, also if the number of members is declared: nothing is
silently left out. -/
theorem C56_too_many {α : Type} (members : List α) (agg empty : Bool) (braces binds : Nat → Bool) (mode1 : Bool)
    (hb : ∀ k, braces k = true ↔ k ≤ members.length) (hs : ∀ k, binds k = true ↔ k = members.length)
    (h : 50 < members.length) (d : Option Nat) (hd : d ≠ some 0) (he : empty = false) :
    visitMembers mode1 (.cls d agg empty braces binds) members = none := by
  simp only [visitMembers]
  split
  · rename_i hn
    simp only [maxVisitMembers] at hn
    rw [visitBranches_eq, runBranch_eq _ _ _ (by simp; omega)]
    have h0 : numberOfMembers mode1 (.cls d agg empty braces binds) ≠ 0 := by
      cases d with
      | some d =>
        simp only [numberOfMembers]
        simp only [ne_eq, Option.some.injEq] at hd
        omega
      | none =>
        simp only [numberOfMembers, bindChain_eq, braceChain_eq, firstOf_desc members.length braces hb 50,
          firstOf_exact members.length binds hs, he]
        split
        · rw [if_neg (by simp [List.mem_range']; omega)]; simp
        · split
          · rw [if_neg (by omega)]; simp only; omega
          · simp
    rw [if_neg (by omega), if_neg (by omega)]
  · rfl

/-- C56. A declared number of members other than the real one is rejected. -/
theorem C56_declared {α : Type} (members : List α) (agg empty : Bool) (braces binds : Nat → Bool) (mode1 : Bool) (n : Nat)
    (h0 : n ≠ 0) :
    visitMembers mode1 (.cls (some n) agg empty braces binds) members =
      if n = members.length ∧ n ≤ 50 then some members else none := by
  have hn : numberOfMembers mode1 (.cls (some n) agg empty braces binds) = n := rfl
  have hm : ((maxVisitMembers : Nat) : Int) = 50 := rfl
  unfold visitMembers
  by_cases h : n ≤ 50
  · rw [if_pos (by omega), hn, Int.toNat_natCast, visitBranches_eq, runBranch_eq _ _ _ (by simp; omega), if_neg h0]
    simp only [h, and_true]
  · rw [if_neg (by omega), if_neg (by omega)]

/-- C56: a declared count of 0 is not compared with the class: no member is visited. -/
theorem C56_declared_zero {α : Type} (members : List α) (agg empty : Bool) (braces binds : Nat → Bool) (mode1 : Bool) :
    visitMembers mode1 (.cls (some 0) agg empty braces binds) members = some [] := by
  have hn : numberOfMembers mode1 (.cls (some 0) agg empty braces binds) = 0 := rfl
  have hm : ((maxVisitMembers : Nat) : Int) = 50 := rfl
  unfold visitMembers
  rw [if_pos (by omega), hn, visitBranches_eq, show Int.toNat 0 = 0 from rfl, runBranch_eq _ _ _ (by simp)]
  rfl

/-- C56. Arrays, tuples and containers of a fixed size with at most 50 elements: a visitor gets all elements in order. An
object that is not of class type has no members. -/
theorem C56_sizes {α : Type} (mode1 : Bool) (members : List α) (info : TypeInfo) (h : members.length ≤ 50)
    (hi : info = .array members.length ∨ info = .tuple members.length ∨ info = .fixedContainer members.length ∨
      info = .noClass ∧ members = []) :
    visitMembers mode1 info members = some members ∧ visitMembersTypes mode1 info members = some members := by
  have hn : numberOfMembers mode1 info = members.length := by
    rcases hi with rfl | rfl | rfl | ⟨rfl, rfl⟩ <;> rfl
  constructor
  all_goals
    simp only [visitMembers, visitMembersTypes, hn, maxVisitMembers, visitBranches_eq, visitTypesBranches_eq]
    rw [if_pos (by omega), Int.toNat_natCast, runBranch_eq _ _ _ (by simp; omega)]
    split
    · rename_i h0
      rw [List.eq_nil_of_length_eq_zero h0]
    · simp

example : visitMembers false (.array 3) [7, 8, 9] = some [7, 8, 9] ∧ visitMembers true (.tuple 2) ['a', 'b'] = some ['a', 'b'] ∧
    visitMembers false .noClass ([] : List Nat) = some [] := by decide +kernel

-- Answers of the compiler that fit no class: the program is rejected rather than members left out.
example : SaidTruly ["x", "y"] (.cls none true false (fun _ => false) fun _ => false) ∧
    visitMembers false (.cls none true false (fun _ => false) fun _ => false) ["x", "y"] = none ∧
    SaidTruly ["x", "y"] (.cls none true false (fun k => k == 7) fun k => k == 2) ∧
    visitMembers false (.cls none true false (fun k => k == 7) fun k => k == 2) ["x", "y"] = none ∧
    visitMembers true (.cls none true false (fun k => k == 7) fun k => k == 2) ["x", "y"] = some ["x", "y"] :=
  ⟨⟨by simp, by simp⟩, by decide +kernel, ⟨by simp, by simp⟩, by decide +kernel, by decide +kernel⟩

/-- A class with three members; the same with wrong counts. -/
example :
    let info := fun d => TypeInfo.cls d true false (fun k => decide (k ≤ 3)) (fun k => decide (k = 3))
    visitMembers false (info none) ["x", "y", "z"] = some ["x", "y", "z"] ∧
    visitMembers true (info none) ["x", "y", "z"] = some ["x", "y", "z"] ∧
    visitMembers false (info (some 2)) ["x", "y", "z"] = none ∧
    visitMembers false (info (some 4)) ["x", "y", "z"] = none ∧
    visitMembers false (.cls none true false (fun k => decide (k ≤ 60)) (fun k => decide (k = 60)))
      (List.replicate 60 'a') = none := by decide +kernel

end Zpp.Props
