import Verif.Spec.SelfRef
/-!
# Recursive classes
-/

namespace Zpp.Props
open Zpp Zpp.Spec

theorem typeReferences_iff (m t : CTy) : typeReferences m t = true ↔ Refers t m := by
  constructor
  · intro h
    cases m <;> simp only [typeReferences, Bool.false_eq_true, beq_iff_eq, Bool.or_eq_true] at h
    case seq => subst h; exact .seq
    case set => subst h; exact .set
    case map => rcases h with rfl | rfl <;> constructor
    case ptr => subst h; exact .ptr
    case opt => subst h; exact .opt
  · intro h
    cases h <;> simp [typeReferences]

/-- What `self_referencing` finds below `t`. -/
def FoundIn (env : Decls) (self t : CTy) : Prop :=
  ∃ w m, Stored env t w ∧ Compound w ∧ Part env w m ∧ Refers self m

theorem selfRefVisit_iff {env : Decls} {rank : CTy → Nat} {rec : CTy → List CTy → Bool}
    {type self : CTy} {visited types : List CTy} (hbv : ByValue type) (hc : Compound type)
    (hparts : ∀ m, Part env type m ↔ m ∈ types)
    (hvis : ∀ v ∈ visited, rank type < rank v)
    (hrec : ∀ m ∈ types, rec m (type :: visited) = true ↔ FoundIn env self m) :
    selfRefVisit rec type self visited types = true ↔ FoundIn env self type := by
  have hnv : type ∉ visited := fun h => Nat.lt_irrefl _ (hvis type h)
  unfold selfRefVisit
  by_cases h0 : types = []
  · rw [if_pos h0]
    refine ⟨nofun, ?_⟩
    rintro ⟨w, m, hs, -, hp, -⟩
    cases hs with
    | here => have := (hparts m).mp hp; rw [h0] at this; simp at this
    | step _ h _ => have := (hparts _).mp h; rw [h0] at this; simp at this
  · rw [if_neg h0]
    by_cases h1 : types.any (typeReferences · self) = true
    · rw [if_pos h1]
      refine ⟨fun _ => ?_, fun _ => rfl⟩
      obtain ⟨m, hm, hr⟩ := List.any_eq_true.mp h1
      exact ⟨type, m, .here _, hc, (hparts m).mpr hm, (typeReferences_iff _ _).mp hr⟩
    · rw [if_neg h1, if_neg (fun h => hnv h.2), List.any_eq_true]
      constructor
      · rintro ⟨m, hm, h⟩
        obtain ⟨w, m', hs, h2⟩ := (hrec m hm).mp h
        exact ⟨w, m', .step hbv ((hparts m).mpr hm) hs, h2⟩
      · rintro ⟨w, m', hs, h2, h3, h4⟩
        cases hs with
        | here =>
          exact absurd (List.any_eq_true.mpr ⟨m', (hparts m').mp h3, (typeReferences_iff m' self).mpr h4⟩) h1
        | step _ hp hs =>
          have hm := (hparts _).mp hp
          exact ⟨_, hm, (hrec _ hm).mpr ⟨w, m', hs, h2, h3, h4⟩⟩

theorem selfReferencing_iff {env : Decls} {rank : CTy → Nat} (hfin : Finite env rank) (self : CTy) :
    ∀ (f : Nat) (t : CTy) (visited : List CTy), rank t < f → (∀ v ∈ visited, rank t < rank v) →
    (selfReferencing env f t self visited = true ↔ FoundIn env self t) := by
  intro f
  induction f with
  | zero => intro t visited h; omega
  | succ f ih =>
    intro t visited hf hvis
    have hno : ∀ {t : CTy}, ¬ ByValue t → ¬ FoundIn env self t := by
      rintro t hn ⟨w, m, hs, hb, -⟩
      cases hs with
      | here => exact hn (by cases t <;> trivial)
      | step h _ _ => exact hn h
    have hlow : ∀ {u : CTy}, ByValue t → Part env t u → rank u < f ∧ ∀ v ∈ t :: visited, rank u < rank v := by
      intro u hb hp
      have h := hfin.down _ _ hb hp
      refine ⟨by omega, fun v hv => ?_⟩
      rcases List.mem_cons.mp hv with rfl | hv
      · exact h
      · exact Nat.lt_trans h (hvis v hv)
    cases t with
    | array n t =>
      unfold selfReferencing
      dsimp only
      by_cases hn : n = 0
      · rw [if_pos hn]
        refine ⟨nofun, ?_⟩
        rintro ⟨w, m, hs, ha, -⟩
        cases hs with
        | here => exact absurd ha id
        | step _ h _ => cases h; contradiction
      · rw [if_neg hn]
        have hp : Part env (.array n t) t := .elem hn
        obtain ⟨h1, h2⟩ := hlow trivial hp
        rw [ih t visited h1 (fun v hv => h2 v (by simp [hv]))]
        constructor
        · rintro ⟨w, m, hs, h⟩
          exact ⟨w, m, .step trivial hp hs, h⟩
        · rintro ⟨w, m, hs, h3, h4⟩
          cases hs with
          | here => exact absurd h3 id
          | step _ h hs => cases h; exact ⟨w, m, hs, h3, h4⟩
    | tuple ts =>
      unfold selfReferencing
      dsimp only
      refine selfRefVisit_iff (rank := rank) trivial trivial (fun m => ⟨fun h => by cases h; assumption, .component⟩) hvis ?_
      intro m hm
      obtain ⟨h1, h2⟩ := hlow (u := m) trivial (.component hm)
      exact ih m _ h1 h2
    | cls i =>
      unfold selfReferencing
      dsimp only
      cases hms : (env.cls i).members with
      | none =>
        refine ⟨nofun, ?_⟩
        rintro ⟨w, m, hs, -, hp, -⟩
        cases hs with
        | here => cases hp; simp_all
        | step _ h _ => cases h; simp_all
      | some ms =>
        dsimp only
        cases he : (env.cls i).explicit
        · rw [if_neg (by simp)]
          refine selfRefVisit_iff (rank := rank) trivial trivial (fun m => ⟨fun h => ?_, .member he hms⟩) hvis ?_
          · cases h with
            | member _ h1 h2 => rw [hms] at h1; cases h1; exact h2
          · intro m hm
            obtain ⟨h1, h2⟩ := hlow (u := m) trivial (.member he hms hm)
            exact ih m _ h1 h2
        · rw [if_pos rfl]
          refine ⟨nofun, ?_⟩
          rintro ⟨w, m, hs, -, hp, -⟩
          cases hs with
          | here => cases hp; simp_all
          | step _ h _ => cases h; simp_all
    | prim n => exact ⟨nofun, fun h => absurd h (hno id)⟩
    | seq t => exact ⟨nofun, fun h => absurd h (hno id)⟩
    | set t => exact ⟨nofun, fun h => absurd h (hno id)⟩
    | map k m => exact ⟨nofun, fun h => absurd h (hno id)⟩
    | ptr t => exact ⟨nofun, fun h => absurd h (hno id)⟩
    | opt t => exact ⟨nofun, fun h => absurd h (hno id)⟩
    | variant ts => exact ⟨nofun, fun h => absurd h (hno id)⟩

/-- C80, weaker than stated: a class is recognised as recursive exactly if, in the class itself or in a class or tuple stored in
it, there is a member that is a container, pointer or optional of that very class. Missing: classes that are found again only
behind two or more such steps, or in a variant (`C80_missed`, `C80_missed_alone`). -/
theorem C80_recognised_partial (env : Decls) (rank : CTy → Nat) (hfin : Finite env rank) (f i : Nat) (hf : rank (.cls i) < f) :
    selfReferencing env f (.cls i) (.cls i) [] = true ↔
      ∃ w m, Stored env (.cls i) w ∧ Compound w ∧ Part env w m ∧ Refers (.cls i) m :=
  selfReferencing_iff hfin (.cls i) f (.cls i) [] hf nofun

theorem Stored.within {env : Decls} {t w m : CTy} (h : Stored env t w) (hm : Part env w m) : Within env t m := by
  induction h with
  | here => exact .part hm
  | step _ h1 _ ih => exact .step h1 (ih hm)

theorem Within.trans {env : Decls} {t u w : CTy} (h : Within env t u) (h' : Within env u w) : Within env t w := by
  induction h with
  | part h => exact .step h h'
  | step h _ ih => exact .step h (ih h')

/-- C80: only classes that can hold objects of their own type are recognised. -/
theorem C80_recursive (env : Decls) (rank : CTy → Nat) (hfin : Finite env rank) (f i : Nat) (hf : rank (.cls i) < f)
    (h : selfReferencing env f (.cls i) (.cls i) [] = true) : Within env (.cls i) (.cls i) := by
  obtain ⟨w, m, h1, -, h3, h4⟩ := (C80_recognised_partial env rank hfin f i hf).mp h
  refine Within.trans (Stored.within h1 h3) ?_
  cases h4 with
  | seq => exact .part .seq
  | set => exact .part .set
  | key => exact .part .key
  | mapped => exact .part .mapped
  | ptr => exact .part .ptr
  | opt => exact .part .opt

/-- C80: the answer does not depend on how deep the compiler may nest instantiations, and the list of visited types has no
effect. -/
theorem C80_stable (env : Decls) (rank : CTy → Nat) (hfin : Finite env rank) (f f' i : Nat) (visited : List CTy)
    (hf : rank (.cls i) < f) (hf' : rank (.cls i) < f') (hv : ∀ v ∈ visited, rank (.cls i) < rank v) :
    selfReferencing env f (.cls i) (.cls i) visited = selfReferencing env f' (.cls i) (.cls i) [] := by
  rw [Bool.eq_iff_iff, selfReferencing_iff hfin _ f _ _ hf hv, selfReferencing_iff hfin _ f' _ _ hf' (fun v hv => absurd hv (by simp))]

/-- Class 0: `{int; optional_ptr<0>}`; class 1: `{2}` with class 2: `{vector<1>}`; classes 3 and 4: `{vector<4>}` and `{vector<3>}`;
class 5: `{vector<vector<5>>}`; class 6: `{variant<int, vector<6>>}`; class 7: `{std::array<vector<7>, 2>}`; class 8: `{map<int, 0>}`. -/
def program : Decls where
  cls
    | 0 => ⟨false, some [.prim 0, .ptr (.cls 0)]⟩
    | 1 => ⟨false, some [.cls 2]⟩
    | 2 => ⟨false, some [.seq (.cls 1)]⟩
    | 3 => ⟨false, some [.seq (.cls 4)]⟩
    | 4 => ⟨false, some [.seq (.cls 3)]⟩
    | 5 => ⟨false, some [.seq (.seq (.cls 5))]⟩
    | 6 => ⟨false, some [.variant 0]⟩
    | 7 => ⟨false, some [.array 2 (.seq (.cls 7))]⟩
    | 8 => ⟨false, some [.map (.prim 0) (.cls 0)]⟩
    | _ => ⟨true, none⟩
  tuple := fun _ => []
  variant := fun _ => [.prim 0, .seq (.cls 6)]

/-- Nesting by value in the program. -/
def programRank : CTy → Nat
  | .cls 1 => 2
  | .cls 7 => 2
  | .cls _ => 1
  | .array _ t => programRank t + 1
  | _ => 0

theorem program_finite : Finite program programRank := by
  refine ⟨fun t u hb hp => ?_⟩
  cases hp with
  | @member i ms m h1 h2 h3 =>
    match i with
    | 0 | 1 | 2 | 3 | 4 | 5 | 6 | 7 | 8 =>
      simp only [program, Option.some.injEq] at h2
      subst h2
      simp only [List.mem_cons, List.not_mem_nil, or_false] at h3
      first | (rcases h3 with rfl | rfl <;> decide) | (subst h3; decide)
    | i + 9 => simp [program] at h1
  | elem => exact Nat.lt_succ_self _
  | component h => simp [program] at h
  | _ => exact absurd hb id

-- Recognised: a linked list, and a class whose member holds a container of it. The inner class itself is not, but each cycle
-- through it passes the outer one. A class that only holds recursive ones is not.
example : selfReferencing program 9 (.cls 0) (.cls 0) [] = true ∧ selfReferencing program 9 (.cls 1) (.cls 1) [] = true ∧
    selfReferencing program 9 (.cls 2) (.cls 2) [] = false ∧ selfReferencing program 9 (.cls 8) (.cls 8) [] = false := by
  decide +kernel

/-- C80 fails for mutually recursive classes: the two classes hold containers of each other and neither is recognised, so no class
of the cycle is. -/
theorem C80_missed : Within program (.cls 3) (.cls 3) ∧ Within program (.cls 4) (.cls 4) ∧
    selfReferencing program 9 (.cls 3) (.cls 3) [] = false ∧ selfReferencing program 9 (.cls 4) (.cls 4) [] = false := by
  refine ⟨?_, ?_, by decide +kernel, by decide +kernel⟩
  · exact .step (.member (m := .seq (.cls 4)) rfl rfl (by simp)) (.step .seq
      (.step (.member (m := .seq (.cls 3)) rfl rfl (by simp)) (.part .seq)))
  · exact .step (.member (m := .seq (.cls 3)) rfl rfl (by simp)) (.step .seq
      (.step (.member (m := .seq (.cls 4)) rfl rfl (by simp)) (.part .seq)))

/-- C80 fails for classes that find themselves in a container of containers, an array of containers or a variant. -/
theorem C80_missed_alone : ∀ i ∈ [5, 6, 7], Within program (.cls i) (.cls i) ∧ selfReferencing program 9 (.cls i) (.cls i) [] = false := by
  intro i hi
  simp only [List.mem_cons, List.not_mem_nil, or_false] at hi
  rcases hi with rfl | rfl | rfl
  · exact ⟨.step (.member (m := .seq (.seq (.cls 5))) rfl rfl (by simp)) (.step .seq (.part .seq)), by decide +kernel⟩
  · exact ⟨.step (.member (m := .variant 0) rfl rfl (by simp)) (.step (.alt (t := .seq (.cls 6)) (by simp [program])) (.part .seq)),
      by decide +kernel⟩
  · exact ⟨.step (.member (m := .array 2 (.seq (.cls 7))) rfl rfl (by simp)) (.step (.elem (by decide)) (.part .seq)),
      by decide +kernel⟩

end Zpp.Props
