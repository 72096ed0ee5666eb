import Verif.Model.Packs
import Verif.Props.Reflect
import Verif.Props.Input2
import Verif.Checks
import Verif.Proof.InRecords
/-! # C93: member reflection on compilers with structured binding packs -/

namespace Zpp.Props
open Zpp.Spec

/-- C93. Members are visited all, in order, without limit on their number and whatever number of members is declared; if none is
declared, they are counted correctly, unless the class is guarded from inspection (then -1, as on other compilers); a declared
number is taken as it is. -/
theorem C93_visits {α : Type} (t : PackInfo) (members : List α) (hb : t.binds = true) :
    visitMembersPacks t members = some members ∧ visitMembersTypesPacks t members = some members ∧
    (∀ agg empty braces binds, t.info = .cls none agg empty braces binds → t.guarded = false →
      numberOfMembersPacks t members = some members.length) ∧
    (∀ agg empty braces binds, t.info = .cls none agg empty braces binds → t.guarded = true →
      numberOfMembersPacks t members = some (-1)) ∧
    (∀ n agg empty braces binds, t.info = .cls (some n) agg empty braces binds → numberOfMembersPacks t members = some n) := by
  refine ⟨by simp [visitMembersPacks, hb], by simp [visitMembersTypesPacks, hb], ?_, ?_, ?_⟩
  · intro agg empty braces binds hi hg
    simp [numberOfMembersPacks, hi, hg, hb]
  · intro agg empty braces binds hi hg
    simp [numberOfMembersPacks, hi, hg]
  · intro n agg empty braces binds hi
    simp [numberOfMembersPacks, hi]

/-- C93. A class that cannot be taken apart is not visited with wrong members: the program does not compile, neither for visiting
objects nor types, nor for counting members when no number is declared and the class is not guarded. -/
theorem C93_rejected {α : Type} (t : PackInfo) (members : List α) (hb : t.binds = false) :
    visitMembersPacks t members = none ∧ visitMembersTypesPacks t members = none ∧
    (∀ agg empty braces binds, t.info = .cls none agg empty braces binds → t.guarded = false →
      numberOfMembersPacks t members = none) := by
  refine ⟨by simp [visitMembersPacks, hb], by simp [visitMembersTypesPacks, hb], ?_⟩
  intro agg empty braces binds hi hg
  simp [numberOfMembersPacks, hi, hg, hb]

/-- A class with three private members, which structured bindings do not accept. -/
example : numberOfMembersPacks ⟨.cls none false false (fun _ => false) (fun _ => false), false, false⟩ [1, 2, 3] = none ∧
    visitMembersTypesPacks ⟨.cls none false false (fun _ => false) (fun _ => false), false, false⟩ [1, 2, 3] = none :=
  ⟨(C93_rejected _ _ rfl).2.2 _ _ _ _ rfl rfl, (C93_rejected _ _ rfl).2.1⟩

/-- C93. Programs for other compilers keep their meaning: a class visited there, with a result, is visited here with the same
result, and its members are counted alike. -/
theorem C93_upgrade {α : Type} (mode1 : Bool) (t : PackInfo) (members args : List α) (ht : SaidTruly members t.info)
    (hb : t.binds = true) (hg : t.guarded = false) (h : visitMembers mode1 t.info members = some args) :
    visitMembersPacks t members = some args ∧ numberOfMembersPacks t members = some args.length ∧
    numberOfMembers mode1 t.info = args.length := by
  have ha := (C56_all_or_rejected mode1 t.info members args ht).1 h
  subst ha
  have hn : numberOfMembers mode1 t.info = args.length := by
    unfold visitMembers at h
    dsimp only at h
    split at h
    · rename_i hr
      have h0 := numberOfMembers_zero mode1 t.info args ht
      generalize numberOfMembers mode1 t.info = n at *
      obtain ⟨k, rfl⟩ : ∃ k : Nat, n = k := ⟨n.toNat, by omega⟩
      by_cases hk : k = 0
      · subst hk
        rw [h0 rfl]; rfl
      · rw [visitBranches_eq, runBranch_eq _ _ _ (by simp only [maxVisitMembers] at hr; simp; omega)] at h
        rw [if_neg (by omega)] at h
        split at h
        · omega
        · cases h
    · cases h
  refine ⟨by simp [visitMembersPacks, hb], ?_, hn⟩
  obtain ⟨info, binds, guarded⟩ := t
  simp only at hb hg hn ht
  subst hb hg
  cases info with
  | array n | tuple n | fixedContainer n => simpa [numberOfMembersPacks, numberOfMembers] using hn
  | noClass => simpa [numberOfMembersPacks, numberOfMembers] using hn
  | cls d agg empty braces binds =>
    cases d with
    | some d => simpa [numberOfMembersPacks, numberOfMembers] using hn
    | none => simp [numberOfMembersPacks]

private theorem pbDispatch_beyond {field : Ty → Nat → Val → Nat → Res} {maps : List (Nat × Nat)} {num wt : Nat} :
    ∀ (nums : List (Option Nat)) (fs : List Ty) (os : List Val) (i p j : Nat), nums.length ≤ os.length → nums.length ≤ j →
    (pbDispatch field maps num wt i nums fs os p).vs[j]? = os[j]? := by
  intro nums
  induction nums with
  | nil => intro fs os i p j _ _; simp only [pbDispatch]; split <;> rfl
  | cons n nums ih =>
    intro fs os i p j h1 h2
    cases fs with
    | nil => simp only [pbDispatch]; split <;> rfl
    | cons t ts =>
      obtain ⟨o, os, rfl⟩ : ∃ o r, os = o :: r := by
        cases os with
        | nil => simp at h1
        | cons o r => exact ⟨o, r, rfl⟩
      obtain ⟨j, rfl⟩ : ∃ k, j = k + 1 := ⟨j - 1, by simp only [List.length_cons] at h2; omega⟩
      simp only [List.length_cons] at h1 h2
      simp only [pbDispatch]
      split
      · simp
      · simp only [List.tail_cons, List.getElem?_cons_succ]
        exact ih ts os (i + 1) p j (by omega) (by omega)

private theorem pbDispatch_len {field : Ty → Nat → Val → Nat → Res} {maps : List (Nat × Nat)} {num wt : Nat} :
    ∀ (nums : List (Option Nat)) (fs : List Ty) (os : List Val) (i p : Nat), nums.length ≤ os.length →
    (pbDispatch field maps num wt i nums fs os p).vs.length = os.length := by
  intro nums
  induction nums with
  | nil => intro fs os i p _; simp only [pbDispatch]; split <;> rfl
  | cons n nums ih =>
    intro fs os i p h1
    cases fs with
    | nil => simp only [pbDispatch]; split <;> rfl
    | cons t ts =>
      obtain ⟨o, os, rfl⟩ : ∃ o r, os = o :: r := by
        cases os with
        | nil => simp at h1
        | cons o r => exact ⟨o, r, rfl⟩
      simp only [List.length_cons] at h1
      simp only [pbDispatch]
      split
      · simp
      · simp only [List.tail_cons, List.length_cons]
        rw [ih ts os (i + 1) p (by omega)]

private theorem pbLoop_beyond {field : Ty → Nat → Val → Nat → Res} {maps : List (Nat × Nat)} {nums : List (Option Nat)}
    {fs : List Ty} {data : List UInt8} : ∀ f vs p j, nums.length ≤ vs.length → nums.length ≤ j →
    (pbLoop field maps nums fs data f vs p).vs[j]? = vs[j]? := by
  intro f
  induction f with
  | zero => intro vs p j _ _; rfl
  | succ f ih =>
    intro vs p j h1 h2
    unfold pbLoop
    split
    · split
      · rename_i tag p1 _
        have hb := pbDispatch_beyond (field := field) (maps := maps) (num := tag >>> 3) (wt := tag &&& 7) nums fs vs 0 p1 j h1 h2
        have hl := pbDispatch_len (field := field) (maps := maps) (num := tag >>> 3) (wt := tag &&& 7) nums fs vs 0 p1 h1
        split
        · rename_i vs' p2 he
          rw [he] at hb hl
          rw [ih vs' p2 j (by simp only at hl; omega) h2]
          exact hb
        · exact hb
      · rfl
      · rfl
    · rfl

private theorem emptied_get : ∀ (fs : List Ty) (os : List Val) (j : Nat) (t : Ty) (o : Val), fs[j]? = some t → os[j]? = some o →
    (emptied fs os)[j]? = some (startValue t o)
  | [], _, _, _, _, h, _ => by simp at h
  | _ :: _, [], _, _, _, _, h => by simp at h
  | t' :: fs, o' :: os, 0, t, o, h1, h2 => by
    simp only [List.getElem?_cons_zero, Option.some.injEq] at h1 h2
    subst h1 h2; rfl
  | t' :: fs, o' :: os, j + 1, t, o, h1, h2 => by
    simp only [List.getElem?_cons_succ] at h1 h2
    simp only [emptied, List.tail_cons, List.getElem?_cons_succ]
    exact emptied_get fs os j t o h1 h2

/-- C93 for messages with the right number of members, or none, declared: reader and compiler see the class as they do without
packs. -/
theorem C93_message_partial (env : Nat → Ty) (declared : Option Nat) (sz : Option SizeTy) (ok : Bool) (maps : List (Nat × Nat))
    (nums : List (Option Nat)) (fs : List Ty) (h : ∀ n, declared = some n → n = fs.length) (hl : nums.length = fs.length) :
    packsReads declared sz ok maps nums fs = .msg sz ok maps nums fs ∧
    messageCompilesPacks env declared maps nums fs = messageCompiles env maps nums fs := by
  have hn : declared.getD fs.length = fs.length := by
    cases declared with
    | none => rfl
    | some n => exact h n rfl
  have ht : nums.take fs.length = nums := by rw [← hl, List.take_length]
  simp only [packsReads, messageCompilesPacks, messageCompiles, hn, ht]
  simp

/-- C93. A message class that declares more members than it has is rejected. -/
theorem C93_too_many (env : Nat → Ty) (n : Nat) (maps : List (Nat × Nat)) (nums : List (Option Nat)) (fs : List Ty)
    (h : fs.length < n) : messageCompilesPacks env (some n) maps nums fs = false := by
  have : ¬ n ≤ fs.length := by omega
  simp [messageCompilesPacks, this]

/-- C93 fails if too few members are declared: whatever the input and the outcome, members behind the declared number are left
as they were, or empty if they are containers. -/
theorem C93_beyond_ignored (d : Nat) (c : Cfg) (data : List UInt8) (n : Nat) (sz : Option SizeTy) (ok : Bool)
    (maps : List (Nat × Nat)) (nums : List (Option Nat)) (fs : List Ty) (os : List Val) (p j : Nat) (t : Ty) (o : Val)
    (hn : n ≤ fs.length) (hj : n ≤ j) (ht : fs[j]? = some t) (ho : os[j]? = some o) :
    ∃ vs, (decode d c (packsReads (some n) sz ok maps nums fs) (.list os) data p).v = .list vs ∧
      (vs[j]? = some o ∨ vs[j]? = some (startValue t o)) := by
  cases d with
  | zero => exact ⟨os, rfl, Or.inl ho⟩
  | succ d =>
    have run : ∀ size q, ∃ vs, (msgRun (pbCfg c) (decode d (pbCfg c)) (dflt (pbCfg c) d) maps (nums.take n) fs (.list os) data
        size q).v = .list vs ∧ (vs[j]? = some o ∨ vs[j]? = some (startValue t o)) := by
      intro size q
      unfold msgRun
      split
      · exact ⟨os, rfl, Or.inl ho⟩
      · refine ⟨_, rfl, Or.inr ?_⟩
        rw [pbLoop_beyond _ _ _ j]
        · rw [pbClear_emptied]
          exact emptied_get fs os j t o ht ho
        · rw [pbClear_emptied, emptied_length, List.length_take]; omega
        · rw [List.length_take]; omega
    simp only [packsReads, Option.getD_some, decode]
    cases effSz c sz with
    | none => exact run _ _
    | fixed k =>
      simp only
      split
      · exact run _ _
      · exact ⟨os, rfl, Or.inl ho⟩
    | varint =>
      simp only
      split
      · exact run _ _
      · exact ⟨os, rfl, Or.inl ho⟩

/-- C93 fails: a class of three members that declares two. It is rejected by other compilers and accepted with packs; all three
members are written, and reading them succeeds with the third one missing. -/
theorem C93_lost :
    let c := Checks.le Checks.grow (.fixed 4)
    let fs := [Checks.vint32, Checks.vint32, Checks.vint32]
    let nums := [none, none, none]
    visitMembers false (.cls (some 2) true false (fun k => k ≤ 3) (fun k => k == 3)) [1, 2, 3] = none ∧
    visitMembersPacks ⟨.cls (some 2) true false (fun k => k ≤ 3) (fun k => k == 3), true, false⟩ [1, 2, 3] =
      some [1, 2, 3] ∧
    messageCompilesPacks c.env (some 2) [] nums fs = true ∧
    outCall 9 c false [(.msg (some .none) false [] nums fs, .list [.num 1, .num 2, .num 150])] ⟨[], 0⟩ =
      (.ok, ⟨[8, 1, 16, 2, 24, 150, 1], 7⟩) ∧
    decode 9 c (packsReads (some 2) (some .none) false [] nums fs) (.list [.num 0, .num 0, .num 0])
      [8, 1, 16, 2, 24, 150, 1] 0 = ⟨.ok, .list [.num 1, .num 2, .num 0], 7⟩ := by decide +kernel

/-- C93 fails: two members with the same number, of which only the first one is declared, are accepted with packs (`C66` without
them): the first one is read as the second one. -/
theorem C93_ambiguous :
    let c := Checks.le Checks.grow (.fixed 4)
    let fs := [Checks.vint32, Checks.vint32]
    let nums := [none, some 1]
    messageCompiles c.env [] nums fs = false ∧ messageCompilesPacks c.env none [] nums fs = false ∧
    messageCompilesPacks c.env (some 1) [] nums fs = true ∧
    outCall 9 c false [(.msg (some .none) false [] nums fs, .list [.num 1, .num 2])] ⟨[], 0⟩ = (.ok, ⟨[8, 1, 8, 2], 4⟩) ∧
    decode 9 c (packsReads (some 1) (some .none) false [] nums fs) (.list [.num 0, .num 0]) [8, 1, 8, 2] 0 =
      ⟨.ok, .list [.num 2, .num 0], 4⟩ := by decide +kernel

-- A class of 60 members, which is rejected by other compilers.
example :
    let ms := List.range 60
    let t : PackInfo := ⟨.cls none true false (fun k => k ≤ 60) (fun k => k == 60), true, false⟩
    visitMembers false t.info ms = none ∧ visitMembers true t.info ms = none ∧ visitMembersPacks t ms = some ms ∧
    numberOfMembersPacks t ms = some 60 := by decide +kernel
-- Hypotheses of `C93_upgrade` and `C93_beyond_ignored` hold for a class of three members that declares as many, and the class above.
example : SaidTruly [1, 2, 3] (.cls (some 3) true false (fun k => k ≤ 3) (fun k => k == 3)) ∧
    visitMembers false (.cls (some 3) true false (fun k => k ≤ 3) (fun k => k == 3)) [1, 2, 3] = some [1, 2, 3] :=
  ⟨⟨by simp, by simp⟩, by decide +kernel⟩

end Zpp.Props
