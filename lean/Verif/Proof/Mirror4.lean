import Verif.Proof.Mirror3
/-!
# Every run of the input archive is a run of the ownership model: messages, all types
-/

namespace Zpp
open Zpp.Spec

/-- Numbers. -/
def numTy : Ty → Prop
  | .scalar _ _ => True
  | .bool => True
  | .varint _ _ => True
  | _ => False

/-- A map entry of a message is an entry of the map. -/
theorem mir_entry {env : Nat → Ty} {key m : Ty} {v : Val} {o : OVal} (h : Mirror env (pbEntry key m) v o) :
    Mirror env (.struct false [key, m]) v o := by
  have conv : ∀ {t v o}, Mirror env (pbEntryTy t) v o → Mirror env t v o := by
    intro t v o h
    unfold pbEntryTy at h
    split at h
    · obtain ⟨a, b⟩ := mir_number h trivial
      exact .nothing a b
    · exact h
  unfold pbEntry at h
  cases h with
  | nothing a b => exact .nothing a b
  | msg a b =>
    refine .struct (fun i t ht => ?_) b
    match i with
    | 0 =>
      simp only [List.getElem?_cons_zero, Option.some.injEq] at ht
      subst ht
      exact conv (a 0 _ rfl)
    | 1 =>
      simp only [List.getElem?_cons_succ, List.getElem?_cons_zero, Option.some.injEq] at ht
      subst ht
      exact conv (a 1 _ rfl)
    | i + 2 => simp at ht

/-- Reading an element and adding it. -/
theorem sim_fetch {env : Nat → Ty} {c : Cfg} {t te : Ty} {elem : Nat → Res} {recO : (Nat → Nat) → OVal → Heap → RunO}
    (H : ∀ (p : Nat) (h : Heap), SimO (fun s => recO s .leaf h) h.tick (elem p).s (Mirror env te (elem p).v))
    (vs : List Val) (o : OVal) (p : Nat) (h : Heap) (P : List Val → OVal → Prop) (keep : P vs o)
    (put : ∀ e oe i, i ≤ vs.length → Mirror env te e oe → P (vs.take i ++ e :: vs.drop i)
      (.node (padTake i o.kids ++ oe :: o.kids.drop i))) :
    SimO (fun s => withTemp s true (recO s) (insertInto s o) o h) h.tick (pbFetch c t elem vs p).s
      (P (pbFetch c t elem vs p).vs) := by
  have H1 := H p
  unfold pbFetch
  generalize elem p = r at H1 ⊢
  obtain ⟨st, e, p'⟩ := r
  cases st with
  | ok =>
    dsimp only at H1 ⊢
    have I : pbPush c t e vs = vs ∨ ∃ i, i ≤ vs.length ∧ pbPush c t e vs = vs.take i ++ e :: vs.drop i := by
      unfold pbPush
      split
      · exact assocInsert_place _ _ _ _ _ _
      · exact Or.inr ⟨vs.length, Nat.le_refl _, by simp⟩
    intro x g
    rcases I with i | ⟨i, hi, e'⟩
    · obtain ⟨q, c1, e1, e2⟩ := sim_temp_refused (store := fun s => insertInto s o) (dest := o) H1 h x g
      exact ⟨q, c1, e1, by rw [e2, i]; exact keep⟩
    · obtain ⟨q, c1, e1, w, pw, e2⟩ := sim_insert (dest := o) i H1 h x g
      exact ⟨q, c1, e1, by rw [e2, e']; exact put e w i hi pw⟩
  | _ =>
    dsimp only at H1 ⊢
    intro x g
    obtain ⟨q, c1, e1, e2⟩ := sim_temp_fail (store := fun s => insertInto s o) (dest := o) (ins := true) (by simp) H1 h x g
    exact ⟨q, c1, e1, by rw [e2]; exact keep⟩

/-- No pointers in what a reading leaves behind. -/
theorem held_packed {f : List Val → Nat → ResL} (hf : ∀ vs p, noneHeldAll vs = true → noneHeldAll (f vs p).vs = true) (e : Nat) :
    ∀ n vs p, noneHeldAll vs = true → noneHeldAll (pbPacked f e n vs p).vs = true
  | 0, vs, p, h => h
  | n + 1, vs, p, h => by
    unfold pbPacked
    split
    · have := hf vs p h
      generalize f vs p = r at this ⊢
      obtain ⟨st, vs', p'⟩ := r
      cases st with
      | ok => exact held_packed hf e n vs' p' this
      | _ => exact this
    · exact h

theorem noneHeldAll_mem : ∀ {vs : List Val}, noneHeldAll vs = true → ∀ v ∈ vs, noneHeld v = true
  | [], _, v, hv => by simp at hv
  | x :: xs, h, v, hv => by
    simp only [noneHeldAll, Bool.and_eq_true] at h
    rcases List.mem_cons.mp hv with e | e
    · rw [e]; exact h.1
    · exact noneHeldAll_mem h.2 v e

theorem held_push {c : Cfg} {t : Ty} {e : Val} {vs : List Val} (he : noneHeld e = true) (h : noneHeldAll vs = true) :
    noneHeldAll (pbPush c t e vs) = true := by
  have put : ∀ i, noneHeldAll (vs.take i ++ e :: vs.drop i) = true := by
    intro i
    refine noneHeldAll_of fun v hv => ?_
    simp only [List.mem_append, List.mem_cons] at hv
    rcases hv with hv | hv | hv
    · exact noneHeldAll_mem h v (List.mem_of_mem_take hv)
    · rw [hv]; exact he
    · exact noneHeldAll_mem h v (List.mem_of_mem_drop hv)
  unfold pbPush
  split
  · rcases assocInsert_place (c.keyLt _) _ _ _ e vs with e' | ⟨i, _, e'⟩
    · rw [e']; exact h
    · rw [e']; exact put i
  · have := put vs.length
    simpa using this

theorem held_fetch {c : Cfg} {t : Ty} {elem : Nat → Res} (he : ∀ p, noneHeld (elem p).v = true) (vs : List Val) (p : Nat)
    (h : noneHeldAll vs = true) : noneHeldAll (pbFetch c t elem vs p).vs = true := by
  unfold pbFetch
  have := he p
  generalize elem p = r at this ⊢
  obtain ⟨st, e, p'⟩ := r
  cases st with
  | ok => exact held_push this h
  | _ => exact h

theorem held_decAll {rec : Val → Nat → Res} (hr : ∀ v p, noneHeld v = true → noneHeld (rec v p).v = true) :
    ∀ vs p, noneHeldAll vs = true → noneHeldAll (decAll rec vs p).vs = true
  | [], _, _ => rfl
  | v :: vs, p, h => by
    simp only [noneHeldAll, Bool.and_eq_true] at h
    unfold decAll
    have := hr v p h.1
    generalize rec v p = r at this ⊢
    obtain ⟨st, v', p'⟩ := r
    cases st with
    | ok =>
      simp only [noneHeldAll, Bool.and_eq_true]
      exact ⟨this, held_decAll hr vs p' h.2⟩
    | _ =>
      simp only [noneHeldAll, Bool.and_eq_true]
      exact ⟨this, h.2⟩

theorem held_decRep {c : Cfg} {t : Ty} {vs : List Val} {data : List UInt8} {p n : Nat} (h : noneHeldAll vs = true) :
    noneHeldAll (decRep c t n vs data p).vs = true := by
  unfold decRep
  split
  · exact h
  · split
    · exact noneHeld_unrepAll _ _ _ _ _
    · exact h

theorem noneHeldAll_resize {vs : List Val} (n : Nat) (h : noneHeldAll vs = true) :
    noneHeldAll (resizeVals vs n (.num 0)) = true := by
  refine noneHeldAll_of fun v hv => ?_
  simp only [resizeVals, List.mem_append, List.mem_replicate] at hv
  rcases hv with hv | ⟨_, hv⟩
  · exact noneHeldAll_mem h v (List.mem_of_mem_take hv)
  · rw [hv]; rfl

/-- The reader of the nested archive: it mirrors, and numbers and containers of numbers hold no pointers. -/
structure NestedSims (env : Nat → Ty) (rec : Ty → Val → Nat → Res) (recO : (Nat → Nat) → Ty → OVal → Heap → RunO) : Prop where
  sims : ∀ t, Sims env t (rec t) (fun s => recO s t)
  num : ∀ t v p, noneHeld v = true →
    numTy t → noneHeld (rec t v p).v = true
  nums : ∀ k sz t v p, noneHeld v = true →
    numTy t →
    noneHeld (rec (.seq k sz t) v p).v = true

theorem held_pbDecPacked {c : Cfg} {env : Nat → Ty} {rec : Ty → Val → Nat → Res}
    {recO : (Nat → Nat) → Ty → OVal → Heap → RunO} (H : NestedSims env rec recO) {t te : Ty} {fix : Bool} {wt : Nat} {old : Val}
    {data : List UInt8} {p : Nat}
    (hte : numTy te)
    (ht : ∀ v p, hasResize t = true → fix = true → noneHeld v = true → noneHeld (rec (unsizedTy t) v p).v = true)
    (h : noneHeld old = true) : noneHeld (pbDecPacked c rec t te fix wt old data p).v = true := by
  have hf : ∀ vs p, noneHeldAll vs = true → noneHeldAll (pbFetch c t (rec te .unit) vs p).vs = true := fun vs p g =>
    held_fetch (fun p => H.num te .unit p rfl hte) vs p g
  unfold pbDecPacked
  dsimp only
  split
  · exact hf _ _ (noneHeld_elems h)
  · split
    · split
      · rename_i hr
        simp only [Bool.and_eq_true] at hr
        split
        · exact h
        · split
          · exact h
          · exact ht _ _ hr.1 hr.2 (noneHeldAll_resize _ (noneHeld_elems h))
      · split
        · exact h
        · exact held_packed hf _ _ _ _ (noneHeld_elems h)
    · exact h

theorem isView_false {k : SeqKind} {sz : Option SizeTy} {t : Ty} (h : ¬ isView (.seq k sz t) = true) : k ≠ .view := by
  intro e
  subst e
  exact h rfl

theorem pbElemClass_num {t : Ty} (h : ∀ e, pbElemClass t ≠ .repeated e) :
    numTy t := by
  cases t <;> first | trivial | exact absurd rfl (h _)

/-- Containers of numbers hold and own nothing. -/
theorem mir_numbers {env : Nat → Ty} {t te : Ty} {v : Val} {o : OVal}
    (hte : numTy te)
    (ht : (∃ k sz, t = .seq k sz te ∧ k ≠ .view) ∨ ∃ a b sz, t = .assoc a b sz te none) (h : Mirror env t v o) :
    noneHeld v = true ∧ o.ids = [] := by
  have num : ∀ {v o}, Mirror env te v o → noneHeld v = true ∧ o.ids = [] := by
    intro v o m
    exact mir_number m (by cases te <;> first | trivial | exact hte)
  have all : ∀ {vs : List Val}, (∀ i, i < vs.length → noneHeld (vs.getD i .unit) = true) → noneHeldAll vs = true := by
    intro vs h
    refine noneHeldAll_of fun v hv => ?_
    obtain ⟨i, hi, e⟩ := List.mem_iff_getElem.mp hv
    have := h i hi
    rwa [List.getD_eq_getElem?_getD, List.getElem?_eq_getElem hi, Option.getD_some, e] at this
  rcases ht with ⟨k, sz, rfl, hk⟩ | ⟨a, b, sz, rfl⟩
  · cases h with
    | nothing a b => exact ⟨a, b⟩
    | view b => exact absurd rfl hk
    | @seq _ _ _ vs os _ _ m w _ =>
      refine ⟨all fun i hi => (num (m i hi)).1, idsAll_nil fun i => ?_⟩
      by_cases hi : i < vs.length
      · exact (num (m i hi)).2
      · exact (num (w i (by omega))).2
  · cases h with
    | nothing a b => exact ⟨a, b⟩
    | @assoc _ _ _ _ _ vs os m r =>
      refine ⟨all fun i hi => (num (m i hi)).1, idsAll_nil fun i => ?_⟩
      by_cases hi : i < vs.length
      · exact (num (m i hi)).2
      · exact r i (by omega)

/-- Adding to a sequence. -/
theorem mir_push {env : Nat → Ty} {k : SeqKind} {sz : Option SizeTy} {t : Ty} {vs : List Val} {o : OVal} (hk : k ≠ .view)
    (m : MirE env t vs.length vs o.kids) (w : ∀ i, vs.length ≤ i → ∃ w, Mirror env t w (o.kids.getD i .leaf))
    (b : k ≠ .span → Rest vs.length o.kids) (e : Val) (oe : OVal) (i : Nat) (hi : i ≤ vs.length) (me : Mirror env t e oe) :
    Mirror env (.seq k sz t) (.list (vs.take i ++ e :: vs.drop i)) (.node (padTake i o.kids ++ oe :: o.kids.drop i)) := by
  obtain ⟨a, len, r⟩ := mir_insert hi m me
  refine seq_mir hk a (fun j hj => ?_) (fun hs j hj => ?_)
  · rw [len] at hj
    rw [r j hj]
    exact w _ (by omega)
  · rw [len] at hj
    rw [r j hj]
    exact b hs _ (by omega)

theorem sim_member {env : Nat → Ty} {c : Cfg} {rec : Ty → Val → Nat → Res} {recO : (Nat → Nat) → Ty → OVal → Heap → RunO}
    (H : NestedSims env rec recO) {fresh : Ty → Val} (hf : ∀ t, noneHeld (fresh t) = true) (t : Ty) (wt : Nat) (old : Val)
    (data : List UInt8) (p : Nat) (o : OVal) (h : Heap) (m : Mirror env t old o) :
    SimO (fun s => readMember s (recO s) t o h) h.tick (pbDecField c rec fresh t wt old data p).s
      (Mirror env t (pbDecField c rec fresh t wt old data p).v) := by
  unfold readMember
  by_cases hv : isView t = true
  · simp only [hv, if_true]
    have : Mirror env t (pbDecField c rec fresh t wt old data p).v o := by
      unfold isView at hv
      split at hv
      · exact .view (mir_view m)
      · simp at hv
    exact sim_attempt h this fun s => rfl
  simp only [hv, Bool.false_eq_true, if_false]
  -- elements read into a temporary
  have elem : ∀ te (p : Nat) (h : Heap), SimO (fun s => recO s te .leaf h) h.tick (rec te (fresh te) p).s
      (Mirror env te (rec te (fresh te) p).v) := fun te p h => H.sims te (fresh te) p .leaf h (.nothing (hf te) rfl)
  -- numbers
  have packed : ∀ te fix, numTy te →
      (∀ v p, hasResize t = true → fix = true → noneHeld v = true → noneHeld (rec (unsizedTy t) v p).v = true) →
      (noneHeld old = true ∧ o.ids = []) →
      SimO (fun s => ⟨(attempt s h).1, o, (attempt s h).2⟩) h.tick (pbDecPacked c rec t te fix wt old data p).s
        (Mirror env t (pbDecPacked c rec t te fix wt old data p).v) := by
    intro te fix hte ht g
    exact sim_attempt h (.nothing (held_pbDecPacked H hte ht g.1) g.2) fun s => rfl
  have single : SimO (fun s => recO s t o h) h.tick (rec t old p).s (Mirror env t (rec t old p).v) := H.sims t old p o h m
  have enum : ∀ n, (noneHeld old = true ∧ o.ids = []) →
      SimO (fun s => ⟨(attempt s h).1, o, (attempt s h).2⟩) h.tick (getVarint n false old data p).s
        (Mirror env t (getVarint n false old data p).v) :=
    fun n g => sim_attempt h (.nothing (getVarint_held g.1) g.2) fun s => rfl
  cases t with
  | scalar k n =>
    have g := mir_number m trivial
    cases k with
    | enum => exact enum n g
    | byte => exact enum n g
    | _ => exact single
  | assoc multi hashed sz key mapped =>
    have ⟨m1, r1⟩ := mir_assoc m
    have keepput : ∀ te, (∀ e oe, Mirror env te e oe → Mirror env (entryOf key mapped) e oe) → ∀ elem,
        (∀ (p : Nat) (h : Heap), SimO (fun s => recO s te .leaf h) h.tick (elem p).s (Mirror env te (elem p).v)) →
        SimO (fun s => withTemp s true (recO s te) (insertInto s o) o h) h.tick
          (pbFetch c (.assoc multi hashed sz key mapped) elem old.elems p).s
          (fun o' => Mirror env (.assoc multi hashed sz key mapped)
            (.list (pbFetch c (.assoc multi hashed sz key mapped) elem old.elems p).vs) o') := by
      intro te conv elem He
      have keep : Mirror env (.assoc multi hashed sz key mapped) (.list old.elems) o := by
        cases m with
        | nothing a b => exact .nothing (noneHeld_elems a) b
        | assoc a b => exact .assoc a b
      refine sim_fetch (c := c) (t := .assoc multi hashed sz key mapped) He old.elems o p h
        (fun vs o' => Mirror env (.assoc multi hashed sz key mapped) (.list vs) o') keep (fun e oe i hi me => ?_)
      obtain ⟨a, b⟩ := mirS_insert hi ⟨m1, r1⟩ (conv e oe me)
      exact .assoc a b
    cases mapped with
    | some mt =>
      exact keepput (pbEntry key mt) (fun e oe me => mir_entry me) _ (elem (pbEntry key mt))
    | none =>
      have rep := keepput key (fun e oe me => me) _ (elem key)
      have nums : numTy key →
          noneHeld old = true ∧ o.ids = [] := fun hk => mir_numbers hk (Or.inr ⟨_, _, _, rfl⟩) m
      cases key with
      | scalar k n =>
        cases k <;> exact packed _ _ trivial (fun v p hr => by simp [hasResize] at hr) (nums trivial)
      | bool => exact packed _ _ trivial (fun v p hr => by simp [hasResize] at hr) (nums trivial)
      | varint n zz => exact packed _ _ trivial (fun v p hr => by simp [hasResize] at hr) (nums trivial)
      | _ => exact rep
  | seq k sz te =>
    have hk := isView_false hv
    have nums : numTy te →
        noneHeld old = true ∧ o.ids = [] := fun h => mir_numbers h (Or.inl ⟨_, _, rfl, hk⟩) m
    have unsz : numTy te →
        ∀ v p, noneHeld v = true → noneHeld (rec (unsizedTy (.seq k sz te)) v p).v = true :=
      fun h v p hv => H.nums k _ te v p hv h
    have rep : SimO (fun s => withTemp s true (recO s te) (insertInto s o) o h) h.tick
          (pbFetch c (.seq k sz te) (rec te (fresh te)) old.elems p).s
          (fun o' => Mirror env (.seq k sz te) (.list (pbFetch c (.seq k sz te) (rec te (fresh te)) old.elems p).vs) o') := by
      obtain ⟨m1, w1, b1⟩ := mir_seq hk m
      have keep : Mirror env (.seq k sz te) (.list old.elems) o := by
        cases m with
        | nothing a b => exact .nothing (noneHeld_elems a) b
        | view b => exact .view b
        | seq a b e f => exact .seq a b e f
      exact sim_fetch (c := c) (t := .seq k sz te) (elem te) old.elems o p h
        (fun vs o' => Mirror env (.seq k sz te) (.list vs) o') keep (fun e oe i hi me => mir_push hk m1 w1 b1 e oe i hi me)
    cases te with
    | scalar k n =>
      cases k <;> exact packed _ _ trivial (fun v p _ _ g => unsz trivial v p g) (nums trivial)
    | bool => exact packed _ _ trivial (fun v p _ _ g => unsz trivial v p g) (nums trivial)
    | varint n zz => exact packed _ _ trivial (fun v p _ _ g => unsz trivial v p g) (nums trivial)
    | _ => exact rep
  | _ => exact single

end Zpp
