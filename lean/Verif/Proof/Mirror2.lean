import Verif.Proof.Mirror
/-!
# Every run of the input archive is a run of the ownership model: temporaries, pointers, insertion
-/

namespace Zpp
open Zpp.Spec

/-- The second half of `withTemp`. -/
def tempBody (s : Nat → Nat) (ins : Bool) (store : OVal → Heap → OVal × Heap) (dest : OVal) (id : Nat) (r : RunO) : RunO :=
  match r with
  | ⟨.ok, v, h⟩ =>
    match commit s ins h with
    | (.moved, h) =>
      let (dest', h) := store v h
      ⟨.ok, dest', destroy (.own id .leaf) h⟩
    | (.refused, h) => ⟨.ok, dest, destroy (.own id v) h⟩
    | (.thrown, h) => ⟨.thrown, dest, destroy (.own id v) h⟩
  | ⟨x, v, h⟩ => ⟨x, dest, destroy (.own id v) h⟩

theorem withTemp_eq {s : Nat → Nat} {ins : Bool} {rec : OVal → Heap → RunO} {store : OVal → Heap → OVal × Heap} {dest : OVal}
    {h : Heap} (hs : s h.tick = 0) :
    withTemp s ins rec store dest h = tempBody s ins store dest h.next (rec .leaf ⟨h.next + 1, h.freed, h.tick + 1⟩) := by
  unfold withTemp
  rw [attempt_ok hs]
  rfl

theorem sim_temp_fail {st : Status} {recO : (Nat → Nat) → OVal → Heap → RunO} {ins : Bool}
    {store : (Nat → Nat) → OVal → Heap → OVal × Heap} {dest : OVal} {P1 : OVal → Prop} (n : st ≠ .ok)
    (H : ∀ h : Heap, SimO (fun s => recO s .leaf h) h.tick st P1) (h : Heap) :
    SimO (fun s => withTemp s ins (recO s) (store s) dest h) h.tick st (fun o => o = dest) := by
  intro x g
  obtain ⟨⟨x1, v1, h1⟩, c1, e1, _⟩ := H ⟨h.next + 1, h.freed, h.tick + 1⟩ x g
  dsimp only at e1
  subst e1
  have nx := leftBy_ne g n
  refine ⟨⟨x1, dest, destroy (.own h.next v1) h1⟩, ?_, rfl, rfl⟩
  refine Can.ask 0 (fun s hs => withTemp_eq hs) ?_
  refine c1.map fun s hs => ?_
  rw [hs]
  unfold tempBody
  cases x1 <;> first | exact absurd rfl nx | rfl

theorem sim_temp_ok {recO : (Nat → Nat) → OVal → Heap → RunO} {ins : Bool}
    {store : (Nat → Nat) → OVal → Heap → OVal × Heap} {dest : OVal} {P1 P : OVal → Prop}
    (H : ∀ h : Heap, SimO (fun s => recO s .leaf h) h.tick .ok P1)
    (S : ∀ v h, P1 v → ∃ q : OVal × Heap, Can (fun s => store s v h) h.tick q.2.tick q ∧ P q.1) (h : Heap) :
    SimO (fun s => withTemp s ins (recO s) (store s) dest h) h.tick .ok P := by
  intro x g
  rw [leftBy_ok] at g
  subst g
  obtain ⟨⟨x1, v1, h1⟩, c1, e1, p1⟩ := H ⟨h.next + 1, h.freed, h.tick + 1⟩ .ok rfl
  dsimp only at e1 p1
  subst e1
  obtain ⟨⟨d2, h2⟩, c2, p2⟩ := S v1 h1.tock p1
  refine ⟨⟨.ok, d2, destroy (.own h.next .leaf) h2⟩, ?_, rfl, p2⟩
  refine Can.ask 0 (fun s hs => withTemp_eq hs) ?_
  refine c1.next (G := fun s => tempBody s ins (store s) dest h.next ⟨.ok, v1, h1⟩) (fun s hs => by rw [hs]) ?_
  refine Can.ask (G := fun s => ⟨.ok, (store s v1 h1.tock).1, destroy (.own h.next .leaf) (store s v1 h1.tock).2⟩) 0
    (fun s hs => ?_) ?_
  · unfold tempBody
    simp only [commit, ask_eq hs]
  · exact c2.map fun s hs => by simp only [hs]

theorem sim_temp_refused {recO : (Nat → Nat) → OVal → Heap → RunO}
    {store : (Nat → Nat) → OVal → Heap → OVal × Heap} {dest : OVal} {P1 : OVal → Prop}
    (H : ∀ h : Heap, SimO (fun s => recO s .leaf h) h.tick .ok P1) (h : Heap) :
    SimO (fun s => withTemp s true (recO s) (store s) dest h) h.tick .ok (fun o => o = dest) := by
  intro x g
  rw [leftBy_ok] at g
  subst g
  obtain ⟨⟨x1, v1, h1⟩, c1, e1, p1⟩ := H ⟨h.next + 1, h.freed, h.tick + 1⟩ .ok rfl
  dsimp only at e1
  subst e1
  refine ⟨⟨.ok, dest, destroy (.own h.next v1) h1.tock⟩, ?_, rfl, rfl⟩
  refine Can.ask 0 (fun s hs => withTemp_eq hs) ?_
  refine c1.next (G := fun s => tempBody s true (store s) dest h.next ⟨.ok, v1, h1⟩) (fun s hs => by rw [hs]) ?_
  refine Can.ask (G := fun s => ⟨.ok, dest, destroy (.own h.next v1) h1.tock⟩) 1 (fun s hs => ?_) (Can.ret fun _ => rfl)
  unfold tempBody
  simp only [commit, ask_eq hs, if_true]

/-- The second half of `readPtr`. -/
def ptrBody (s : Nat → Nat) (old : OVal) (id : Nat) (r : RunO) : RunO :=
  match r with
  | ⟨.ok, v, h⟩ =>
    match attempt s h with
    | (.thrown, h) => ⟨.thrown, old, destroy (.own id v) h⟩
    | (_, h) => ⟨.ok, .own id v, destroy old h⟩
  | ⟨x, v, h⟩ => ⟨x, old, destroy (.own id v) h⟩

theorem readPtr_eq {s : Nat → Nat} {rec : OVal → Heap → RunO} {old : OVal} {h : Heap} (hs : s h.tick = 0) :
    readPtr s rec old h = ptrBody s old h.next (rec .leaf ⟨h.next + 1, h.freed, h.tick + 1⟩) := by
  unfold readPtr
  rw [attempt_ok hs]
  rfl

theorem sim_ptr_ok {recO : (Nat → Nat) → OVal → Heap → RunO} {old : OVal} {P : OVal → Prop}
    (H : ∀ h : Heap, SimO (fun s => recO s .leaf h) h.tick .ok P) (h : Heap) :
    SimO (fun s => readPtr s (recO s) old h) h.tick .ok (fun o => ∃ id o', o = .own id o' ∧ P o') := by
  intro x g
  rw [leftBy_ok] at g
  subst g
  obtain ⟨⟨x1, v1, h1⟩, c1, e1, p1⟩ := H ⟨h.next + 1, h.freed, h.tick + 1⟩ .ok rfl
  dsimp only at e1 p1
  subst e1
  refine ⟨⟨.ok, .own h.next v1, destroy old h1.tock⟩, ?_, rfl, _, _, rfl, p1⟩
  refine Can.ask 0 (fun s hs => readPtr_eq hs) ?_
  refine c1.next (G := fun s => ptrBody s old h.next ⟨.ok, v1, h1⟩) (fun s hs => by rw [hs]) ?_
  refine Can.ask (G := fun s => ⟨.ok, .own h.next v1, destroy old h1.tock⟩) 0 (fun s hs => ?_) (Can.ret fun _ => rfl)
  unfold ptrBody
  simp only [attempt_ok hs]

theorem sim_ptr_fail {st : Status} {recO : (Nat → Nat) → OVal → Heap → RunO} {old : OVal} {P : OVal → Prop} (n : st ≠ .ok)
    (H : ∀ h : Heap, SimO (fun s => recO s .leaf h) h.tick st P) (h : Heap) :
    SimO (fun s => readPtr s (recO s) old h) h.tick st (fun o => o = old) := by
  intro x g
  obtain ⟨⟨x1, v1, h1⟩, c1, e1, _⟩ := H ⟨h.next + 1, h.freed, h.tick + 1⟩ x g
  dsimp only at e1
  subst e1
  have nx := leftBy_ne g n
  refine ⟨⟨x1, old, destroy (.own h.next v1) h1⟩, ?_, rfl, rfl⟩
  refine Can.ask 0 (fun s hs => readPtr_eq hs) ?_
  refine c1.map fun s hs => ?_
  rw [hs]
  unfold ptrBody
  cases x1 <;> first | exact absurd rfl nx | rfl

theorem getD_insert {α : Type} (l r : List α) (e d : α) (j : Nat) :
    (l ++ e :: r).getD j d = if j < l.length then l.getD j d else if j = l.length then e else r.getD (j - l.length - 1) d := by
  by_cases h : j < l.length
  · rw [if_pos h, List.getD_eq_getElem?_getD, List.getElem?_append_left h, ← List.getD_eq_getElem?_getD]
  · rw [if_neg h, List.getD_eq_getElem?_getD, List.getElem?_append_right (by omega)]
    by_cases e' : j = l.length
    · rw [if_pos e', e']; simp
    · rw [if_neg e', show j - l.length = (j - l.length - 1) + 1 by omega, List.getElem?_cons_succ,
        ← List.getD_eq_getElem?_getD]
      rfl

theorem getD_take {α : Type} (l : List α) (n j : Nat) (d : α) : (l.take n).getD j d = if j < n then l.getD j d else d := by
  rw [List.getD_eq_getElem?_getD, List.getElem?_take]
  by_cases h : j < n
  · rw [if_pos h, if_pos h, ← List.getD_eq_getElem?_getD]
  · rw [if_neg h, if_neg h]; rfl

theorem getD_drop {α : Type} (l : List α) (n j : Nat) (d : α) : (l.drop n).getD j d = l.getD (n + j) d := by
  rw [List.getD_eq_getElem?_getD, List.getElem?_drop, ← List.getD_eq_getElem?_getD]

theorem padTake_length (i : Nat) (vs : List OVal) : (padTake i vs).length = i := by
  simp only [padTake, List.length_append, List.length_take, List.length_replicate]
  omega

theorem getD_padTake (i j : Nat) (vs : List OVal) (h : j < i) : (padTake i vs).getD j .leaf = vs.getD j .leaf := by
  unfold padTake
  by_cases e : j < vs.length
  · rw [List.getD_eq_getElem?_getD, List.getElem?_append_left (by simp; omega), List.getElem?_take, if_pos h,
      ← List.getD_eq_getElem?_getD]
  · rw [List.getD_eq_getElem?_getD, List.getElem?_append_right (by simp; omega), List.getElem?_replicate,
      List.getD_eq_getElem?_getD, List.getElem?_eq_none (by omega : vs.length ≤ j)]
    split <;> rfl

/-- One more at place `i`. -/
theorem mir_insert {env : Nat → Ty} {t : Ty} {vs : List Val} {os : List OVal} {e : Val} {o : OVal} {i : Nat}
    (hi : i ≤ vs.length) (m : MirE env t vs.length vs os) (me : Mirror env t e o) :
    MirE env t (vs.take i ++ e :: vs.drop i).length (vs.take i ++ e :: vs.drop i) (padTake i os ++ o :: os.drop i) ∧
    (vs.take i ++ e :: vs.drop i).length = vs.length + 1 ∧
    ∀ j, vs.length + 1 ≤ j → (padTake i os ++ o :: os.drop i).getD j .leaf = os.getD (j - 1) .leaf := by
  have len : (vs.take i ++ e :: vs.drop i).length = vs.length + 1 := by
    simp only [List.length_append, List.length_take, List.length_cons, List.length_drop]
    omega
  have tl : (vs.take i).length = i := by simp only [List.length_take]; omega
  refine ⟨fun j hj => ?_, len, fun j hj => ?_⟩
  · rw [len] at hj
    rw [getD_insert, getD_insert, tl, padTake_length]
    by_cases h1 : j < i
    · rw [if_pos h1, if_pos h1, getD_padTake _ _ _ h1, getD_take, if_pos h1]
      exact m j (by omega)
    · rw [if_neg h1, if_neg h1]
      by_cases h2 : j = i
      · rw [if_pos h2, if_pos h2]; exact me
      · rw [if_neg h2, if_neg h2, getD_drop, getD_drop]
        exact m _ (by omega)
  · rw [getD_insert, padTake_length, if_neg (by omega), if_neg (by omega), getD_drop]
    congr 1
    omega

theorem insertSorted_place (lt : Val → Val → Bool) (isMap : Bool) (e : Val) :
    ∀ vs : List Val, ∃ i, i ≤ vs.length ∧ insertSorted lt isMap e vs = vs.take i ++ e :: vs.drop i
  | [] => ⟨0, Nat.le_refl _, rfl⟩
  | x :: xs => by
    unfold insertSorted
    split
    · exact ⟨0, Nat.zero_le _, rfl⟩
    · obtain ⟨i, hi, h⟩ := insertSorted_place lt isMap e xs
      exact ⟨i + 1, by simp only [List.length_cons]; omega, by simp [h]⟩

theorem assocInsert_place (lt : Val → Val → Bool) (multi hashed isMap : Bool) (e : Val) (vs : List Val) :
    assocInsert lt multi hashed isMap e vs = vs ∨
      ∃ i, i ≤ vs.length ∧ assocInsert lt multi hashed isMap e vs = vs.take i ++ e :: vs.drop i := by
  unfold assocInsert
  split
  · split
    · exact Or.inr ⟨vs.length, Nat.le_refl _, by simp⟩
    · exact Or.inl rfl
  · split
    · exact Or.inr (insertSorted_place _ _ _ _)
    · exact Or.inl rfl

/-- Reading an element into a temporary and inserting it at place `i`. -/
theorem sim_insert {P1 : OVal → Prop} {recO : (Nat → Nat) → OVal → Heap → RunO} {dest : OVal} (i : Nat)
    (H : ∀ h : Heap, SimO (fun s => recO s .leaf h) h.tick .ok P1) (h : Heap) :
    SimO (fun s => withTemp s true (recO s) (insertInto s dest) dest h) h.tick .ok
      (fun o => ∃ v, P1 v ∧ o = .node (padTake i dest.kids ++ v :: dest.kids.drop i)) := by
  refine sim_temp_ok (store := fun s => insertInto s dest) H (fun v h p => ?_) h
  refine ⟨(.node (padTake i dest.kids ++ v :: dest.kids.drop i), h.tock), ?_, v, p, rfl⟩
  refine Can.ask (G := fun _ => (.node (padTake i dest.kids ++ v :: dest.kids.drop i), h.tock)) i (fun s hs => ?_)
    (Can.ret fun _ => rfl)
  simp only [insertInto, ask_eq hs]

/-- Elements of a set or map. -/
def MirS (env : Nat → Ty) (t : Ty) (vs : List Val) (os : List OVal) : Prop := MirE env t vs.length vs os ∧ Rest vs.length os

theorem mirS_insert {env : Nat → Ty} {t : Ty} {vs : List Val} {os : List OVal} {e : Val} {o : OVal} {i : Nat}
    (hi : i ≤ vs.length) (m : MirS env t vs os) (me : Mirror env t e o) :
    MirS env t (vs.take i ++ e :: vs.drop i) (padTake i os ++ o :: os.drop i) := by
  obtain ⟨a, b, r⟩ := mir_insert hi m.1 me
  refine ⟨a, fun j hj => ?_⟩
  rw [b] at hj
  rw [r j hj]
  exact m.2 _ (by omega)

theorem sim_assoc {env : Nat → Ty} {t : Ty} {elem : Nat → Res} {ins : Val → List Val → List Val}
    {recO : (Nat → Nat) → OVal → Heap → RunO}
    (H : ∀ (p : Nat) (h : Heap), SimO (fun s => recO s .leaf h) h.tick (elem p).s (Mirror env t (elem p).v))
    (I : ∀ e vs, ins e vs = vs ∨ ∃ i, i ≤ vs.length ∧ ins e vs = vs.take i ++ e :: vs.drop i) (P : List Val → OVal → Prop)
    (put : ∀ vs o e oe i, P vs o → i ≤ vs.length → Mirror env t e oe →
      P (vs.take i ++ e :: vs.drop i) (.node (padTake i o.kids ++ oe :: o.kids.drop i))) :
    ∀ (n : Nat) (vs : List Val) (o : OVal) (p : Nat) (h : Heap), P vs o →
    SimO (fun s => insertN s (recO s) n o h) h.tick (decAssoc elem ins n vs p).s (P (decAssoc elem ins n vs p).vs)
  | 0, vs, o, p, h, m => by
    intro x g
    simp only [decAssoc] at g ⊢
    rw [leftBy_ok] at g
    exact ⟨⟨.ok, o, h⟩, Can.ret fun s => by simp [insertN], g.symm, m⟩
  | n + 1, vs, o, p, h, m => by
    have H1 := H p
    simp only [decAssoc]
    generalize elem p = r at H1 ⊢
    obtain ⟨st, v, p'⟩ := r
    cases st with
    | ok =>
      dsimp only at H1 ⊢
      intro x g
      have key : ∃ q : RunO, Can (fun s => withTemp s true (recO s) (insertInto s o) o h) h.tick q.h.tick q ∧ q.x = .ok ∧
          P (ins v vs) q.v := by
        rcases I v vs with e | ⟨i, hi, e⟩
        · obtain ⟨q, c, e1, e2⟩ := sim_temp_refused (store := fun s => insertInto s o) (dest := o) H1 h .ok rfl
          exact ⟨q, c, e1, by rw [e2, e]; exact m⟩
        · obtain ⟨q, c, e1, w, pw, e2⟩ := sim_insert (dest := o) i H1 h .ok rfl
          exact ⟨q, c, e1, by rw [e2, e]; exact put vs o v w i m hi pw⟩
      obtain ⟨⟨x1, o1, h1⟩, c1, e1, m1⟩ := key
      dsimp only at e1 m1
      subst e1
      obtain ⟨q2, c2, e2, m2⟩ := sim_assoc H I P put n (ins v vs) o1 p' h1 m1 x g
      refine ⟨q2, c1.next (fun s hs => ?_) c2, e2, m2⟩
      simp only [insertN, hs]
    | _ =>
      dsimp only at H1 ⊢
      intro x g
      obtain ⟨⟨x1, o1, h1⟩, c1, e1, m1⟩ := sim_temp_fail (store := fun s => insertInto s o) (dest := o) (ins := true) (by simp) H1 h x g
      dsimp only at e1 m1
      have nx := leftBy_ne g (by simp)
      subst e1 m1
      refine ⟨⟨x1, o1, h1⟩, c1.map fun s hs => ?_, rfl, m⟩
      simp only [insertN, hs]
      cases x1 <;> first | exact absurd rfl nx | rfl

end Zpp
