import Verif.Model.Lifetime
/-!
# Conservation of objects
-/

namespace Zpp

/-- From owning `a` in heap state `h` to owning `b` in heap state `h'`: every object owned or destroyed afterwards was owned or
destroyed before or was created in between, and the other way round, with multiplicity. -/
structure Bal (a : List Nat) (h : Heap) (b : List Nat) (h' : Heap) : Prop where
  mono : h.next ≤ h'.next
  eq : ∀ id, b.count id + h'.freed.count id = a.count id + h.freed.count id + (if h.next ≤ id ∧ id < h'.next then 1 else 0)

theorem Bal.refl (a : List Nat) (h : Heap) : Bal a h a h :=
  ⟨Nat.le_refl _, fun id => by rw [if_neg (by omega)]; omega⟩

theorem Bal.trans {a b e : List Nat} {h h1 h2 : Heap} (x : Bal a h b h1) (y : Bal b h1 e h2) : Bal a h e h2 := by
  refine ⟨Nat.le_trans x.mono y.mono, fun id => ?_⟩
  have p := x.eq id
  have q := y.eq id
  have m := x.mono
  have n := y.mono
  by_cases g1 : h.next ≤ id ∧ id < h1.next
  · rw [if_pos g1] at p
    rw [if_neg (by omega)] at q
    rw [if_pos (by omega)]
    omega
  · rw [if_neg g1] at p
    by_cases g2 : h1.next ≤ id ∧ id < h2.next
    · rw [if_pos g2] at q
      rw [if_pos (by omega)]
      omega
    · rw [if_neg g2] at q
      rw [if_neg (by omega)]
      omega

theorem Bal.frame {a b : List Nat} {h h' : Heap} (l r : List Nat) (x : Bal a h b h') :
    Bal (l ++ a ++ r) h (l ++ b ++ r) h' := by
  refine ⟨x.mono, fun id => ?_⟩
  have := x.eq id
  simp only [List.count_append]
  omega

theorem Bal.left {a b : List Nat} {h h' : Heap} (l : List Nat) (x : Bal a h b h') : Bal (l ++ a) h (l ++ b) h' := by
  have := x.frame l []
  simpa using this

theorem Bal.right {a b : List Nat} {h h' : Heap} (r : List Nat) (x : Bal a h b h') : Bal (a ++ r) h (b ++ r) h' := by
  have := x.frame [] r
  simpa using this

/-- Reordering. -/
theorem Bal.perm {a b a' b' : List Nat} {h h' : Heap} (x : Bal a h b h') (ha : ∀ id, a'.count id = a.count id)
    (hb : ∀ id, b'.count id = b.count id) : Bal a' h b' h' :=
  ⟨x.mono, fun id => by rw [ha, hb]; exact x.eq id⟩

theorem Bal.destroy (v : OVal) (b : List Nat) (h : Heap) : Bal (v.ids ++ b) h b (destroy v h) := by
  refine ⟨Nat.le_refl _, fun id => ?_⟩
  rw [if_neg (by simp only [Zpp.destroy]; omega)]
  simp only [Zpp.destroy, List.count_append]
  omega

theorem Bal.create (a : List Nat) (h : Heap) : Bal a h (h.next :: a) { h with next := h.next + 1 } := by
  refine ⟨Nat.le_succ _, fun id => ?_⟩
  simp only [List.count_cons]
  by_cases g : h.next = id
  · subst g; simp; omega
  · rw [if_neg (by simpa using g), if_neg (by omega)]
    omega

theorem Bal.tick (a : List Nat) (h : Heap) (n : Nat) : Bal a h a { h with tick := n } :=
  ⟨Nat.le_refl _, fun id => by rw [if_neg (by dsimp only; omega)]; simp⟩

theorem ask_bal {s : Nat → Nat} {h h' : Heap} {n : Nat} (e : ask s h = (n, h')) (a : List Nat) : Bal a h a h' := by
  simp only [ask, Prod.mk.injEq] at e
  rw [← e.2]
  exact Bal.tick a h _

theorem attempt_bal {s : Nat → Nat} {h h' : Heap} {x : Exit} (e : attempt s h = (x, h')) (a : List Nat) : Bal a h a h' := by
  unfold attempt at e
  cases hq : ask s h with
  | mk n h1 =>
    rw [hq] at e
    have hb := ask_bal hq a
    split at e <;> (rename_i g; injection e with _ e2; rw [← e2]; injection g with _ g2; rw [← g2]; exact hb)

theorem commit_bal {s : Nat → Nat} {h h' : Heap} {i : Bool} {x : Commit} (e : commit s i h = (x, h')) (a : List Nat) :
    Bal a h a h' := by
  unfold commit at e
  cases hq : ask s h with
  | mk n h1 =>
    rw [hq] at e
    have hb := ask_bal hq a
    split at e <;> (rename_i g; injection e with _ e2; rw [← e2]; injection g with _ g2; rw [← g2]; exact hb)

/-- A reading function that keeps the balance. -/
def Keeps (rec : OVal → Heap → RunO) : Prop := ∀ v h, Bal v.ids h (rec v h).v.ids (rec v h).h

/-- A function that stores `v` into `dest`. -/
def Stores (store : OVal → Heap → OVal × Heap) (dest : OVal) : Prop :=
  ∀ v h, Bal (v.ids ++ dest.ids) h (store v h).1.ids (store v h).2

theorem assignTo_stores (dest : OVal) : Stores (assignTo dest) dest := by
  intro v h
  have := Bal.destroy dest v.ids h
  refine this.perm (fun id => ?_) (fun id => ?_)
  · simp only [List.count_append]; omega
  · simp [assignTo, OVal.ids, idsAll]

theorem kids_ids (v : OVal) : idsAll v.kids = v.ids := by
  cases v <;> simp [OVal.kids, OVal.ids, idsAll]

theorem idsAll_append (a b : List OVal) : idsAll (a ++ b) = idsAll a ++ idsAll b := by
  induction a with
  | nil => rfl
  | cons v vs ih => simp [idsAll, ih]

theorem idsAll_padTake (i : Nat) (vs : List OVal) : idsAll (padTake i vs) = idsAll (vs.take i) := by
  have : ∀ n, idsAll (List.replicate n OVal.leaf) = [] := fun n => by
    induction n with
    | zero => rfl
    | succ n ih => rw [List.replicate_succ]; simp [idsAll, OVal.ids, ih]
  rw [padTake, idsAll_append, this, List.append_nil]

theorem insertInto_stores (s : Nat → Nat) (dest : OVal) : Stores (insertInto s dest) dest := by
  intro v h
  simp only [insertInto]
  refine (ask_bal (n := (ask s h).1) rfl (v.ids ++ dest.ids)).perm (fun id => rfl) (fun id => ?_)
  have e : dest.ids = idsAll (dest.kids.take (ask s h).1) ++ idsAll (dest.kids.drop (ask s h).1) := by
    rw [← idsAll_append, List.take_append_drop, kids_ids]
  rw [e]
  simp only [OVal.ids, idsAll, idsAll_append, idsAll_padTake, List.count_append]
  omega

theorem withTemp_bal {s : Nat → Nat} {i : Bool} {rec : OVal → Heap → RunO} {store : OVal → Heap → OVal × Heap} {dest : OVal}
    (hr : Keeps rec) (hs : Stores store dest) (h : Heap) :
    Bal dest.ids h (withTemp s i rec store dest h).v.ids (withTemp s i rec store dest h).h := by
  unfold withTemp
  cases ha : attempt s h with
  | mk x h1 =>
    have b1 := attempt_bal ha dest.ids
    cases x with
    | ok =>
      dsimp only [create]
      have b2 : Bal dest.ids h1 (h1.next :: dest.ids) { h1 with next := h1.next + 1 } := Bal.create _ _
      have b3 := (hr .leaf { h1 with next := h1.next + 1 }).frame [h1.next] dest.ids
      generalize rec .leaf { h1 with next := h1.next + 1 } = r at b3 ⊢
      obtain ⟨x, v, h2⟩ := r
      have b123 : Bal dest.ids h (h1.next :: (v.ids ++ dest.ids)) h2 := by
        refine (b1.trans b2).trans (b3.perm (fun id => ?_) (fun id => ?_))
        · simp [OVal.ids]
        · simp
      have bad : Bal dest.ids h dest.ids (destroy (.own h1.next v) h2) := by
        refine b123.trans ((Bal.destroy (.own h1.next v) dest.ids h2).perm (fun id => ?_) (fun id => rfl))
        simp [OVal.ids]
      cases x with
      | ok =>
        dsimp only
        cases hc : commit s i h2 with
        | mk cm h3 =>
          have b4 := commit_bal hc (h1.next :: (v.ids ++ dest.ids))
          have bad' : Bal dest.ids h dest.ids (destroy (.own h1.next v) h3) := by
            refine (b123.trans b4).trans ((Bal.destroy (.own h1.next v) dest.ids h3).perm (fun id => ?_) (fun id => rfl))
            simp [OVal.ids]
          cases cm with
          | moved =>
            dsimp only
            have b5 := (hs v h3).left [h1.next]
            generalize store v h3 = q at b5 ⊢
            obtain ⟨dest', h4⟩ := q
            have b6 := Bal.destroy (.own h1.next .leaf) dest'.ids h4
            refine (b123.trans b4).trans ((b5.perm (fun id => ?_) (fun id => rfl)).trans (b6.perm (fun id => ?_) (fun id => rfl)))
            · simp
            · simp [OVal.ids]
          | refused => exact bad'
          | thrown => exact bad'
      | _ => exact bad
    | _ => exact b1

theorem readPtr_bal {s : Nat → Nat} {rec : OVal → Heap → RunO} (hr : Keeps rec) : Keeps (readPtr s rec) := by
  intro old h
  unfold readPtr
  cases ha : attempt s h with
  | mk x h1 =>
    have b1 := attempt_bal ha old.ids
    cases x with
    | ok =>
      dsimp only [create]
      have b2 : Bal old.ids h1 (h1.next :: old.ids) { h1 with next := h1.next + 1 } := Bal.create _ _
      have b3 := (hr .leaf { h1 with next := h1.next + 1 }).frame [h1.next] old.ids
      generalize rec .leaf { h1 with next := h1.next + 1 } = r at b3 ⊢
      obtain ⟨x, v, h2⟩ := r
      have b123 : Bal old.ids h (h1.next :: (v.ids ++ old.ids)) h2 := by
        refine (b1.trans b2).trans (b3.perm (fun id => ?_) (fun id => ?_))
        · simp [OVal.ids]
        · simp
      have bad : ∀ h3, Bal (h1.next :: (v.ids ++ old.ids)) h2 (h1.next :: (v.ids ++ old.ids)) h3 →
          Bal old.ids h old.ids (destroy (.own h1.next v) h3) := by
        intro h3 b
        refine (b123.trans b).trans ((Bal.destroy (.own h1.next v) old.ids h3).perm (fun id => ?_) (fun id => rfl))
        simp [OVal.ids]
      have good : ∀ h3, Bal (h1.next :: (v.ids ++ old.ids)) h2 (h1.next :: (v.ids ++ old.ids)) h3 →
          Bal old.ids h (OVal.own h1.next v).ids (destroy old h3) := by
        intro h3 b
        refine (b123.trans b).trans ((Bal.destroy old (OVal.own h1.next v).ids h3).perm (fun id => ?_) (fun id => rfl))
        simp only [OVal.ids, List.count_append, List.count_cons]; omega
      cases x with
      | ok =>
        dsimp only
        cases hc : attempt s h2 with
        | mk x3 h3 =>
          have b4 := attempt_bal hc (h1.next :: (v.ids ++ old.ids))
          cases x3 with
          | thrown => exact bad h3 b4
          | _ => exact good h3 b4
      | _ => exact bad h2 (Bal.refl _ _)
    | _ => exact b1

theorem headD_tail_ids (vs : List OVal) : idsAll vs = (vs.headD .leaf).ids ++ idsAll vs.tail := by
  cases vs <;> simp [idsAll, OVal.ids]

theorem readElems_bal {rec : OVal → Heap → RunO} (hr : Keeps rec) :
    ∀ (n : Nat) (vs : List OVal) (h : Heap), Bal (idsAll vs) h (idsAll (readElems rec n vs h).vs) (readElems rec n vs h).h
  | 0, vs, h => Bal.refl _ _
  | n + 1, vs, h => by
    unfold readElems
    have b := (hr (vs.headD .leaf) h).right (idsAll vs.tail)
    rw [← headD_tail_ids] at b
    generalize rec (vs.headD .leaf) h = r at b ⊢
    obtain ⟨x, v, h1⟩ := r
    cases x with
    | ok =>
      dsimp only
      have ih := (readElems_bal hr n vs.tail h1).left v.ids
      simp only [idsAll]
      exact b.trans ih
    | _ => simp only [idsAll]; exact b

theorem readFields_bal {rec : Ty → OVal → Heap → RunO} (hr : ∀ t, Keeps (rec t)) :
    ∀ (ts : List Ty) (vs : List OVal) (h : Heap),
      Bal (idsAll vs) h (idsAll (readFields rec ts vs h).vs) (readFields rec ts vs h).h
  | [], vs, h => Bal.refl _ _
  | t :: ts, vs, h => by
    unfold readFields
    have b := (hr t (vs.headD .leaf) h).right (idsAll vs.tail)
    rw [← headD_tail_ids] at b
    generalize rec t (vs.headD .leaf) h = r at b ⊢
    obtain ⟨x, v, h1⟩ := r
    cases x with
    | ok =>
      dsimp only
      have ih := (readFields_bal hr ts vs.tail h1).left v.ids
      simp only [idsAll]
      exact b.trans ih
    | _ => simp only [idsAll]; exact b

theorem insertN_bal {s : Nat → Nat} {rec : OVal → Heap → RunO} (hr : Keeps rec) :
    ∀ (n : Nat), Keeps (insertN s rec n)
  | 0, dest, h => Bal.refl _ _
  | n + 1, dest, h => by
    unfold insertN
    have b := withTemp_bal (s := s) (i := true) hr (insertInto_stores s dest) h
    generalize withTemp s true rec (insertInto s dest) dest h = r at b ⊢
    obtain ⟨x, v, h1⟩ := r
    cases x with
    | ok => exact b.trans (insertN_bal hr n v h1)
    | _ => exact b

theorem resizeO_bal (n : Nat) (vs : List OVal) (h : Heap) :
    Bal (idsAll vs) h (idsAll (resizeO n vs h).1) (resizeO n vs h).2 := by
  unfold resizeO
  have := Bal.destroy (.node (vs.drop n)) (idsAll (vs.take n)) h
  refine this.perm (fun id => ?_) (fun id => rfl)
  have e : idsAll vs = idsAll (vs.take n) ++ idsAll (vs.drop n) := by rw [← idsAll_append, List.take_append_drop]
  rw [e]
  simp only [OVal.ids, List.count_append]
  omega

theorem clearO_bal : ∀ (ts : List Ty) (vs : List OVal) (h : Heap),
    Bal (idsAll vs) h (idsAll (clearO ts vs h).1) (clearO ts vs h).2
  | [], vs, h => Bal.refl _ _
  | t :: ts, vs, h => by
    have gone : Bal (idsAll vs) h (idsAll (OVal.leaf :: (clearO ts vs.tail (destroy (vs.headD .leaf) h)).1))
        (clearO ts vs.tail (destroy (vs.headD .leaf) h)).2 := by
      have b := Bal.destroy (vs.headD .leaf) (idsAll vs.tail) h
      rw [← headD_tail_ids] at b
      simp only [idsAll, OVal.ids, List.nil_append]
      exact b.trans (clearO_bal ts vs.tail _)
    have kept : Bal (idsAll vs) h (idsAll (vs.headD .leaf :: (clearO ts vs.tail h).1)) (clearO ts vs.tail h).2 := by
      have b := (clearO_bal ts vs.tail h).left (vs.headD .leaf).ids
      rw [← headD_tail_ids] at b
      exact b
    cases t with
    | seq k sz t' => exact gone
    | assoc a b e f g => exact gone
    | _ => exact kept

theorem attempt_keep (s : Nat → Nat) (old : OVal) (h : Heap) :
    Bal old.ids h old.ids (attempt s h).2 :=
  attempt_bal (x := (attempt s h).1) rfl old.ids

theorem ask_keep (s : Nat → Nat) (a : List Nat) (h : Heap) : Bal a h a (ask s h).2 :=
  ask_bal (n := (ask s h).1) rfl a

theorem readMember_bal {s : Nat → Nat} {rec : Ty → OVal → Heap → RunO} (hr : ∀ t, Keeps (rec t)) (t : Ty) :
    Keeps (readMember s rec t) := by
  intro old h
  unfold readMember
  split
  · exact attempt_keep s old h
  split
  · exact withTemp_bal (hr _) (insertInto_stores s old) h
  · exact withTemp_bal (hr _) (insertInto_stores s old) h
  · exact hr t old h
  · exact Bal.refl _ _
  · exact attempt_keep s old h

theorem readNth_bal {s : Nat → Nat} {rec : Ty → OVal → Heap → RunO} (hr : ∀ t, Keeps (rec t)) :
    ∀ (i : Nat) (ts : List Ty) (vs : List OVal) (h : Heap),
      Bal (idsAll vs) h (idsAll (readNth s rec i ts vs h).vs) (readNth s rec i ts vs h).h
  | _, [], vs, h => by
    unfold readNth
    exact attempt_bal (x := (attempt s h).1) rfl _
  | 0, t :: ts, vs, h => by
    unfold readNth
    have b := (readMember_bal (s := s) hr t (vs.headD .leaf) h).right (idsAll vs.tail)
    rw [← headD_tail_ids] at b
    simp only [idsAll]
    exact b
  | i + 1, t :: ts, vs, h => by
    unfold readNth
    have b := (readNth_bal (s := s) hr i ts vs.tail h).left (vs.headD .leaf).ids
    rw [← headD_tail_ids] at b
    simp only [idsAll]
    exact b

theorem readRecords_bal {s : Nat → Nat} {rec : Ty → OVal → Heap → RunO} (hr : ∀ t, Keeps (rec t)) (fs : List Ty) :
    ∀ (n : Nat) (vs : List OVal) (h : Heap),
      Bal (idsAll vs) h (idsAll (readRecords s rec fs n vs h).vs) (readRecords s rec fs n vs h).h
  | 0, vs, h => Bal.refl _ _
  | n + 1, vs, h => by
    unfold readRecords
    cases ha : attempt s h with
    | mk x h1 =>
      have b1 := attempt_bal ha (idsAll vs)
      cases x with
      | ok =>
        dsimp only
        have b2 := ask_keep s (idsAll vs) h1
        generalize ask s h1 = q at b2 ⊢
        obtain ⟨i, h2⟩ := q
        dsimp only at b2 ⊢
        have b3 := readNth_bal (s := s) hr i fs vs h2
        generalize readNth s rec i fs vs h2 = r at b3 ⊢
        obtain ⟨x, vs', h3⟩ := r
        have b := (b1.trans b2).trans b3
        cases x with
        | ok => exact b.trans (readRecords_bal hr fs n vs' h3)
        | _ => exact b
      | _ => exact b1

theorem readBody_bal {c : Cfg} {s : Nat → Nat} {rec : Ty → OVal → Heap → RunO} (hr : ∀ t, Keeps (rec t)) (block : Bool) (t : Ty)
    (n : Nat) (vs : List OVal) (h : Heap) :
    Bal (idsAll vs) h (readBody c s rec block t n vs h).v.ids (readBody c s rec block t n vs h).h := by
  unfold readBody
  split
  · simp only [OVal.ids]
    exact attempt_bal (x := (attempt s h).1) rfl _
  · simp only [OVal.ids]
    exact readElems_bal (hr t) n vs h

theorem first_kid_bal {rec : OVal → Heap → RunO} (hr : Keeps rec) {old v : OVal} {vs : List OVal} (e : old.kids = v :: vs)
    (h : Heap) : Bal old.ids h (OVal.node ((rec v h).v :: vs)).ids (rec v h).h := by
  rw [← kids_ids old, e]
  simp only [OVal.ids, idsAll]
  exact (hr v h).right _

theorem no_kid_bal {rec : OVal → Heap → RunO} (hr : Keeps rec) {old : OVal} (e : old.kids = [])
    (h : Heap) : Bal old.ids h (OVal.node [(rec .leaf h).v]).ids (rec .leaf h).h := by
  rw [← kids_ids old, e]
  simp only [OVal.ids, idsAll, List.append_nil]
  exact hr .leaf h

theorem destroy_bal (old : OVal) (h : Heap) : Bal old.ids h [] (destroy old h) := by
  have := Bal.destroy old [] h
  simpa using this

theorem readAlt_bal {s : Nat → Nat} {rec : OVal → Heap → RunO} (hr : Keeps rec) (dc : Bool) : Keeps (readAlt s rec dc) := by
  intro old h
  unfold readAlt
  split
  · have b := ask_keep s old.ids h
    generalize ask s h = q at b ⊢
    obtain ⟨n, h1⟩ := q
    dsimp only at b
    split
    · rename_i e1; injection e1 with _ e2; subst e2
      split
      · rename_i ek; exact b.trans (no_kid_bal hr ek h1)
      · rename_i v vs ek; exact b.trans (first_kid_bal hr ek h1)
    · rename_i e1; injection e1 with _ e2; subst e2
      refine b.trans ((destroy_bal old h1).trans ?_)
      have := hr .leaf (destroy old h1)
      simp only [OVal.ids, idsAll, List.append_nil] at this ⊢
      exact this
    · rename_i e1; injection e1 with _ e2; subst e2
      exact b
  · exact withTemp_bal hr (assignTo_stores old) h

theorem readO_bal (s : Nat → Nat) : ∀ (d : Nat) (c : Cfg) (t : Ty), Keeps (readO s d c t)
  | 0, c, t, old, h => by unfold readO; exact Bal.refl _ _
  | d + 1, c, t, old, h => by
    have hr : ∀ t, Keeps (readO s d c t) := readO_bal s d c
    have leafcase : Bal old.ids h old.ids (attempt s h).2 := attempt_keep s old h
    cases t with
    | struct ok fs =>
      unfold readO
      dsimp only
      split
      · exact leafcase
      · have := readFields_bal hr fs old.kids h
        rw [kids_ids] at this
        exact this
    | array n t' =>
      unfold readO
      have := readBody_bal (c := c) (s := s) hr true t' n old.kids h
      rw [kids_ids] at this
      exact this
    | seq k sz t' =>
      unfold readO
      dsimp only
      split
      · split
        · exact leafcase
        · have b := ask_keep s old.ids h
          generalize ask s h = q at b ⊢
          obtain ⟨n, h1⟩ := q
          dsimp only at b ⊢
          have := readBody_bal (c := c) (s := s) hr (k ≠ .list) t' n old.kids h1
          rw [kids_ids] at this
          exact b.trans this
      · cases ha : attempt s h with
        | mk x h1 =>
          have b1 := attempt_bal ha old.ids
          cases x with
          | ok =>
            dsimp only
            have b2 := ask_keep s old.ids h1
            generalize ask s h1 = q at b2 ⊢
            obtain ⟨n, h2⟩ := q
            dsimp only at b2 ⊢
            have b := b1.trans b2
            have sized : ∀ k' : SeqKind, Bal old.ids h2
                (match attempt s h2 with
                | (.ok, h) => readBody c s (readO s d c) (k' ≠ .list) t' n (resizeO n old.kids h).1 (resizeO n old.kids h).2
                | (x, h) => ⟨x, old, h⟩ : RunO).v.ids
                (match attempt s h2 with
                | (.ok, h) => readBody c s (readO s d c) (k' ≠ .list) t' n (resizeO n old.kids h).1 (resizeO n old.kids h).2
                | (x, h) => ⟨x, old, h⟩ : RunO).h := by
              intro k'
              cases ha : attempt s h2 with
              | mk x h3 =>
                have b3 := attempt_bal ha old.ids
                cases x with
                | ok =>
                  dsimp only
                  have b4 := resizeO_bal n old.kids h3
                  rw [kids_ids] at b4
                  exact b3.trans (b4.trans (readBody_bal hr _ t' n _ _))
                | _ => exact b3
            cases k with
            | view => exact b.trans (attempt_keep s old h2)
            | span =>
              dsimp only
              cases ha : attempt s h2 with
              | mk x h3 =>
                have b3 := attempt_bal ha old.ids
                cases x with
                | ok =>
                  have := readBody_bal (c := c) (s := s) hr true t' n old.kids h3
                  rw [kids_ids] at this
                  exact b.trans (b3.trans this)
                | _ => exact b.trans b3
            | vector => exact b.trans (sized .vector)
            | list => exact b.trans (sized .list)
          | _ => exact b1
    | assoc multi hashed sz key mapped =>
      unfold readO
      dsimp only
      cases ha : attempt s h with
      | mk x h1 =>
        have b1 := attempt_bal ha old.ids
        cases x with
        | ok =>
          dsimp only
          have b2 := ask_keep s old.ids h1
          generalize ask s h1 = q at b2 ⊢
          obtain ⟨n, h2⟩ := q
          dsimp only at b2 ⊢
          refine (b1.trans b2).trans ((destroy_bal old h2).trans ?_)
          refine insertN_bal ?_ n .leaf (destroy old h2)
          intro v h
          cases mapped with
          | none => exact hr key v h
          | some m =>
            have := readFields_bal hr [key, m] v.kids h
            rw [kids_ids] at this
            exact this
        | _ => exact b1
    | optional dc t' =>
      unfold readO
      dsimp only
      cases ha : attempt s h with
      | mk x h1 =>
        have b1 := attempt_bal ha old.ids
        cases x with
        | ok =>
          dsimp only
          have b2 := ask_keep s old.ids h1
          generalize ask s h1 = q at b2 ⊢
          obtain ⟨n, h2⟩ := q
          dsimp only at b2
          have b := b1.trans b2
          split
          · rename_i e1; injection e1 with _ e2; subst e2
            exact b.trans (destroy_bal old h2)
          · rename_i e1; injection e1 with _ e2; subst e2
            split
            · split
              · rename_i ek
                cases ha3 : attempt s h2 with
                | mk x h3 =>
                  have b3 := attempt_bal ha3 old.ids
                  cases x with
                  | ok => exact b.trans (b3.trans (no_kid_bal (hr t') ek h3))
                  | _ => exact b.trans b3
              · rename_i v vs ek
                exact b.trans (first_kid_bal (hr t') ek h2)
            · exact b.trans (withTemp_bal (hr t') (assignTo_stores old) h2)
        | _ => exact b1
    | optPtr t' =>
      unfold readO
      dsimp only
      cases ha : attempt s h with
      | mk x h1 =>
        have b1 := attempt_bal ha old.ids
        cases x with
        | ok =>
          dsimp only
          have b2 := ask_keep s old.ids h1
          generalize ask s h1 = q at b2 ⊢
          obtain ⟨n, h2⟩ := q
          dsimp only at b2
          have b := b1.trans b2
          split
          · rename_i e1; injection e1 with _ e2; subst e2
            exact b.trans (destroy_bal old h2)
          · rename_i e1; injection e1 with _ e2; subst e2
            exact b.trans (readPtr_bal (hr t') old h2)
        | _ => exact b1
    | uptr t' =>
      unfold readO
      exact readPtr_bal (hr t') old h
    | variant idTy ids dcs alts =>
      unfold readO
      dsimp only
      have b1 := (hr idTy .leaf h).right old.ids
      generalize readO s d c idTy .leaf h = r at b1 ⊢
      obtain ⟨x, id, h1⟩ := r
      simp only [OVal.ids, List.nil_append] at b1
      cases x with
      | ok =>
        dsimp only
        have b2 := ask_keep s (id.ids ++ old.ids) h1
        generalize ask s h1 = q at b2 ⊢
        obtain ⟨i, h2⟩ := q
        dsimp only at b2 ⊢
        have b := b1.trans b2
        split
        · rename_i t' dc _ _
          dsimp only
          exact b.trans (((readAlt_bal (hr t') dc old h2).left id.ids).trans (Bal.destroy id _ _))
        · exact b.trans (Bal.destroy id _ _)
      | _ => exact b1.trans (Bal.destroy id _ _)
    | msg sz ok maps nums fs =>
      unfold readO
      dsimp only
      cases ha : attempt s h with
      | mk x h1 =>
        have b1 := attempt_bal ha old.ids
        cases x with
        | ok =>
          dsimp only
          have b2 := ask_keep s old.ids h1
          generalize ask s h1 = q at b2 ⊢
          obtain ⟨n, h2⟩ := q
          dsimp only at b2 ⊢
          have b3 := clearO_bal fs old.kids h2
          rw [kids_ids] at b3
          generalize clearO fs old.kids h2 = q at b3 ⊢
          obtain ⟨vs, h3⟩ := q
          dsimp only at b3 ⊢
          exact ((b1.trans b2).trans b3).trans (readRecords_bal (readO_bal s d (pbCfg c)) fs n vs h3)
        | _ => exact b1
    | ref i =>
      unfold readO
      exact hr (c.env i) old h
    | _ =>
      unfold readO
      exact leafcase

end Zpp
