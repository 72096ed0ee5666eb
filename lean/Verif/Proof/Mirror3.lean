import Verif.Proof.Mirror2
/-!
# Every run of the input archive is a run of the ownership model: containers, messages, all types
-/

namespace Zpp
open Zpp.Spec

theorem mir_chunks_length (f : List UInt8 → Val) (sz : Nat) : ∀ n bs, (chunks f sz n bs).length = n
  | 0, _ => rfl
  | n + 1, bs => by simp [chunks, mir_chunks_length f sz n]

/-- After a copy the elements are new, or as before. -/
theorem decRep_held (c : Cfg) (t : Ty) (vs : List Val) (data : List UInt8) (p n : Nat) (hn : n = vs.length) :
    (decRep c t n vs data p).vs.length = vs.length ∧
      ((decRep c t n vs data p).vs = vs ∨ noneHeldAll (decRep c t n vs data p).vs = true) := by
  unfold decRep
  split
  · exact ⟨rfl, Or.inl rfl⟩
  · split
    · exact ⟨by rw [hn]; exact mir_chunks_length _ _ _ _, Or.inr (noneHeld_unrepAll _ _ _ _ _)⟩
    · exact ⟨rfl, Or.inl rfl⟩

/-- Elements of a container. -/
theorem sim_body {env : Nat → Ty} {c : Cfg} {t : Ty} {rec : Val → Nat → Res} {recO : (Nat → Nat) → Ty → OVal → Heap → RunO}
    (H : Sims env t rec (fun s => recO s t)) (block : Bool) (vs : List Val) (os : List OVal) (data : List UInt8) (p n : Nat)
    (h : Heap) (hn : n = vs.length) (m : MirE env t vs.length vs os) {r : ResL}
    (hr : r = if block && asBytes c t then decRep c t n vs data p else decAll rec vs p) :
    r.vs.length = vs.length ∧ SimO (fun s => readBody c s (recO s) block t n os h) h.tick r.s
      (fun o => ∃ os', o = .node os' ∧ MirE env t vs.length r.vs os' ∧
        ∀ i, vs.length ≤ i → os'.getD i .leaf = os.getD i .leaf) := by
  subst hr
  unfold readBody
  by_cases hb : (block && asBytes c t) = true
  · simp only [hb, if_true]
    obtain ⟨len, alt⟩ := decRep_held c t vs data p n hn
    refine ⟨len, ?_⟩
    refine sim_attempt (o := .node os) h ⟨os, rfl, fun i hi => ?_, fun i _ => rfl⟩ (fun s => rfl)
    rcases alt with e | e
    · rw [e]; exact m i hi
    · refine .nothing (noneHeldAll_getD e i) (mir_asBytes (c := c) (m i hi) ?_)
      simp only [Bool.and_eq_true] at hb
      exact hb.2
  · simp only [hb, Bool.false_eq_true, if_false]
    obtain ⟨len, sim⟩ := sim_elems H vs os p h m
    refine ⟨len, fun x g => ?_⟩
    obtain ⟨q, c1, e1, m1, r1⟩ := sim x g
    refine ⟨⟨q.x, .node q.vs, q.h⟩, c1.map fun s hs => ?_, e1, q.vs, rfl, m1, r1⟩
    subst hn
    simp only [hs]

theorem mir_resize_length (vs : List Val) (n : Nat) (dv : Val) : (resizeVals vs n dv).length = n := by
  simp only [resizeVals, List.length_append, List.length_take, List.length_replicate]
  omega

theorem getD_resizeVals (vs : List Val) (n i : Nat) (dv : Val) (h : i < n) :
    (resizeVals vs n dv).getD i .unit = if i < vs.length then vs.getD i .unit else dv := by
  unfold resizeVals
  by_cases e : i < vs.length
  · rw [if_pos e, List.getD_eq_getElem?_getD, List.getElem?_append_left (by simp; omega), List.getElem?_take, if_pos h,
      ← List.getD_eq_getElem?_getD]
  · rw [if_neg e, List.getD_eq_getElem?_getD, List.getElem?_append_right (by simp; omega), List.getElem?_replicate,
      if_pos (by simp; omega)]
    rfl

theorem mirE_resize {env : Nat → Ty} {t : Ty} {vs : List Val} {os : List OVal} {n : Nat} {dv : Val}
    (m : MirE env t vs.length vs os) (r : Rest vs.length os) (hd : noneHeld dv = true) :
    MirE env t n (resizeVals vs n dv) (os.take n) := by
  intro i hi
  rw [getD_resizeVals _ _ _ _ hi, getD_take, if_pos hi]
  by_cases e : i < vs.length
  · rw [if_pos e]; exact m i e
  · rw [if_neg e]; exact .nothing hd (r i (by omega))

theorem rest_take (n : Nat) (os : List OVal) : Rest n (os.take n) := by
  intro i hi
  rw [getD_take, if_neg (by omega)]
  rfl

theorem mir_number {env : Nat → Ty} {t : Ty} {v : Val} {o : OVal} (h : Mirror env t v o)
    (ht : match t with | .scalar _ _ => True | .bool => True | .varint _ _ => True | .empty => True | .bitset _ => True | _ => False) :
    noneHeld v = true ∧ o.ids = [] := by
  cases h <;> simp_all

theorem getVarint_held {n : Nat} {zz : Bool} {old : Val} {data : List UInt8} {p : Nat} (h : noneHeld old = true) :
    noneHeld (getVarint n zz old data p).v = true := by
  unfold getVarint
  split
  · exact h
  · split <;> first | exact h | rfl

/-- Sequence containers, with the size known. -/
theorem seqBody_sim {env : Nat → Ty} {c : Cfg} {k : SeqKind} {sz : Option SizeTy} {t : Ty} {rec : Val → Nat → Res}
    {recO : (Nat → Nat) → Ty → OVal → Heap → RunO} (hk : k ≠ .view)
    (H : Sims env t rec (fun s => recO s t)) (vs : List Val) (os : List OVal) (data : List UInt8) (p : Nat)
    (h : Heap) (m : MirE env t vs.length vs os) (w : ∀ i, vs.length ≤ i → ∃ w, Mirror env t w (os.getD i .leaf))
    (b : k ≠ .span → Rest vs.length os) :
    SimO (fun s => readBody c s (recO s) (k ≠ .list) t vs.length os h) h.tick (seqBody c k t rec vs data p).s
      (Mirror env (.seq k sz t) (seqBody c k t rec vs data p).v) := by
  have e : seqBody c k t rec vs data p =
      (if decide (k ≠ .list) && asBytes c t then decRep c t vs.length vs data p else decAll rec vs p).toRes := by
    unfold seqBody
    by_cases h1 : k = .list <;> by_cases h2 : asBytes c t <;> simp [h1, h2]
  obtain ⟨len, sim⟩ := sim_body (c := c) H (decide (k ≠ .list)) vs os data p vs.length h rfl m rfl
  rw [e]
  intro x g
  obtain ⟨q, c1, e1, os', e2, m', r'⟩ := sim x g
  refine ⟨q, c1, e1, ?_⟩
  rw [e2]
  refine seq_mir hk (by rw [len]; exact m') (fun i hi => ?_) (fun hs i hi => ?_)
  · rw [len] at hi
    rw [r' i hi]
    exact w i hi
  · rw [len] at hi
    rw [r' i hi]
    exact b hs i hi

theorem seqUnsized_sim {env : Nat → Ty} {c : Cfg} {k : SeqKind} {sz : Option SizeTy} {t : Ty} {rec : Val → Nat → Res}
    {recO : (Nat → Nat) → Ty → OVal → Heap → RunO} (H : Sims env t rec (fun s => recO s t)) (v : Val) (o : OVal)
    (data : List UInt8) (p : Nat) (h : Heap) (m : Mirror env (.seq k sz t) v o) :
    SimO (fun s => if k = .view then ⟨(attempt s h).1, o, (attempt s h).2⟩
      else readBody c s (recO s) (k ≠ .list) t (ask s h).1 o.kids (ask s h).2) h.tick
      (seqUnsized c k t rec v data p).s (Mirror env (.seq k sz t) (seqUnsized c k t rec v data p).v) := by
  by_cases hk : k = .view
  · subst hk
    simp only [if_true]
    exact sim_attempt h (.view (mir_view m)) fun s => rfl
  · simp only [hk, if_false]
    have e : seqUnsized c k t rec v data p = seqBody c k t rec v.elems data p := by
      cases k <;> first | exact absurd rfl hk | rfl
    obtain ⟨m1, w1, b1⟩ := mir_seq hk m
    have sim := seqBody_sim (c := c) (sz := sz) hk H v.elems o.kids data p h.tock m1 w1 b1
    rw [e]
    intro x g
    obtain ⟨q, c1, e1, m2⟩ := sim x g
    refine ⟨q, Can.ask v.elems.length (fun s hs => ?_) c1, e1, m2⟩
    rw [ask_eq hs]

/-- `readO` of a sequence container after its size `n` was read. -/
def fillO (c : Cfg) (s : Nat → Nat) (rec : Ty → OVal → Heap → RunO) (k : SeqKind) (t : Ty) (o : OVal) (n : Nat) (h : Heap) : RunO :=
  match k with
  | .view => ⟨(attempt s h).1, o, (attempt s h).2⟩
  | .span =>
    match attempt s h with
    | (.ok, h) => readBody c s rec true t n o.kids h
    | (x, h) => ⟨x, o, h⟩
  | k =>
    match attempt s h with
    | (.ok, h) => readBody c s rec (k ≠ .list) t n (resizeO n o.kids h).1 (resizeO n o.kids h).2
    | (x, h) => ⟨x, o, h⟩

theorem seqFill_sim {env : Nat → Ty} {c : Cfg} {k : SeqKind} {sz : Option SizeTy} {t : Ty} {rec : Val → Nat → Res}
    {recO : (Nat → Nat) → Ty → OVal → Heap → RunO} (H : Sims env t rec (fun s => recO s t)) (dv v : Val) (o : OVal)
    (hd : noneHeld dv = true) (data : List UInt8) (n p : Nat) (h : Heap) (m : Mirror env (.seq k sz t) v o) :
    SimO (fun s => fillO c s (recO s) k t o n h) h.tick
      (seqFill c k t rec dv v data n p).s (Mirror env (.seq k sz t) (seqFill c k t rec dv v data n p).v) := by
  have refuse : ∀ {st : Status}, st ≠ .ok → ∀ {F : (Nat → Nat) → Heap → RunO},
      SimO (fun s => match attempt s h with
        | (.ok, h) => F s h
        | (x, h) => ⟨x, o, h⟩) h.tick st (Mirror env (.seq k sz t) v) := by
    intro st n F x g
    have nx := leftBy_ne g n
    refine ⟨⟨x, o, h.tock⟩, Can.ask (G := fun _ => ⟨x, o, h.tock⟩) (codeOf st) (fun s hs => ?_) (Can.ret fun _ => rfl), rfl, m⟩
    rw [attempt_eq g hs]
    cases x <;> first | exact absurd rfl nx | rfl
  have resized : ∀ k' : SeqKind, k' = k → k ≠ .view → k ≠ .span →
      SimO (fun s => match attempt s h with
        | (.ok, h) =>
          readBody c s (recO s) (k' ≠ .list) t n (resizeO n o.kids h).1 (resizeO n o.kids h).2
        | (x, h) => ⟨x, o, h⟩) h.tick (seqBody c k' t rec (resizeVals v.elems n dv) data p).s
          (Mirror env (.seq k' sz t) (seqBody c k' t rec (resizeVals v.elems n dv) data p).v) := by
    intro k' hkk hv hs'
    subst hkk
    obtain ⟨m1, _, b1⟩ := mir_seq hv m
    have rl := mir_resize_length v.elems n dv
    have m2 : MirE env t (resizeVals v.elems n dv).length (resizeVals v.elems n dv) (o.kids.take n) := by
      rw [rl]; exact mirE_resize m1 (b1 hs') hd
    have r2 : Rest (resizeVals v.elems n dv).length (o.kids.take n) := by rw [rl]; exact rest_take n o.kids
    have sim := seqBody_sim (c := c) (sz := sz) hv H (resizeVals v.elems n dv) (o.kids.take n) data p
      (destroy (.node (o.kids.drop n)) h.tock) m2 (fun i hi => ⟨.unit, .nothing rfl (r2 i hi)⟩) (fun _ => r2)
    intro x g
    obtain ⟨q, c1, e1, mq⟩ := sim x g
    refine ⟨q, Can.ask 0 (fun s hs => ?_) c1, e1, mq⟩
    rw [attempt_ok hs, rl]
    rfl
  cases k with
  | view =>
    exact sim_attempt h (.view (mir_view m)) fun s => rfl
  | span =>
    unfold seqFill fillO
    dsimp only
    split
    · exact refuse (by simp)
    · rename_i hn
      obtain ⟨m1, w1, _⟩ := mir_seq (by simp) m
      have tl : (v.elems.take n).length = n := by simp only [List.length_take]; omega
      have m2 : MirE env t (v.elems.take n).length (v.elems.take n) o.kids := by
        intro i hi
        rw [tl] at hi
        rw [getD_take, if_pos hi]
        exact m1 i (by omega)
      have sim := seqBody_sim (c := c) (sz := sz) (k := .span) (by simp) H (v.elems.take n) o.kids data p h.tock m2
        (fun i _ => if g : v.elems.length ≤ i then w1 i g else ⟨_, m1 i (by omega)⟩) (fun g => absurd rfl g)
      intro x g
      obtain ⟨q, c1, e1, mq⟩ := sim x g
      refine ⟨q, Can.ask 0 (fun s hs => ?_) c1, e1, mq⟩
      rw [attempt_ok hs, tl]
      rfl
  | vector =>
    unfold seqFill fillO
    dsimp only
    split
    · exact refuse (by simp)
    · split
      · exact refuse (by simp)
      · exact resized .vector rfl (by simp) (by simp)
  | list =>
    unfold seqFill fillO
    dsimp only
    split
    · exact refuse (by simp)
    · split
      · exact refuse (by simp)
      · exact resized .list rfl (by simp) (by simp)

end Zpp
