import Verif.Proof.Mirror4
/-!
# Every run of the input archive is a run of the ownership model: all types
-/

namespace Zpp
open Zpp.Spec

theorem readNth_all {env : Nat → Ty} {recO : (Nat → Nat) → Ty → OVal → Heap → RunO} {st : Status} :
    ∀ (fs : List Ty) (vs : List Val) (os : List OVal) (h : Heap), MirF env fs vs os →
    SimL (fun s => readNth s (recO s) fs.length fs os h) h.tick st (MirF env fs vs)
  | [], vs, os, h, m => by
    intro x g
    refine ⟨⟨x, os, h.tock⟩, Can.ask (G := fun _ => ⟨x, os, h.tock⟩) (codeOf st) (fun s hs => ?_) (Can.ret fun _ => rfl), rfl, m⟩
    simp only [List.length_nil, readNth, attempt_eq g hs]
  | t :: ts, vs, os, h, m => by
    intro x g
    rw [mirF_cons] at m
    obtain ⟨q, c1, e1, m1⟩ := readNth_all (recO := recO) ts vs.tail os.tail h m.2 x g
    refine ⟨⟨q.x, os.headD .leaf :: q.vs, q.h⟩, c1.map fun s hs => ?_, e1, mirF_cons.mpr ⟨m.1, m1⟩⟩
    simp only [List.length_cons, readNth, hs]

theorem sim_dispatch {env : Nat → Ty} {field : Ty → Nat → Val → Nat → Res}
    {recO : (Nat → Nat) → Ty → OVal → Heap → RunO}
    (H : ∀ t wt v p o h, Mirror env t v o →
      SimO (fun s => readMember s (recO s) t o h) h.tick (field t wt v p).s (Mirror env t (field t wt v p).v))
    (maps : List (Nat × Nat)) (num wt : Nat) :
    ∀ (i : Nat) (nums : List (Option Nat)) (fs : List Ty) (vs : List Val) (p : Nat) (os : List OVal) (h : Heap), MirF env fs vs os →
    ∃ j, SimL (fun s => readNth s (recO s) j fs os h) h.tick (pbDispatch field maps num wt i nums fs vs p).s
      (MirF env fs (pbDispatch field maps num wt i nums fs vs p).vs)
  | i, n :: nums, t :: ts, vs, p, os, h, m => by
    have mc := mirF_cons.mp m
    unfold pbDispatch
    split
    · refine ⟨0, fun x g => ?_⟩
      obtain ⟨q, c1, e1, m1⟩ := H t wt (vs.headD .unit) p (os.headD .leaf) h mc.1 x g
      refine ⟨⟨q.x, q.v :: os.tail, q.h⟩, c1.map fun s hs => ?_, e1, mirF_cons.mpr ⟨m1, mc.2⟩⟩
      simp only [readNth, hs]
    · obtain ⟨j, sim⟩ := sim_dispatch H maps num wt (i + 1) nums ts vs.tail p os.tail h mc.2
      refine ⟨j + 1, fun x g => ?_⟩
      obtain ⟨q, c1, e1, m1⟩ := sim x g
      refine ⟨⟨q.x, os.headD .leaf :: q.vs, q.h⟩, c1.map fun s hs => ?_, e1, mirF_cons.mpr ⟨mc.1, m1⟩⟩
      simp only [readNth, hs]
  | i, [], fs, vs, p, os, h, m => by
    refine ⟨fs.length, ?_⟩
    unfold pbDispatch
    split <;> exact readNth_all fs vs os h m
  | i, n :: nums, [], vs, p, os, h, m => by
    refine ⟨0, ?_⟩
    unfold pbDispatch
    split <;> exact readNth_all [] vs os h m

theorem sim_loop {env : Nat → Ty} {field : Ty → Nat → Val → Nat → Res}
    {recO : (Nat → Nat) → Ty → OVal → Heap → RunO}
    (H : ∀ t wt v p o h, Mirror env t v o →
      SimO (fun s => readMember s (recO s) t o h) h.tick (field t wt v p).s (Mirror env t (field t wt v p).v))
    (maps : List (Nat × Nat)) (nums : List (Option Nat)) (fs : List Ty) (data : List UInt8) :
    ∀ (f : Nat) (vs : List Val) (p : Nat) (os : List OVal) (h : Heap), MirF env fs vs os →
    ∃ n, SimL (fun s => readRecords s (recO s) fs n os h) h.tick (pbLoop field maps nums fs data f vs p).s
      (MirF env fs (pbLoop field maps nums fs data f vs p).vs)
  | 0, vs, p, os, h, m => ⟨0, fun x g => by simp [pbLoop, leftBy] at g⟩
  | f + 1, vs, p, os, h, m => by
    have bad : ∀ st, st ≠ .ok → SimL (fun s => readRecords s (recO s) fs 1 os h) h.tick st (MirF env fs vs) := by
      intro st n x g
      have nx := leftBy_ne g n
      refine ⟨⟨x, os, h.tock⟩, Can.ask (G := fun _ => ⟨x, os, h.tock⟩) (codeOf st) (fun s hs => ?_) (Can.ret fun _ => rfl), rfl, m⟩
      simp only [readRecords, attempt_eq g hs]
    unfold pbLoop
    split
    · generalize getVarint 4 false (.num 0) data p = r
      obtain ⟨st, v, p1⟩ := r
      cases st with
      | ok =>
        cases v with
        | num tag =>
          dsimp only
          obtain ⟨j, sim⟩ := sim_dispatch H maps (tag >>> 3) (tag &&& 7) 0 nums fs vs p1 os h.tock.tock m
          generalize pbDispatch field maps (tag >>> 3) (tag &&& 7) 0 nums fs vs p1 = r at sim ⊢
          obtain ⟨st, vs', p2⟩ := r
          cases st with
          | ok =>
            dsimp only at sim ⊢
            obtain ⟨⟨x1, os1, h1⟩, c1, e1, m1⟩ := sim .ok rfl
            dsimp only at e1 m1
            subst e1
            obtain ⟨n, ih⟩ := sim_loop H maps nums fs data f vs' p2 os1 h1 m1
            refine ⟨n + 1, fun x g => ?_⟩
            obtain ⟨q, c2, e2, m2⟩ := ih x g
            refine ⟨q, ?_, e2, m2⟩
            refine Can.ask (G := fun s => match readNth s (recO s) (ask s h.tock).1 fs os (ask s h.tock).2 with
              | ⟨.ok, vs, h⟩ => readRecords s (recO s) fs n vs h
              | r => r) 0 (fun s hs => ?_) ?_
            · simp only [readRecords, attempt_ok hs]
              generalize readNth s (recO s) (ask s h.tock).1 fs os (ask s h.tock).2 = r
              obtain ⟨x', _, _⟩ := r
              cases x' <;> rfl
            refine Can.ask (G := fun s => match readNth s (recO s) j fs os h.tock.tock with
              | ⟨.ok, vs, h⟩ => readRecords s (recO s) fs n vs h
              | r => r) j (fun s hs => ?_) ?_
            · rw [ask_eq (h := h.tock) hs]
            refine c1.next (fun s hs => ?_) c2
            simp only [hs]
          | _ =>
            refine ⟨1, fun x g => ?_⟩
            dsimp only at sim g ⊢
            obtain ⟨⟨x1, os1, h1⟩, c1, e1, m1⟩ := sim x g
            dsimp only at e1 m1
            have nx := leftBy_ne g (by simp)
            subst e1
            refine ⟨⟨x1, os1, h1⟩, ?_, rfl, m1⟩
            refine Can.ask (G := fun s => match readNth s (recO s) (ask s h.tock).1 fs os (ask s h.tock).2 with
              | ⟨.ok, vs, h⟩ => readRecords s (recO s) fs 0 vs h
              | r => r) 0 (fun s hs => ?_) ?_
            · simp only [readRecords, attempt_ok hs]
              generalize readNth s (recO s) (ask s h.tock).1 fs os (ask s h.tock).2 = r
              obtain ⟨x', _, _⟩ := r
              cases x' <;> rfl
            refine Can.ask (G := fun s => match readNth s (recO s) j fs os h.tock.tock with
              | ⟨.ok, vs, h⟩ => readRecords s (recO s) fs 0 vs h
              | r => r) j (fun s hs => ?_) ?_
            · rw [ask_eq (h := h.tock) hs]
            refine c1.map fun s hs => ?_
            simp only [hs]
            cases x1 <;> first | exact absurd rfl nx | rfl
        | _ => exact ⟨0, fun x g => by simp [leftBy] at g⟩
      | _ =>
        exact ⟨1, bad _ (by simp)⟩
    · refine ⟨0, fun x g => ?_⟩
      rw [leftBy_ok] at g
      exact ⟨⟨.ok, os, h⟩, Can.ret fun s => by simp [readRecords], g.symm, m⟩

theorem clear_mir {env : Nat → Ty} : ∀ (fs : List Ty) (vs : List Val) (os : List OVal) (h : Heap), MirF env fs vs os →
    MirF env fs (pbClear fs vs) (clearO fs os h).1 ∧ (clearO fs os h).2.tick = h.tick
  | [], vs, os, h, m => ⟨⟨fun i t e => by simp at e, m.2⟩, rfl⟩
  | t :: ts, vs, os, h, m => by
    have mc := mirF_cons.mp m
    cases t with
    | seq k sz t =>
      obtain ⟨a, b⟩ := clear_mir ts vs.tail os.tail (destroy (os.headD .leaf) h) mc.2
      exact ⟨mirF_cons.mpr ⟨.nothing rfl rfl, a⟩, b⟩
    | assoc a1 a2 a3 a4 a5 =>
      obtain ⟨a, b⟩ := clear_mir ts vs.tail os.tail (destroy (os.headD .leaf) h) mc.2
      exact ⟨mirF_cons.mpr ⟨.nothing rfl rfl, a⟩, b⟩
    | empty =>
      obtain ⟨a, b⟩ := clear_mir ts vs.tail os.tail h mc.2
      exact ⟨mirF_cons.mpr ⟨.nothing rfl (mir_number mc.1 trivial).2, a⟩, b⟩
    | _ =>
      obtain ⟨a, b⟩ := clear_mir ts vs.tail os.tail h mc.2
      exact ⟨mirF_cons.mpr ⟨mc.1, a⟩, b⟩

theorem decode_num (d : Nat) (c : Cfg) (t : Ty) (v : Val) (data : List UInt8) (p : Nat) (h : noneHeld v = true) (ht : numTy t) :
    noneHeld (decode d c t v data p).v = true := by
  cases d with
  | zero => exact h
  | succ d =>
    cases t with
    | scalar k n => simp only [decode]; split <;> first | exact h | rfl
    | bool => simp only [decode]; split <;> first | exact h | rfl
    | varint n zz => simp only [decode]; exact getVarint_held h
    | _ => exact absurd ht (by simp [numTy])

theorem decode_nums (d : Nat) (c : Cfg) (k : SeqKind) (sz : Option SizeTy) (t : Ty) (v : Val) (data : List UInt8) (p : Nat)
    (h : noneHeld v = true) (ht : numTy t) : noneHeld (decode d c (.seq k sz t) v data p).v = true := by
  cases d with
  | zero => exact h
  | succ d =>
    have body : ∀ k vs p, noneHeldAll vs = true →
        noneHeld (seqBody c k t (fun v p => decode d c t v data p) vs data p).v = true := by
      intro k vs p g
      unfold seqBody
      split
      · exact held_decRep g
      · exact held_decAll (fun v p g => decode_num d c t v data p g ht) vs p g
    have fill : ∀ n p, noneHeld (seqFill c k t (fun v p => decode d c t v data p) (dflt c d t) v data n p).v = true := by
      intro n p
      have rs : noneHeldAll (resizeVals v.elems n (dflt c d t)) = true := by
        refine noneHeldAll_of fun w hw => ?_
        simp only [resizeVals, List.mem_append, List.mem_replicate] at hw
        rcases hw with hw | ⟨_, hw⟩
        · exact noneHeldAll_mem (noneHeld_elems h) w (List.mem_of_mem_take hw)
        · rw [hw]; exact noneHeld_dflt c d t
      cases k with
      | view =>
        simp only [seqFill]
        split
        · exact h
        · split
          · exact noneHeld_unrepAll _ _ _ _ _
          · exact h
      | span =>
        simp only [seqFill]
        split
        · exact h
        · exact body _ _ _ (noneHeldAll_of fun w hw => noneHeldAll_mem (noneHeld_elems h) w (List.mem_of_mem_take hw))
      | vector =>
        simp only [seqFill]
        split
        · exact h
        · split
          · exact h
          · exact body _ _ _ rs
      | list =>
        simp only [seqFill]
        split
        · exact h
        · split
          · exact h
          · exact body _ _ _ rs
    simp only [decode]
    cases effSz c sz with
    | none =>
      dsimp only
      cases k with
      | view =>
        simp only [seqUnsized]
        split
        · exact h
        · exact noneHeld_unrepAll _ _ _ _ _
      | _ => exact body _ _ _ (noneHeld_elems h)
    | fixed n =>
      dsimp only
      split
      · exact fill _ _
      · exact h
    | varint =>
      dsimp only
      split
      · exact fill _ _
      · exact h

end Zpp
