import Verif.Proof.Mirror5
/-!
# Every run of the input archive is a run of the ownership model
-/

namespace Zpp
open Zpp.Spec

theorem sim_hdr_fail {st : Status} {F : (Nat → Nat) → Heap → RunO} {o : OVal} {P : OVal → Prop} {h : Heap} (n : st ≠ .ok)
    (p : P o) : SimO (fun s => match attempt s h with
      | (.ok, h) => F s h
      | (x, h) => ⟨x, o, h⟩) h.tick st P := by
  intro x g
  have nx := leftBy_ne g n
  refine ⟨⟨x, o, h.tock⟩, Can.ask (G := fun _ => ⟨x, o, h.tock⟩) (codeOf st) (fun s hs => ?_) (Can.ret fun _ => rfl), rfl, p⟩
  rw [attempt_eq g hs]
  cases x <;> first | exact absurd rfl nx | rfl

theorem sim_hdr_ok {st : Status} {F : (Nat → Nat) → Heap → RunO} {o : OVal} {P : OVal → Prop} {h : Heap}
    (H : SimO (fun s => F s h.tock) h.tock.tick st P) : SimO (fun s => match attempt s h with
      | (.ok, h) => F s h
      | (x, h) => ⟨x, o, h⟩) h.tick st P := by
  intro x g
  obtain ⟨q, c, e, m⟩ := H x g
  refine ⟨q, Can.ask 0 (fun s hs => ?_) c, e, m⟩
  rw [attempt_ok hs]

theorem sim_ask {st : Status} {F : (Nat → Nat) → Nat → Heap → RunO} {P : OVal → Prop} {h : Heap} (a : Nat)
    (H : SimO (fun s => F s a h.tock) h.tock.tick st P) :
    SimO (fun s => F s (ask s h).1 (ask s h).2) h.tick st P := by
  intro x g
  obtain ⟨q, c, e, m⟩ := H x g
  refine ⟨q, Can.ask a (fun s hs => ?_) c, e, m⟩
  rw [ask_eq hs]

theorem SimO.imp {F : (Nat → Nat) → RunO} {k : Nat} {st : Status} {P Q : OVal → Prop} (H : SimO F k st P) (i : ∀ o, P o → Q o) :
    SimO F k st Q := by
  intro x g
  obtain ⟨q, c, e, m⟩ := H x g
  exact ⟨q, c, e, i _ m⟩

theorem SimO.ret {o : OVal} {h : Heap} {st : Status} {x : Exit} {P : OVal → Prop} (e : leftBy st = some x) (p : P o) :
    SimO (fun _ => ⟨x, o, h⟩) h.tick st P := by
  intro x' g
  rw [e] at g
  exact ⟨⟨x, o, h⟩, Can.ret fun _ => rfl, Option.some.inj g, p⟩

theorem mir_some {env : Nat → Ty} {dc : Bool} {t : Ty} {v : Val} {o : OVal} (h : Mirror env (.optional dc t) (.some v) o) :
    Mirror env t v (o.kids.headD .leaf) ∧ ∀ w ws, o.kids = w :: ws → idsAll ws = [] := by
  cases h with
  | nothing a b => simp [noneHeld] at a
  | optional m r => exact ⟨m, fun w ws e => by simp only [OVal.kids, List.cons.injEq] at e; rw [← e.2]; exact r⟩

theorem mir_none {env : Nat → Ty} {t : Ty} {v : Val} {o : OVal} (h : Mirror env t v o)
    (ht : (∃ dc t', t = .optional dc t') ∨ (∃ t', t = .optPtr t') ∨ ∃ t', t = .uptr t') (hv : ∀ w, v ≠ .some w) :
    noneHeld v = true ∧ o.ids = [] := by
  cases h with
  | nothing a b => exact ⟨a, b⟩
  | optional m _ => exact absurd rfl (hv _)
  | optPtr m => exact absurd rfl (hv _)
  | uptr m => exact absurd rfl (hv _)
  | _ => rcases ht with ⟨_, _, e⟩ | ⟨_, e⟩ | ⟨_, e⟩ <;> cases e

theorem mir_alt {env : Nat → Ty} {idTy : Ty} {ids : List Val} {dcs : List Bool} {alts : List Ty} {i : Nat} {t : Ty} {v : Val}
    {o : OVal} (h : Mirror env (.variant idTy ids dcs alts) (.alt i v) o) (e : alts[i]? = some t) :
    Mirror env t v (o.kids.headD .leaf) ∧ ∀ w ws, o.kids = w :: ws → idsAll ws = [] := by
  cases h with
  | nothing a b =>
    simp only [noneHeld] at a
    refine ⟨.nothing a ?_, fun w ws e => ?_⟩
    · rw [← getD_zero_headD]; exact kids_getD b 0
    · rw [← kids_ids, e] at b
      simp only [idsAll, List.append_eq_nil_iff] at b
      exact b.2
  | alt a m r =>
    rw [a, Option.some.injEq] at e
    subst e
    exact ⟨m, fun w ws e => by simp only [OVal.kids, List.cons.injEq] at e; rw [← e.2]; exact r⟩

/-- The part of an object that has one, read in place. -/
theorem sim_inplace {env : Nat → Ty} {t t' : Ty} {rec : Val → Nat → Res} {recO : (Nat → Nat) → OVal → Heap → RunO}
    (H : Sims env t' rec recO) (cur : Val) (o : OVal) (p : Nat) (h : Heap) (wrap : Val → Val)
    (m : Mirror env t' cur (o.kids.headD .leaf)) (r : ∀ w ws, o.kids = w :: ws → idsAll ws = [])
    (W : ∀ v w ws, Mirror env t' v w → idsAll ws = [] → Mirror env t (wrap v) (.node (w :: ws))) :
    (∀ w ws, o.kids = w :: ws → SimO (fun s => ⟨(recO s w h).x, .node ((recO s w h).v :: ws), (recO s w h).h⟩) h.tick
      (rec cur p).s (Mirror env t (wrap (rec cur p).v))) ∧
    (o.kids = [] → SimO (fun s => ⟨(recO s .leaf h).x, .node [(recO s .leaf h).v], (recO s .leaf h).h⟩) h.tick
      (rec cur p).s (Mirror env t (wrap (rec cur p).v))) := by
  constructor
  · intro w ws e x g
    rw [e, List.headD_cons] at m
    obtain ⟨q, c, ex, mq⟩ := H cur p w h m x g
    exact ⟨⟨q.x, .node (q.v :: ws), q.h⟩, c.map fun s hs => by simp only [hs], ex, W _ _ _ mq (r w ws e)⟩
  · intro e x g
    rw [e, List.headD_nil] at m
    obtain ⟨q, c, ex, mq⟩ := H cur p .leaf h m x g
    exact ⟨⟨q.x, .node [q.v], q.h⟩, c.map fun s hs => by simp only [hs], ex, W _ _ _ mq rfl⟩

theorem readO_seq (s : Nat → Nat) (d : Nat) (c : Cfg) (k : SeqKind) (sz : Option SizeTy) (t : Ty) (o : OVal) (h : Heap) :
    readO s (d + 1) c (.seq k sz t) o h =
      if effSz c sz = .none then
        if k = .view then ⟨(attempt s h).1, o, (attempt s h).2⟩
        else readBody c s (readO s d c) (k ≠ .list) t (ask s h).1 o.kids (ask s h).2
      else
        match attempt s h with
        | (.ok, h) =>
          fillO c s (readO s d c) k t o (ask s h).1 (ask s h).2
        | (x, h) => ⟨x, o, h⟩ := by
  unfold readO
  cases k <;> rfl

/-- Reading an element of a set or map. -/
def entryO (s : Nat → Nat) (d : Nat) (c : Cfg) (key : Ty) (mapped : Option Ty) (v : OVal) (h : Heap) : RunO :=
  match mapped with
  | none => readO s d c key v h
  | some m => ⟨(readFields (readO s d c) [key, m] v.kids h).x, .node (readFields (readO s d c) [key, m] v.kids h).vs,
      (readFields (readO s d c) [key, m] v.kids h).h⟩

theorem readO_assoc (s : Nat → Nat) (d : Nat) (c : Cfg) (multi hashed : Bool) (sz : Option SizeTy) (key : Ty) (mapped : Option Ty)
    (o : OVal) (h : Heap) :
    readO s (d + 1) c (.assoc multi hashed sz key mapped) o h =
      match attempt s h with
      | (.ok, h) => insertN s (entryO s d c key mapped) (ask s h).1 .leaf (destroy o (ask s h).2)
      | (x, h) => ⟨x, o, h⟩ := by
  unfold readO
  cases mapped <;> rfl

/-- `readO` of an optional after its flag `n` was read. -/
def optO (s : Nat → Nat) (rec : OVal → Heap → RunO) (dc : Bool) (o : OVal) (n : Nat) (h : Heap) : RunO :=
  match n with
  | 0 => ⟨.ok, .leaf, destroy o h⟩
  | _ + 1 =>
    if dc then
      match o.kids with
      | [] =>
        match attempt s h with
        | (.ok, h) => ⟨(rec .leaf h).x, .node [(rec .leaf h).v], (rec .leaf h).h⟩
        | (_, h) => ⟨.thrown, o, h⟩
      | v :: vs => ⟨(rec v h).x, .node ((rec v h).v :: vs), (rec v h).h⟩
    else withTemp s false rec (assignTo o) o h

theorem readO_optional (s : Nat → Nat) (d : Nat) (c : Cfg) (dc : Bool) (t : Ty) (o : OVal) (h : Heap) :
    readO s (d + 1) c (.optional dc t) o h =
      match attempt s h with
      | (.ok, h) => optO s (readO s d c t) dc o (ask s h).1 (ask s h).2
      | (x, h) => ⟨x, o, h⟩ := by
  unfold readO
  cases attempt s h with
  | mk x h1 =>
    cases x with
    | ok =>
      dsimp only
      cases ask s h1 with
      | mk n h2 =>
        cases n with
        | zero => rfl
        | succ n => dsimp only [optO]; cases o.kids <;> rfl
    | _ => rfl

/-- `readO` of an optional pointer after its flag `n` was read. -/
def optPtrO (s : Nat → Nat) (rec : OVal → Heap → RunO) (o : OVal) (n : Nat) (h : Heap) : RunO :=
  match n with
  | 0 => ⟨.ok, .leaf, destroy o h⟩
  | _ + 1 => readPtr s rec o h

theorem readO_optPtr (s : Nat → Nat) (d : Nat) (c : Cfg) (t : Ty) (o : OVal) (h : Heap) :
    readO s (d + 1) c (.optPtr t) o h =
      match attempt s h with
      | (.ok, h) => optPtrO s (readO s d c t) o (ask s h).1 (ask s h).2
      | (x, h) => ⟨x, o, h⟩ := by
  unfold readO
  cases attempt s h with
  | mk x h1 =>
    cases x with
    | ok =>
      dsimp only
      cases ask s h1 with
      | mk n h2 => cases n <;> rfl
    | _ => rfl

/-- `readO` of a variant after its id was read. -/
def altO (s : Nat → Nat) (d : Nat) (c : Cfg) (dcs : List Bool) (alts : List Ty) (o : OVal) (r : RunO) : RunO :=
  match r with
  | ⟨.ok, id, h⟩ =>
    match alts[(ask s h).1]?, dcs[(ask s h).1]? with
    | some t', some dc =>
      ⟨(readAlt s (readO s d c t') dc o (ask s h).2).x, (readAlt s (readO s d c t') dc o (ask s h).2).v,
        destroy id (readAlt s (readO s d c t') dc o (ask s h).2).h⟩
    | _, _ => ⟨.err, o, destroy id (ask s h).2⟩
  | ⟨x, id, h⟩ => ⟨x, o, destroy id h⟩

theorem readO_variant (s : Nat → Nat) (d : Nat) (c : Cfg) (idTy : Ty) (ids : List Val) (dcs : List Bool) (alts : List Ty)
    (o : OVal) (h : Heap) :
    readO s (d + 1) c (.variant idTy ids dcs alts) o h = altO s d c dcs alts o (readO s d c idTy .leaf h) := by
  rw [readO]
  unfold altO
  generalize readO s d c idTy .leaf h = r
  obtain ⟨x, id, h1⟩ := r
  cases x with
  | ok => dsimp only; cases alts[(ask s h1).1]? <;> cases dcs[(ask s h1).1]? <;> rfl
  | _ => rfl

/-- The records of a message. -/
def recordsO (s : Nat → Nat) (rec : Ty → OVal → Heap → RunO) (fs : List Ty) (o : OVal) (n : Nat) (h : Heap) : RunO :=
  ⟨(readRecords s rec fs n (clearO fs o.kids h).1 (clearO fs o.kids h).2).x,
    .node (readRecords s rec fs n (clearO fs o.kids h).1 (clearO fs o.kids h).2).vs,
    (readRecords s rec fs n (clearO fs o.kids h).1 (clearO fs o.kids h).2).h⟩

theorem readO_msg (s : Nat → Nat) (d : Nat) (c : Cfg) (sz : Option SizeTy) (ok : Bool) (maps : List (Nat × Nat))
    (nums : List (Option Nat)) (fs : List Ty) (o : OVal) (h : Heap) :
    readO s (d + 1) c (.msg sz ok maps nums fs) o h =
      match attempt s h with
      | (.ok, h) =>
        recordsO s (readO s d (pbCfg c)) fs o (ask s h).1 (ask s h).2
      | (x, h) => ⟨x, o, h⟩ := by
  rw [readO]
  cases attempt s h with
  | mk x h1 => cases x <;> rfl

theorem decode_sim : ∀ (d : Nat) (c : Cfg) (t : Ty) (data : List UInt8),
    Sims c.env t (fun v p => decode d c t v data p) (fun s => readO s d c t)
  | 0, c, t, data => fun v p o h m x g => by simp [decode, leftBy] at g
  | d + 1, c, t, data => by
    intro v p o h m
    have IH : ∀ t, Sims c.env t (fun v p => decode d c t v data p) (fun s => readO s d c t) := fun t => decode_sim d c t data
    have leaf : ∀ {st : Status} {w : Val}, (noneHeld v = true ∧ o.ids = [] → noneHeld w = true) → (noneHeld v = true ∧ o.ids = []) →
        SimO (fun s => ⟨(attempt s h).1, o, (attempt s h).2⟩) h.tick st (Mirror c.env t w) := by
      intro st w hw g
      exact sim_attempt h (.nothing (hw g) g.2) fun s => rfl
    cases t with
    | scalar k n =>
      simp only [decode, readO]
      have g := mir_number m trivial
      split <;> exact leaf (fun g => by first | exact g.1 | rfl) g
    | bool =>
      simp only [decode, readO]
      have g := mir_number m trivial
      split <;> exact leaf (fun g => by first | exact g.1 | rfl) g
    | varint n zz =>
      simp only [decode, readO]
      have g := mir_number m trivial
      exact leaf (fun g => getVarint_held g.1) g
    | empty =>
      simp only [decode, readO]
      have g := mir_number m trivial
      exact leaf (fun g => rfl) g
    | bitset n =>
      simp only [decode, readO]
      have g := mir_number m trivial
      split <;> exact leaf (fun g => by first | exact g.1 | rfl) g
    | struct ok fs =>
      simp only [decode, readO]
      split
      · rename_i hb
        obtain ⟨len, alt⟩ := decRep_held c (.struct ok fs) [v] data p 1 rfl
        refine sim_attempt h ?_ fun s => rfl
        rcases alt with e | e
        · rw [e]; exact m
        · have := noneHeldAll_getD e 0
          rw [getD_zero_headD] at this
          exact .nothing this (mir_asBytes m hb)
      · intro x g
        obtain ⟨q, c1, e1, m1⟩ := sim_fields (recO := fun s => readO s d c) IH fs v.elems o.kids p h (mir_struct m) x g
        exact ⟨⟨q.x, .node q.vs, q.h⟩, c1.map fun s hs => by simp only [hs], e1, .struct m1.1 m1.2⟩
    | array n t' =>
      simp only [decode, readO]
      obtain ⟨m1, r1⟩ := mir_array m
      have rl := mir_resize_length v.elems n .unit
      have m2 : MirE c.env t' (resizeVals v.elems n .unit).length (resizeVals v.elems n .unit) o.kids := by
        intro i hi
        rw [rl] at hi
        rw [getD_resizeVals _ _ _ _ hi]
        split
        · exact m1 i hi
        · rename_i g
          have := m1 i hi
          rwa [List.getD_eq_getElem?_getD, List.getElem?_eq_none (by omega)] at this
      obtain ⟨len, sim⟩ := sim_body (c := c) (recO := fun s => readO s d c) (IH t') true _ o.kids data p n h rl.symm m2 rfl
      have e : (if asBytes c t' then (decRep c t' n (resizeVals v.elems n .unit) data p).toRes
          else (decAll (fun v p => decode d c t' v data p) (resizeVals v.elems n .unit) p).toRes) =
          (if true && asBytes c t' then decRep c t' n (resizeVals v.elems n .unit) data p
            else decAll (fun v p => decode d c t' v data p) (resizeVals v.elems n .unit) p).toRes := by
        cases asBytes c t' <;> rfl
      rw [e]
      refine sim.imp fun o' ⟨os', e', m', r'⟩ => ?_
      rw [e']
      rw [rl] at m' r'
      exact .array m' fun i hi => by rw [r' i hi]; exact r1 i hi
    | seq k sz t' =>
      simp only [readO_seq, decode]
      cases hs : effSz c sz with
      | none =>
        simp only [if_true]
        exact seqUnsized_sim (recO := fun s => readO s d c) (IH t') v o data p h m
      | fixed n =>
        simp only [reduceCtorEq, if_false]
        cases decHdr c (.fixed n) data p with
        | mk st r =>
          obtain ⟨n, p1⟩ := r
          cases st with
          | ok =>
            exact sim_hdr_ok (sim_ask n (F := fun s n h => fillO c s (readO s d c) k t' o n h)
              (seqFill_sim (recO := fun s => readO s d c) (IH t') (dflt c d t') v o (noneHeld_dflt c d t') data n p1 h.tock.tock m))
          | _ => exact sim_hdr_fail (by simp) m
      | varint =>
        simp only [reduceCtorEq, if_false]
        cases decHdr c .varint data p with
        | mk st r =>
          obtain ⟨n, p1⟩ := r
          cases st with
          | ok =>
            exact sim_hdr_ok (sim_ask n (F := fun s n h => fillO c s (readO s d c) k t' o n h)
              (seqFill_sim (recO := fun s => readO s d c) (IH t') (dflt c d t') v o (noneHeld_dflt c d t') data n p1 h.tock.tock m))
          | _ => exact sim_hdr_fail (by simp) m
    | assoc multi hashed sz key mapped =>
      simp only [readO_assoc, decode]
      cases decHdr c (effSz c sz) data p with
      | mk st r =>
        obtain ⟨n, p1⟩ := r
        cases st with
        | ok =>
          refine sim_hdr_ok (F := fun s h => insertN s (entryO s d c key mapped) (ask s h).1 .leaf (destroy o (ask s h).2))
            (sim_ask n (F := fun s n h => insertN s (entryO s d c key mapped) n .leaf (destroy o h)) ?_)
          dsimp only
          refine sim_assoc (env := c.env) (t := entryOf key mapped) (recO := fun s => entryO s d c key mapped) ?_
            (fun e vs => assocInsert_place _ _ _ _ e vs)
            (fun vs o => Mirror c.env (.assoc multi hashed sz key mapped) (.list vs) o) (fun vs o e oe i mm hi me => ?_)
            n [] .leaf p1 (destroy o h.tock.tock) (.nothing rfl rfl)
          · intro p h
            cases mapped with
            | none => exact IH key _ p .leaf h (mir_dflt c c.env d key key)
            | some mt =>
              intro x g
              have mf : MirF c.env [key, mt] [dflt c d key, dflt c d mt] (OVal.leaf.kids) :=
                mirF_cons.mpr ⟨mir_dflt c c.env d key key, mirF_cons.mpr ⟨mir_dflt c c.env d mt mt, fun i t e => by simp at e,
                  fun i _ => by simp [OVal.kids, OVal.ids]⟩⟩
              obtain ⟨q, c1, e1, m1⟩ := sim_fields (recO := fun s => readO s d c) IH [key, mt] _ _ p h mf x g
              exact ⟨⟨q.x, .node q.vs, q.h⟩, c1.map fun s hs => by simp only [entryO, hs], e1, .struct m1.1 m1.2⟩
          · obtain ⟨m1, r1⟩ := mir_assoc mm
            obtain ⟨a, b⟩ := mirS_insert hi ⟨m1, r1⟩ me
            exact .assoc a b
        | _ => exact sim_hdr_fail (by simp) m
    | optional dc t' =>
      simp only [readO_optional, decode]
      cases getBytes data p 1 with
      | mk st r =>
        obtain ⟨bs, p1⟩ := r
        cases st with
        | ok =>
          dsimp only
          split
          · exact sim_hdr_ok (sim_ask 0 (F := fun s n h => optO s (readO s d c t') dc o n h)
              (SimO.ret (h := destroy o h.tock.tock) rfl (.nothing rfl rfl)))
          · refine sim_hdr_ok (sim_ask 1 (F := fun s n h => optO s (readO s d c t') dc o n h) ?_)
            cases dc with
            | true =>
              have main : ∀ cur, (Mirror c.env t' cur (o.kids.headD .leaf) ∧ ∀ w ws, o.kids = w :: ws → idsAll ws = []) →
                  SimO (fun s => optO s (readO s d c t') true o 1 h.tock.tock) h.tock.tock.tick (decode d c t' cur data p1).s
                    (Mirror c.env (.optional true t') (.some (decode d c t' cur data p1).v)) := by
                intro cur mc
                have ip := fun h => sim_inplace (t := .optional true t') (IH t') cur o p1 h (fun v => .some v) mc.1 mc.2
                  (fun v w ws a b => .optional a b)
                simp only [optO, if_true]
                cases hk : o.kids with
                | nil =>
                  intro x g
                  obtain ⟨q, c1, e1, m1⟩ := (ip h.tock.tock.tock).2 hk x g
                  refine ⟨q, Can.ask 0 (fun s hs => ?_) c1, e1, m1⟩
                  simp only [attempt_ok hs]
                | cons w ws => exact (ip h.tock.tock).1 w ws hk
              have fresh : (noneHeld v = true ∧ o.ids = []) → (Mirror c.env t' (dflt c d t') (o.kids.headD .leaf) ∧
                  ∀ w ws, o.kids = w :: ws → idsAll ws = []) := by
                intro g
                refine ⟨.nothing (noneHeld_dflt c d t') ?_, fun w ws e => ?_⟩
                · rw [← getD_zero_headD]; exact kids_getD g.2 0
                · have b := g.2
                  rw [← kids_ids, e] at b
                  simp only [idsAll, List.append_eq_nil_iff] at b
                  exact b.2
              cases v with
              | some w => exact main w (mir_some m)
              | _ => exact main (dflt c d t') (fresh (mir_none m (Or.inl ⟨_, _, rfl⟩) (fun w e => by cases e)))
            | false =>
              simp only [optO, Bool.false_eq_true, if_false]
              have inner := fun h => IH t' (dflt c d t') p1 .leaf h (mir_dflt c c.env d t' t')
              dsimp only at inner
              generalize decode d c t' (dflt c d t') data p1 = r at inner ⊢
              obtain ⟨st, w, p2⟩ := r
              cases st with
              | ok =>
                refine sim_temp_ok (store := fun s => assignTo o) inner (fun w' h pw => ?_) h.tock.tock
                exact ⟨(.node [w'], destroy o h), Can.ret (k := h.tick) fun s => rfl, .optional pw rfl⟩
              | _ =>
                exact (sim_temp_fail (store := fun s => assignTo o) (by simp) inner h.tock.tock).imp fun _ e => by rw [e]; exact m
        | _ => exact sim_hdr_fail (by simp) m
    | optPtr t' =>
      simp only [readO_optPtr, decode]
      cases getBytes data p 1 with
      | mk st r =>
        obtain ⟨bs, p1⟩ := r
        cases st with
        | ok =>
          dsimp only
          split
          · exact sim_hdr_ok (sim_ask 0 (F := fun s n h => optPtrO s (readO s d c t') o n h)
              (SimO.ret (h := destroy o h.tock.tock) rfl (.nothing rfl rfl)))
          · refine sim_hdr_ok (sim_ask 1 (F := fun s n h => optPtrO s (readO s d c t') o n h) ?_)
            have inner := fun h => IH t' (dflt c d t') p1 .leaf h (mir_dflt c c.env d t' t')
            dsimp only [optPtrO] at inner ⊢
            generalize decode d c t' (dflt c d t') data p1 = r at inner ⊢
            obtain ⟨st, w, p2⟩ := r
            cases st with
            | ok => exact (sim_ptr_ok inner h.tock.tock).imp fun o' ⟨id, w', e, mw⟩ => by rw [e]; exact .optPtr mw
            | _ => exact (sim_ptr_fail (by simp) inner h.tock.tock).imp fun _ e => by rw [e]; exact m
        | _ => exact sim_hdr_fail (by simp) m
    | uptr t' =>
      simp only [readO, decode]
      have inner := fun h => IH t' (dflt c d t') p .leaf h (mir_dflt c c.env d t' t')
      dsimp only at inner
      generalize decode d c t' (dflt c d t') data p = r at inner ⊢
      obtain ⟨st, w, p2⟩ := r
      cases st with
      | ok => exact (sim_ptr_ok inner h).imp fun o' ⟨id, w', e, mw⟩ => by rw [e]; exact .uptr mw
      | _ => exact (sim_ptr_fail (by simp) inner h).imp fun _ e => by rw [e]; exact m
    | variant idTy ids dcs alts =>
      simp only [readO_variant, decode]
      have inner := IH idTy (dflt c d idTy) p .leaf h (mir_dflt c c.env d idTy idTy)
      dsimp only at inner
      generalize decode d c idTy (dflt c d idTy) data p = r at inner ⊢
      obtain ⟨st, id, p1⟩ := r
      cases st with
      | ok =>
        dsimp only at inner ⊢
        obtain ⟨⟨x1, o1, h1⟩, c1, e1, m1⟩ := inner .ok rfl
        dsimp only at e1 m1
        subst e1
        -- the alternative chosen
        have choose : ∀ {st : Status} {P : OVal → Prop} (i : Nat),
            SimO (fun s => match alts[i]?, dcs[i]? with
              | some t', some dc =>
                ⟨(readAlt s (readO s d c t') dc o h1.tock).x, (readAlt s (readO s d c t') dc o h1.tock).v,
                  destroy o1 (readAlt s (readO s d c t') dc o h1.tock).h⟩
              | _, _ => ⟨.err, o, destroy o1 h1.tock⟩) h1.tock.tick st P →
            SimO (fun s => altO s d c dcs alts o (readO s d c idTy .leaf h)) h.tick st P := by
          intro st P i H x g
          obtain ⟨q, c2, e2, m2⟩ := H x g
          refine ⟨q, c1.next (G := fun s => altO s d c dcs alts o ⟨.ok, o1, h1⟩) (fun s hs => by rw [hs]) ?_, e2, m2⟩
          refine Can.ask i (fun s hs => ?_) c2
          simp only [altO, ask_eq hs]
        cases findId id ids 0 with
        | none =>
          refine choose alts.length ?_
          rw [List.getElem?_eq_none (Nat.le_refl _)]
          exact SimO.ret (h := destroy o1 h1.tock) rfl m
        | some i =>
          refine choose i ?_
          dsimp only
          cases ha : alts[i]? with
          | none => intro x g; simp [leftBy] at g
          | some t' =>
            cases hd : dcs[i]? with
            | none => intro x g; simp [leftBy] at g
            | some dc =>
              dsimp only
              -- the destructor of the id changes nothing
              have drop : ∀ {st : Status} {P : OVal → Prop}, SimO (fun s => readAlt s (readO s d c t') dc o h1.tock) h1.tock.tick st P →
                  SimO (fun s => ⟨(readAlt s (readO s d c t') dc o h1.tock).x, (readAlt s (readO s d c t') dc o h1.tock).v,
                    destroy o1 (readAlt s (readO s d c t') dc o h1.tock).h⟩) h1.tock.tick st P := by
                intro st P H x g
                obtain ⟨q, c2, e2, m2⟩ := H x g
                exact ⟨⟨q.x, q.v, destroy o1 q.h⟩, c2.map fun s hs => by simp only [hs], e2, m2⟩
              refine drop ?_
              cases dc with
              | true =>
                simp only [decAlt, if_true]
                have held : ∀ w, (Mirror c.env t' w (o.kids.headD .leaf) ∧ ∀ w ws, o.kids = w :: ws → idsAll ws = []) →
                    SimO (fun s => readAlt s (readO s d c t') true o h1.tock) h1.tock.tick (decode d c t' w data p1).s
                      (Mirror c.env (.variant idTy ids dcs alts) (.alt i (decode d c t' w data p1).v)) := by
                  intro w mw
                  have ip := sim_inplace (t := .variant idTy ids dcs alts) (IH t') w o p1 h1.tock.tock (fun v => .alt i v) mw.1 mw.2
                    (fun v w ws a b => .alt ha a b)
                  cases hk : o.kids with
                  | nil =>
                    intro x g
                    obtain ⟨q, c2, e2, m2⟩ := ip.2 hk x g
                    refine ⟨q, Can.ask 0 (fun s hs => ?_) c2, e2, m2⟩
                    simp only [readAlt, if_true, ask_eq hs, hk]
                  | cons w ws =>
                    intro x g
                    obtain ⟨q, c2, e2, m2⟩ := ip.1 w ws hk x g
                    refine ⟨q, Can.ask 0 (fun s hs => ?_) c2, e2, m2⟩
                    simp only [readAlt, if_true, ask_eq hs, hk]
                have switched : SimO (fun s => readAlt s (readO s d c t') true o h1.tock) h1.tock.tick
                    (decode d c t' (dflt c d t') data p1).s
                    (Mirror c.env (.variant idTy ids dcs alts) (.alt i (decode d c t' (dflt c d t') data p1).v)) := by
                  intro x g
                  obtain ⟨q, c2, e2, m2⟩ := IH t' (dflt c d t') p1 .leaf (destroy o h1.tock.tock) (mir_dflt c c.env d t' t') x g
                  refine ⟨⟨q.x, .node [q.v], q.h⟩, Can.ask 1 (fun s hs => ?_) (c2.map (H := fun s =>
                    ⟨(readO s d c t' .leaf (destroy o h1.tock.tock)).x, .node [(readO s d c t' .leaf (destroy o h1.tock.tock)).v],
                      (readO s d c t' .leaf (destroy o h1.tock.tock)).h⟩) fun s hs => ?_), e2, .alt ha m2 rfl⟩
                  · simp only [readAlt, if_true, ask_eq hs]
                  · simp only [hs]
                cases v with
                | alt j w =>
                  dsimp only
                  by_cases hj : j = i
                  · subst hj
                    simp only [if_true]
                    exact held w (mir_alt m ha)
                  · simp only [hj, if_false]
                    exact switched
                | _ => exact switched
              | false =>
                simp only [decAlt, readAlt, Bool.false_eq_true, if_false]
                have inner := fun h => IH t' (dflt c d t') p1 .leaf h (mir_dflt c c.env d t' t')
                dsimp only at inner
                generalize decode d c t' (dflt c d t') data p1 = r at inner ⊢
                obtain ⟨st, w, p2⟩ := r
                cases st with
                | ok =>
                  refine sim_temp_ok (store := fun s => assignTo o) inner (fun w' h pw => ?_) h1.tock
                  exact ⟨(.node [w'], destroy o h), Can.ret (k := h.tick) fun s => rfl, .alt ha pw rfl⟩
                | _ =>
                  exact (sim_temp_fail (store := fun s => assignTo o) (by simp) inner h1.tock).imp fun _ e => by rw [e]; exact m
      | _ =>
        intro x g
        dsimp only at g inner
        obtain ⟨⟨x1, o1, h1⟩, c1, e1, m1⟩ := inner x g
        dsimp only at e1
        have nx := leftBy_ne g (by simp)
        subst e1
        refine ⟨⟨x1, o, destroy o1 h1⟩, c1.map fun s hs => ?_, rfl, m⟩
        rw [hs]
        unfold altO
        cases x1 <;> first | exact absurd rfl nx | rfl
    | msg sz ok maps nums fs =>
      simp only [readO_msg, decode]
      have H2 : ∀ sub, NestedSims c.env (fun t v q => decode d (pbCfg c) t v sub q) (fun s => readO s d (pbCfg c)) := fun sub =>
        ⟨fun t => decode_sim d (pbCfg c) t sub, fun t v p hv ht => decode_num d (pbCfg c) t v sub p hv ht,
          fun k sz t v p hv ht => decode_nums d (pbCfg c) k sz t v sub p hv ht⟩
      have run : ∀ n p1, SimO (fun s => match attempt s h with
          | (.ok, h) =>
            recordsO s (readO s d (pbCfg c)) fs o (ask s h).1 (ask s h).2
          | (x, h) => ⟨x, o, h⟩) h.tick
          (msgRun (pbCfg c) (decode d (pbCfg c)) (dflt (pbCfg c) d) maps nums fs v data n p1).s
          (Mirror c.env (.msg sz ok maps nums fs)
            (msgRun (pbCfg c) (decode d (pbCfg c)) (dflt (pbCfg c) d) maps nums fs v data n p1).v) := by
        intro n p1
        unfold msgRun
        split
        · intro x g; simp [leftBy] at g
        · dsimp only
          obtain ⟨mc, tc⟩ := clear_mir fs v.elems o.kids h.tock.tock (mir_msg m)
          obtain ⟨k, sim⟩ := sim_loop (recO := fun s => readO s d (pbCfg c))
            (fun t wt v q o h m => sim_member (c := pbCfg c) (H2 (msgSub data p1 n)) (fun t => noneHeld_dflt (pbCfg c) d t) t wt v
              (msgSub data p1 n) q o h m) maps nums fs (msgSub data p1 n) ((msgSub data p1 n).length + 1)
            (pbClear fs v.elems) 0 (clearO fs o.kids h.tock.tock).1 (clearO fs o.kids h.tock.tock).2 mc
          refine sim_hdr_ok (F := fun s h => recordsO s (readO s d (pbCfg c)) fs o (ask s h).1 (ask s h).2)
            (sim_ask (F := fun s => recordsO s (readO s d (pbCfg c)) fs o) k ?_)
          intro x g
          obtain ⟨q, c1, e1, m1⟩ := sim x g
          refine ⟨⟨q.x, .node q.vs, q.h⟩, ?_, e1, .msg m1.1 m1.2⟩
          rw [tc] at c1
          exact c1.map fun s hs => by simp only [recordsO, hs]
      cases effSz c sz with
      | none => exact run _ _
      | fixed n =>
        dsimp only
        cases decHdr c (.fixed n) data p with
        | mk st r =>
          cases st with
          | ok => exact run _ _
          | _ => exact sim_hdr_fail (by simp) m
      | varint =>
        dsimp only
        cases decHdr c .varint data p with
        | mk st r =>
          cases st with
          | ok => exact run _ _
          | _ => exact sim_hdr_fail (by simp) m
    | ref i =>
      simp only [decode, readO]
      have m' : Mirror c.env (c.env i) v o := by
        cases m with
        | nothing a b => exact .nothing a b
        | ref a => exact a
      exact (IH (c.env i) v p o h m').imp fun _ g => .ref g

end Zpp
