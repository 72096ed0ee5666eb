import Verif.Spec.Refuse
import Verif.Model.In
/-! # Limits on reading only refuse -/

namespace Zpp
open Spec

/-- The tighter reader gives the same result, or refuses. -/
def SameOrRefused (r r' : Res) : Prop := r = r' ∨ Refused r.s
/-- Likewise for lists. -/
def SameOrRefusedL (r r' : ResL) : Prop := r = r' ∨ Refused r.s

theorem Spec.Refused.ne_ok {s : Status} (h : Refused s) : s ≠ .ok := by
  rcases h with h | h <;> simp [h]

theorem tight_ite {P P' : Prop} [Decidable P] [Decidable P'] {a a' b b' : Res} (hp : P' → P) (ha : Refused a.s) (hb : SameOrRefused b b') :
    SameOrRefused (if P then a else b) (if P' then a' else b') := by
  by_cases h : P
  · rw [if_pos h]; exact .inr ha
  · rw [if_neg h, if_neg (fun h' => h (hp h'))]; exact hb

theorem SameOrRefusedL.toRes {r r' : ResL} (h : SameOrRefusedL r r') : SameOrRefused r.toRes r'.toRes := h.imp (fun h => by rw [h]) id

theorem decAll_tight {rec rec' : Val → Nat → Res} (h : ∀ v p, SameOrRefused (rec v p) (rec' v p)) :
    ∀ vs p, SameOrRefusedL (decAll rec vs p) (decAll rec' vs p) := by
  intro vs
  induction vs with
  | nil => intro p; exact .inl rfl
  | cons v vs ih =>
    intro p
    unfold decAll
    rcases h v p with h1 | h1
    · rw [h1]
      generalize rec' v p = r
      obtain ⟨s, v', p'⟩ := r
      cases s
      · dsimp only
        rcases ih p' with h2 | h2
        · exact .inl (by rw [h2])
        · exact .inr h2
      all_goals exact .inl rfl
    · generalize rec v p = r at h1
      obtain ⟨s, v', p'⟩ := r
      cases s
      · exact absurd rfl (Spec.Refused.ne_ok h1)
      all_goals exact .inr h1

theorem decFields_tight {rec rec' : Ty → Val → Nat → Res} (h : ∀ t v p, SameOrRefused (rec t v p) (rec' t v p)) :
    ∀ ts vs p, SameOrRefusedL (decFields rec ts vs p) (decFields rec' ts vs p) := by
  intro ts
  induction ts with
  | nil => intro vs p; exact .inl rfl
  | cons t ts ih =>
    intro vs p
    unfold decFields
    rcases h t (vs.headD .unit) p with h1 | h1
    · rw [h1]
      generalize rec' t (vs.headD .unit) p = r
      obtain ⟨s, v', p'⟩ := r
      cases s
      · dsimp only
        rcases ih vs.tail p' with h2 | h2
        · exact .inl (by rw [h2])
        · exact .inr h2
      all_goals exact .inl rfl
    · generalize rec t (vs.headD .unit) p = r at h1
      obtain ⟨s, v', p'⟩ := r
      cases s
      · exact absurd rfl (Spec.Refused.ne_ok h1)
      all_goals exact .inr h1

theorem decAssoc_tight {elem elem' : Nat → Res} {ins : Val → List Val → List Val} (h : ∀ p, SameOrRefused (elem p) (elem' p)) :
    ∀ n vs p, SameOrRefusedL (decAssoc elem ins n vs p) (decAssoc elem' ins n vs p) := by
  intro n
  induction n with
  | zero => intro vs p; exact .inl rfl
  | succ n ih =>
    intro vs p
    unfold decAssoc
    rcases h p with h1 | h1
    · rw [h1]
      generalize elem' p = r
      obtain ⟨s, v', p'⟩ := r
      cases s
      · exact ih _ _
      all_goals exact .inl rfl
    · generalize elem p = r at h1
      obtain ⟨s, v', p'⟩ := r
      cases s
      · exact absurd rfl (Spec.Refused.ne_ok h1)
      all_goals exact .inr h1

theorem decAlt_tight {rec rec' : Val → Nat → Res} (h : ∀ v p, SameOrRefused (rec v p) (rec' v p)) (dc : Bool) (i : Nat) (dv old : Val) (p : Nat) :
    SameOrRefused (decAlt rec dc i dv old p) (decAlt rec' dc i dv old p) := by
  unfold decAlt
  cases dc
  · simp only [Bool.false_eq_true, if_false]
    rcases h dv p with h1 | h1
    · rw [h1]; exact .inl rfl
    · generalize rec dv p = r at h1
      obtain ⟨s, v', p'⟩ := r
      cases s
      · exact absurd rfl (Spec.Refused.ne_ok h1)
      all_goals exact .inr h1
  · simp only [if_true]
    have key : ∀ w, SameOrRefused ⟨(rec w p).s, .alt i (rec w p).v, (rec w p).p⟩ ⟨(rec' w p).s, .alt i (rec' w p).v, (rec' w p).p⟩ := by
      intro w
      rcases h w p with h1 | h1
      · exact .inl (by rw [h1])
      · exact .inr h1
    exact key _

theorem pbPush_g (c : Cfg) (g : Growth) (t : Ty) (e : Val) (vs : List Val) : pbPush { c with g := g } t e vs = pbPush c t e vs := by
  cases t <;> rfl

theorem pbFetch_tight {c : Cfg} {g : Growth} {t : Ty} {elem elem' : Nat → Res} (h : ∀ p, SameOrRefused (elem p) (elem' p)) (vs : List Val) (p : Nat) :
    SameOrRefusedL (pbFetch c t elem vs p) (pbFetch { c with g := g } t elem' vs p) := by
  unfold pbFetch
  rcases h p with h1 | h1
  · rw [h1]
    generalize elem' p = r
    obtain ⟨s, v', p'⟩ := r
    cases s
    · exact .inl (congrArg (ResL.mk .ok · p') (pbPush_g c g t v' vs).symm)
    all_goals exact .inl rfl
  · generalize elem p = r at h1
    obtain ⟨s, v', p'⟩ := r
    cases s
    · exact absurd rfl (Spec.Refused.ne_ok h1)
    all_goals exact .inr h1

theorem pbPacked_tight {fetch fetch' : List Val → Nat → ResL} {endPos : Nat} (h : ∀ vs p, SameOrRefusedL (fetch vs p) (fetch' vs p)) :
    ∀ f vs p, SameOrRefusedL (pbPacked fetch endPos f vs p) (pbPacked fetch' endPos f vs p) := by
  intro f
  induction f with
  | zero => intro vs p; exact .inl rfl
  | succ f ih =>
    intro vs p
    unfold pbPacked
    split
    · rcases h vs p with h1 | h1
      · rw [h1]
        generalize fetch' vs p = r
        obtain ⟨s, v', p'⟩ := r
        cases s
        · exact ih _ _
        all_goals exact .inl rfl
      · generalize fetch vs p = r at h1
        obtain ⟨s, v', p'⟩ := r
        cases s
        · exact absurd rfl (Spec.Refused.ne_ok h1)
        all_goals exact .inr h1
    · exact .inl rfl

theorem decHdr_g (c : Cfg) (g : Growth) (sz : SizeTy) (data : List UInt8) (p : Nat) :
    decHdr { c with g := g } sz data p = decHdr c sz data p := by
  cases sz <;> rfl

theorem decRep_g (c : Cfg) (g : Growth) (t : Ty) (n : Nat) (olds : List Val) (data : List UInt8) (p : Nat) :
    decRep { c with g := g } t n olds data p = decRep c t n olds data p := rfl

theorem dflt_g (c : Cfg) (g : Growth) : ∀ (d : Nat) (t : Ty), dflt { c with g := g } d t = dflt c d t := by
  intro d
  induction d with
  | zero => intro t; rfl
  | succ d ih =>
    intro t
    have hf : dflt { c with g := g } d = dflt c d := funext ih
    cases t with
    | variant idTy ids dcs alts => cases alts <;> simp only [dflt, hf]
    | _ => simp only [dflt, hf]

variable {g g' : Growth}

theorem pbDecPacked_tight (hg : Looser g g') {c : Cfg} (hc : c.g = g) {rec rec' : Ty → Val → Nat → Res}
    (h : ∀ t v p, SameOrRefused (rec t v p) (rec' t v p)) (t elemTy : Ty) (fix : Bool) (wt : Nat) (old : Val) (data : List UInt8) (p : Nat) :
    SameOrRefused (pbDecPacked c rec t elemTy fix wt old data p) (pbDecPacked { c with g := g' } rec' t elemTy fix wt old data p) := by
  have hf := fun vs p => pbFetch_tight (c := c) (g := g') (t := t) (h elemTy .unit) vs p
  unfold pbDecPacked
  simp only
  split
  · exact (hf _ _).toRes
  · rw [show decHdr { c with g := g' } .varint data p = decHdr c .varint data p from decHdr_g c g' _ _ _]
    generalize decHdr c .varint data p = r
    obtain ⟨s, n, p1⟩ := r
    cases s <;> first | exact .inl rfl | skip
    dsimp only
    split
    · refine tight_ite (fun h2 => ?_) (.inl rfl) (tight_ite (fun h2 => ?_) (.inr rfl) (h _ _ _))
      · rcases hg.limit with h3 | h3
        · exact absurd h3 h2.1
        · rw [hc]; exact ⟨h3.1, Nat.lt_of_le_of_lt h3.2 h2.2⟩
      · rw [hc]; exact Nat.lt_of_le_of_lt hg.mem h2
    · refine tight_ite (fun h2 => ⟨h2.1, ?_⟩) (.inr rfl) (pbPacked_tight hf _ _ _).toRes
      rw [hc]; exact Nat.lt_of_le_of_lt hg.mem h2.2

theorem pbDecField_tight (hg : Looser g g') {c : Cfg} (hc : c.g = g) {rec rec' : Ty → Val → Nat → Res}
    (h : ∀ t v p, SameOrRefused (rec t v p) (rec' t v p)) (fresh : Ty → Val) (t : Ty) (wt : Nat) (old : Val) (data : List UInt8) (p : Nat) :
    SameOrRefused (pbDecField c rec fresh t wt old data p) (pbDecField { c with g := g' } rec' fresh t wt old data p) := by
  unfold pbDecField
  split
  · exact .inl rfl
  · exact (pbFetch_tight (h _ _) _ _).toRes
  · exact pbDecPacked_tight hg hc h _ _ _ _ _ _ _
  · exact pbDecPacked_tight hg hc h _ _ _ _ _ _ _
  · exact pbDecPacked_tight hg hc h _ _ _ _ _ _ _
  · exact (pbFetch_tight (h _ _) _ _).toRes
  · exact h _ _ _
  · exact .inl rfl

theorem pbDispatch_tight {field field' : Ty → Nat → Val → Nat → Res} {maps : List (Nat × Nat)} {num wt : Nat}
    (h : ∀ t wt v p, SameOrRefused (field t wt v p) (field' t wt v p)) : ∀ (fs : List Ty) (nums : List (Option Nat)) (i : Nat) (os : List Val) (p : Nat),
    SameOrRefusedL (pbDispatch field maps num wt i nums fs os p) (pbDispatch field' maps num wt i nums fs os p) := by
  intro fs
  induction fs with
  | nil => intro nums i os p; cases nums <;> exact .inl rfl
  | cons t ts ih =>
    intro nums i os p
    cases nums with
    | nil => exact .inl rfl
    | cons n ns =>
      unfold pbDispatch
      split
      · rcases h t wt (os.headD .unit) p with h1 | h1
        · exact .inl (by rw [h1])
        · exact .inr h1
      · rcases ih ns (i + 1) os.tail p with h1 | h1
        · exact .inl (by rw [h1])
        · exact .inr h1

theorem pbLoop_tight {field field' : Ty → Nat → Val → Nat → Res} {maps : List (Nat × Nat)} {nums : List (Option Nat)} {fs : List Ty}
    {data : List UInt8} (h : ∀ t wt v p, SameOrRefused (field t wt v p) (field' t wt v p)) : ∀ f vs p,
    SameOrRefusedL (pbLoop field maps nums fs data f vs p) (pbLoop field' maps nums fs data f vs p) := by
  intro f
  induction f with
  | zero => intro vs p; exact .inl rfl
  | succ f ih =>
    intro vs p
    unfold pbLoop
    split
    · generalize getVarint 4 false (.num 0) data p = r
      obtain ⟨s, v, p1⟩ := r
      cases s <;> first | exact .inl rfl | skip
      cases v <;> first | exact .inl rfl | skip
      next tag =>
      dsimp only
      rcases pbDispatch_tight (maps := maps) (num := tag >>> 3) (wt := tag &&& 7) h fs nums 0 vs p1 with h1 | h1
      · rw [h1]
        generalize pbDispatch field' maps (tag >>> 3) (tag &&& 7) 0 nums fs vs p1 = q
        obtain ⟨s, vs', p2⟩ := q
        cases s
        · exact ih _ _
        all_goals exact .inl rfl
      · generalize pbDispatch field maps (tag >>> 3) (tag &&& 7) 0 nums fs vs p1 = q at h1
        obtain ⟨s, vs', p2⟩ := q
        cases s
        · exact absurd rfl (Spec.Refused.ne_ok h1)
        all_goals exact .inr h1
    · exact .inl rfl

theorem msgRun_tight (hg : Looser g g') {c : Cfg} (hc : c.g = g) {rec rec' : Ty → Val → List UInt8 → Nat → Res}
    (h : ∀ t v sub p, SameOrRefused (rec t v sub p) (rec' t v sub p)) (fresh : Ty → Val) (maps : List (Nat × Nat)) (nums : List (Option Nat))
    (fs : List Ty) (old : Val) (data : List UInt8) (size p : Nat) :
    SameOrRefused (msgRun c rec fresh maps nums fs old data size p) (msgRun { c with g := g' } rec' fresh maps nums fs old data size p) := by
  unfold msgRun
  split
  · exact .inl rfl
  · dsimp only
    rcases pbLoop_tight (maps := maps) (nums := nums) (fs := fs) (data := msgSub data p size)
      (fun t wt v q => pbDecField_tight hg hc (rec := fun t v q => rec t v (msgSub data p size) q)
        (rec' := fun t v q => rec' t v (msgSub data p size) q) (fun t v q => h t v _ q) fresh t wt v (msgSub data p size) q)
      ((msgSub data p size).length + 1) (pbClear fs old.elems) 0 with h1 | h1
    · exact .inl (by rw [h1])
    · exact .inr h1

theorem seqBody_tight {c : Cfg} {k : SeqKind} {t : Ty} {rec rec' : Val → Nat → Res} (h : ∀ v p, SameOrRefused (rec v p) (rec' v p))
    (olds : List Val) (data : List UInt8) (p : Nat) :
    SameOrRefused (seqBody c k t rec olds data p) (seqBody { c with g := g' } k t rec' olds data p) := by
  unfold seqBody
  have ha : asBytes { c with g := g' } t = asBytes c t := rfl
  rw [ha]
  split
  · exact .inl rfl
  · exact (decAll_tight h _ _).toRes

theorem seqFill_tight (hg : Looser g g') {c : Cfg} (hc : c.g = g) {k : SeqKind} {t : Ty} {rec rec' : Val → Nat → Res}
    (h : ∀ v p, SameOrRefused (rec v p) (rec' v p)) (dv old : Val) (data : List UInt8) (n p : Nat) :
    SameOrRefused (seqFill c k t rec dv old data n p) (seqFill { c with g := g' } k t rec' dv old data n p) := by
  have hres : ∀ k, SameOrRefused
      (if c.g.limit ≠ sizeMax ∧ c.g.limit / c.sizeof t < n then ⟨.err .messageSize, old, p⟩
        else if c.g.maxMem < n * c.sizeof t then ⟨.badAlloc, old, p⟩
        else seqBody c k t rec (resizeVals old.elems n dv) data p)
      (if g'.limit ≠ sizeMax ∧ g'.limit / c.sizeof t < n then ⟨.err .messageSize, old, p⟩
        else if g'.maxMem < n * c.sizeof t then ⟨.badAlloc, old, p⟩
        else seqBody { c with g := g' } k t rec' (resizeVals old.elems n dv) data p) := by
    intro k
    refine tight_ite (fun h2 => ?_) (.inl rfl) (tight_ite (fun h2 => ?_) (.inr rfl) (seqBody_tight h _ _ _))
    · rcases hg.limit with h3 | h3
      · exact absurd h3 h2.1
      · rw [hc]; exact ⟨h3.1, Nat.lt_of_le_of_lt (Nat.div_le_div_right h3.2) h2.2⟩
    · rw [hc]; exact Nat.lt_of_le_of_lt hg.mem h2
  cases k with
  | view => exact .inl rfl
  | span =>
    unfold seqFill
    dsimp only
    split
    · exact .inl rfl
    · exact seqBody_tight h _ _ _
  | vector => exact hres .vector
  | list => exact hres .list

theorem seqUnsized_tight {c : Cfg} {k : SeqKind} {t : Ty} {rec rec' : Val → Nat → Res} (h : ∀ v p, SameOrRefused (rec v p) (rec' v p))
    (old : Val) (data : List UInt8) (p : Nat) :
    SameOrRefused (seqUnsized c k t rec old data p) (seqUnsized { c with g := g' } k t rec' old data p) := by
  cases k with
  | view => exact .inl rfl
  | _ => exact seqBody_tight h _ _ _

theorem decode_tight (hg : Looser g g') : ∀ (d : Nat) (c : Cfg) (t : Ty) (old : Val) (data : List UInt8) (p : Nat), c.g = g →
    SameOrRefused (decode d c t old data p) (decode d { c with g := g' } t old data p) := by
  intro d
  induction d with
  | zero => intro c t old data p _; exact .inl rfl
  | succ d ih =>
    intro c t old data p hc
    have hrec : ∀ t v q, SameOrRefused (decode d c t v data q) (decode d { c with g := g' } t v data q) := fun t v q => ih c t v data q hc
    have hd : dflt { c with g := g' } d = dflt c d := funext (dflt_g c g' d)
    cases t with
    | scalar k n => exact .inl rfl
    | bool => exact .inl rfl
    | varint n zz => exact .inl rfl
    | empty => exact .inl rfl
    | bitset n => exact .inl rfl
    | struct ok fs =>
      simp only [decode]
      have ha : asBytes { c with g := g' } (.struct ok fs) = asBytes c (.struct ok fs) := rfl
      rw [ha]
      split
      · exact .inl rfl
      · exact (decFields_tight hrec _ _ _).toRes
    | array n t' =>
      simp only [decode]
      have ha : asBytes { c with g := g' } t' = asBytes c t' := rfl
      rw [ha]
      split
      · exact .inl rfl
      · exact (decAll_tight (hrec t') _ _).toRes
    | seq k sz t' =>
      simp only [decode, hd]
      have he : effSz { c with g := g' } sz = effSz c sz := rfl
      rw [he]
      cases effSz c sz with
      | none => exact seqUnsized_tight (hrec t') _ _ _
      | _ =>
        dsimp only
        rw [decHdr_g c g']
        generalize decHdr c _ data p = r
        obtain ⟨s, n, p1⟩ := r
        cases s <;> first | exact .inl rfl | exact seqFill_tight hg hc (hrec t') _ _ _ _ _
    | assoc mu hs sz key mapped =>
      simp only [decode, hd]
      have he : effSz { c with g := g' } sz = effSz c sz := rfl
      rw [he, decHdr_g c g']
      generalize decHdr c _ data p = r
      obtain ⟨s, n, p1⟩ := r
      cases s <;> first | exact .inl rfl | skip
      refine (decAssoc_tight (fun q => ?_) _ _ _).toRes
      cases mapped with
      | none => exact hrec _ _ _
      | some m => exact (decFields_tight hrec _ _ _).toRes
    | optional dc t' =>
      simp only [decode, hd]
      generalize getBytes data p 1 = r
      obtain ⟨s, bs, p1⟩ := r
      cases s <;> first | exact .inl rfl | skip
      dsimp only
      split
      · exact .inl rfl
      · cases dc
        · simp only [Bool.false_eq_true, if_false]
          rcases hrec t' (dflt c d t') p1 with h1 | h1
          · rw [h1]; exact .inl rfl
          · generalize decode d c t' (dflt c d t') data p1 = r at h1
            obtain ⟨s, v, p2⟩ := r
            cases s
            · exact absurd rfl (Spec.Refused.ne_ok h1)
            all_goals exact .inr h1
        · simp only [if_true]
          have key : ∀ w, SameOrRefused
              ⟨(decode d c t' w data p1).s, .some (decode d c t' w data p1).v, (decode d c t' w data p1).p⟩
              ⟨(decode d { c with g := g' } t' w data p1).s, .some (decode d { c with g := g' } t' w data p1).v,
                (decode d { c with g := g' } t' w data p1).p⟩ := by
            intro w
            rcases hrec t' w p1 with h1 | h1
            · exact .inl (by rw [h1])
            · exact .inr h1
          exact key _
    | optPtr t' =>
      simp only [decode, hd]
      generalize getBytes data p 1 = r
      obtain ⟨s, bs, p1⟩ := r
      cases s <;> first | exact .inl rfl | skip
      dsimp only
      split
      · exact .inl rfl
      · rcases hrec t' (dflt c d t') p1 with h1 | h1
        · rw [h1]; exact .inl rfl
        · generalize decode d c t' (dflt c d t') data p1 = r at h1
          obtain ⟨s, v, p2⟩ := r
          cases s
          · exact absurd rfl (Spec.Refused.ne_ok h1)
          all_goals exact .inr h1
    | uptr t' =>
      simp only [decode, hd]
      rcases hrec t' (dflt c d t') p with h1 | h1
      · rw [h1]; exact .inl rfl
      · generalize decode d c t' (dflt c d t') data p = r at h1
        obtain ⟨s, v, p2⟩ := r
        cases s
        · exact absurd rfl (Spec.Refused.ne_ok h1)
        all_goals exact .inr h1
    | variant idTy ids dcs alts =>
      simp only [decode, hd]
      rcases hrec idTy (dflt c d idTy) p with h1 | h1
      · rw [h1]
        generalize decode d { c with g := g' } idTy (dflt c d idTy) data p = r
        obtain ⟨s, id, p1⟩ := r
        cases s <;> first | exact .inl rfl | skip
        dsimp only
        split
        · exact .inl rfl
        · split
          · exact decAlt_tight (hrec _) _ _ _ _ _
          · exact .inl rfl
      · generalize decode d c idTy (dflt c d idTy) data p = r at h1
        obtain ⟨s, v, p2⟩ := r
        cases s
        · exact absurd rfl (Spec.Refused.ne_ok h1)
        all_goals exact .inr h1
    | msg sz ok maps nums fs =>
      have hrun : ∀ size q, SameOrRefused (msgRun (pbCfg c) (decode d (pbCfg c)) (dflt (pbCfg c) d) maps nums fs old data size q)
          (msgRun (pbCfg { c with g := g' }) (decode d (pbCfg { c with g := g' })) (dflt (pbCfg { c with g := g' }) d) maps nums fs old data size q) := by
        intro size q
        have e : pbCfg { c with g := g' } = { pbCfg c with g := g' } := rfl
        rw [e, show dflt { pbCfg c with g := g' } d = dflt (pbCfg c) d from funext (dflt_g _ _ d)]
        exact msgRun_tight hg (c := pbCfg c) hc (fun t v sub q => ih (pbCfg c) t v sub q hc) _ _ _ _ _ _ _ _
      simp only [decode]
      have he : effSz { c with g := g' } sz = effSz c sz := rfl
      rw [he]
      cases effSz c sz with
      | none => exact hrun _ _
      | _ =>
        dsimp only
        rw [decHdr_g c g']
        generalize decHdr c _ data p = r
        obtain ⟨s, n, p1⟩ := r
        cases s <;> first | exact .inl rfl | exact hrun _ _
    | ref i => exact ih c (c.env i) old data p hc

theorem decMany_tight (hg : Looser g g') (d : Nat) (c : Cfg) (hc : c.g = g) (data : List UInt8) : ∀ (items : List (Ty × Val)) (p : Nat),
    SameOrRefusedL (decMany d c data items p) (decMany d { c with g := g' } data items p) := by
  intro items
  induction items with
  | nil => intro p; exact .inl rfl
  | cons it items ih =>
    obtain ⟨t, o⟩ := it
    intro p
    unfold decMany
    rcases decode_tight hg d c t o data p hc with h1 | h1
    · rw [h1]
      generalize decode d { c with g := g' } t o data p = r
      obtain ⟨s, v', p'⟩ := r
      cases s
      · dsimp only
        rcases ih p' with h2 | h2
        · exact .inl (by rw [h2])
        · exact .inr h2
      all_goals exact .inl rfl
    · generalize decode d c t o data p = r at h1
      obtain ⟨s, v', p'⟩ := r
      cases s
      · exact absurd rfl (Spec.Refused.ne_ok h1)
      all_goals exact .inr h1

end Zpp
