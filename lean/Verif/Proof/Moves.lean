import Verif.Model.Moves
import Verif.Spec.Moves
import Verif.Proof.OutSafe
/-!
# Bytes moved while writing: lemmas
-/

namespace Zpp
open Zpp.Spec

/-- At most `N` moves for each byte written. -/
def Moved (N : Nat) (m : OutM) (w : OutSt → Nat) : Prop :=
  ∀ st, Valid st → w st ≤ N * ((m st).2.pos - st.pos)

theorem Moved.zero (N : Nat) (m : OutM) : Moved N m (fun _ => 0) := fun _ _ => Nat.zero_le _

theorem Moved.le {N N' : Nat} {m : OutM} {w : OutSt → Nat} (h : Moved N m w) (hN : N ≤ N') : Moved N' m w :=
  fun st hv => Nat.le_trans (h st hv) (Nat.mul_le_mul_right _ hN)

theorem Moved.both {g : Growth} (hg : GrowthOk g) {N : Nat} {a b : OutM} {wa wb : OutSt → Nat} (sa : SafeOut g a) (sb : SafeOut g b)
    (ha : Moved N a wa) (hb : Moved N b wb) : Moved N (a.andThen b) (fun st => wa st + movesAfter a wb st) := by
  intro st hv
  have h1 := ha st hv
  have hs := sa st hv
  rcases hr : a st with ⟨s, st'⟩
  simp only [movesAfter, OutM.andThen, hr]
  rw [hr] at h1 hs
  cases s
  case ok =>
    have hv' := hs.valid hg hv
    have h2 := hb st' hv'
    have m1 := hs.mono
    have m2 := (sb st' hv').mono
    simp only at h1 h2 m1 m2 ⊢
    have e : (b st').2.pos - st.pos = (st'.pos - st.pos) + ((b st').2.pos - st'.pos) := by omega
    rw [e, Nat.mul_add]
    exact Nat.add_le_add h1 h2
  all_goals exact h1

theorem Moved.after {g : Growth} (hg : GrowthOk g) {N : Nat} {a b : OutM} {w : OutSt → Nat} (sa : SafeOut g a) (sb : SafeOut g b)
    (hb : Moved N b w) : Moved N (a.andThen b) (movesAfter a w) := by
  have := Moved.both hg sa sb (Moved.zero N a) hb
  intro st hv
  have h := this st hv
  simp only [Nat.zero_add] at h
  exact h

theorem maxOf_mem {n : Nat} {ns : List Nat} (h : n ∈ ns) : n ≤ maxOf ns := by
  induction ns with
  | nil => cases h
  | cons m ns ih =>
    simp only [maxOf]
    rcases List.mem_cons.1 h with rfl | h
    · exact Nat.le_max_left _ _
    · exact Nat.le_trans (ih h) (Nat.le_max_right _ _)

theorem maxOf_le {ns : List Nat} {b : Nat} (h : ∀ n ∈ ns, n ≤ b) : maxOf ns ≤ b := by
  induction ns with
  | nil => exact Nat.zero_le _
  | cons m ns ih =>
    simp only [maxOf]
    exact Nat.max_le.2 ⟨h m List.mem_cons_self, ih fun n hn => h n (List.mem_cons_of_mem _ hn)⟩

theorem movesAll_moved {g : Growth} (hg : GrowthOk g) {rec : Val → OutM} {w : Val → OutSt → Nat} {N : Nat}
    (hs : ∀ v, SafeOut g (rec v)) : ∀ (vs : List Val), (∀ v ∈ vs, Moved N (rec v) (w v)) →
    Moved N (encAll rec vs) (movesAll rec w vs)
  | [], _ => Moved.zero _ _
  | v :: vs, h => by
    have := Moved.both hg (hs v) (encAll_safe hg hs vs) (h v List.mem_cons_self)
      (movesAll_moved hg hs vs fun x hx => h x (List.mem_cons_of_mem _ hx))
    exact this

theorem movesFields_moved {g : Growth} (hg : GrowthOk g) {rec : Ty → Val → OutM} {w : Ty → Val → OutSt → Nat} {N : Nat}
    (hs : ∀ t v, SafeOut g (rec t v)) : ∀ (ts : List Ty) (vs : List Val), (∀ x ∈ ts.zip vs, Moved N (rec x.1 x.2) (w x.1 x.2)) →
    Moved N (encFields rec ts vs) (movesFields rec w ts vs)
  | [], [], _ => Moved.zero _ _
  | [], _ :: _, _ => Moved.zero _ _
  | _ :: _, [], _ => Moved.zero _ _
  | t :: ts, v :: vs, h => by
    have := Moved.both hg (hs t v) (encFields_safe hg hs ts vs) (h (t, v) (by simp))
      (movesFields_moved hg hs ts vs fun x hx => h x (by simp [hx]))
    exact this

theorem patchSize_pos (c : Cfg) (sz : SizeTy) (sizePos n : Nat) (st : OutSt) : (patchSize c sz sizePos n st).2.pos = st.pos := by
  unfold patchSize
  cases sz with
  | fixed k => simp only; split <;> rfl
  | varint =>
    simp only
    split
    · rfl
    · split <;> rfl
  | none => rfl

theorem moveAhead_mono {g : Growth} (hg : GrowthOk g) (sizePos : Nat) {st : OutSt} (hv : Valid st) :
    st.pos ≤ (moveAhead g sizePos st).2.pos := by
  unfold moveAhead
  simp only
  split
  · exact Nat.le_refl _
  · obtain ⟨_, c2, _⟩ := claim_safe hg (varintSize 8 (subSz (subSz st.pos sizePos) 1) - 1) st hv
    split
    · rename_i st1 he
      rw [he] at c2
      simp only at c2
      split
      · simp only; omega
      · simp only; omega
    · rename_i r hr
      exact Nat.le_of_eq c2.symm

theorem hdr_body_pos {c : Cfg} (hg : GrowthOk c.g) {body : OutM} (hb : SafeOut c.g body) {st st1 : OutSt} (hv : Valid st)
    (he : (encHdr c .varint 0).andThen body st = (.ok, st1)) : st.pos + 1 ≤ st1.pos := by
  have h2 := encHdr_safe hg .varint 0 st hv
  unfold OutM.andThen at he
  split at he
  · rename_i st2 he2
    rw [he2] at h2
    have := encHdr_pos hg he2 hv
    have h3 := (hb st2 (h2.valid hg hv)).mono
    rw [he] at h3
    simp only [hdrLen] at this h3
    omega
  · rename_i r hr; exact absurd he (hr _)

theorem movesByProtocol_moved {c : Cfg} (hg : GrowthOk c.g) {N : Nat} {sz : SizeTy} {body : OutM} {w : OutSt → Nat}
    (hb : SafeOut c.g body) (hm : Moved N body w) :
    Moved ((if sz = .varint then 1 else 0) + N) (encByProtocol c sz body) (movesByProtocol c sz body w) := by
  intro st hv
  have hsafe := encByProtocol_safe hg sz hb st hv
  cases sz with
  | none =>
    simp only [movesByProtocol, encByProtocol]
    rw [if_neg (by simp), Nat.zero_add]
    exact hm st hv
  | fixed k =>
    simp only [movesByProtocol, encByProtocol]
    rw [if_neg (by simp), Nat.zero_add]
    have h1 := Moved.after hg (encHdr_safe hg (.fixed k) 0) hb hm st hv
    refine Nat.le_trans h1 (Nat.mul_le_mul_left _ (Nat.sub_le_sub_right ?_ _))
    rcases hr : (encHdr c (.fixed k) 0).andThen body st with ⟨s, st1⟩
    conv => rhs; rw [OutM.andThen, hr]
    cases s
    case ok => simp only [patchSize_pos]; exact Nat.le_refl _
    all_goals exact Nat.le_refl _
  | varint =>
    simp only [movesByProtocol, encByProtocol]
    rw [if_pos trivial]
    have h1 := Moved.after hg (encHdr_safe hg .varint 0) hb hm st hv
    have hs := (encHdr_safe hg .varint 0).andThen hg hb st hv
    rcases hr : (encHdr c .varint 0).andThen body st with ⟨s, st1⟩
    rw [hr] at h1 hs
    have m1 := hs.mono
    conv => rhs; rw [OutM.andThen, hr]
    cases s
    case ok =>
      have hv1 := hs.valid hg hv
      have m2 := moveAhead_mono hg st.pos hv1
      have hp := hdr_body_pos hg hb hv hr
      simp only at h1 m1 m2 ⊢
      have hmv : movedAhead c.g st.pos st1 ≤ st1.pos - st.pos := by
        unfold movedAhead
        simp only
        split
        · exact Nat.zero_le _
        · split
          · rw [subSz_of_le m1]
            rw [subSz_of_le (by omega)]; exact Nat.sub_le _ _
          · exact Nat.zero_le _
      have hfin : st1.pos ≤ (((moveAhead c.g st.pos).andThen (patchSize c .varint st.pos (subSz (subSz st1.pos st.pos) 1))) st1).2.pos := by
        rcases ha : moveAhead c.g st.pos st1 with ⟨s2, st2⟩
        rw [ha] at m2
        simp only [OutM.andThen, ha]
        cases s2
        case ok => simp only [patchSize_pos]; exact m2
        all_goals exact m2
      simp only [movesAfter, hr] at h1 ⊢
      have : st1.pos - st.pos ≤ (((moveAhead c.g st.pos).andThen (patchSize c .varint st.pos (subSz (subSz st1.pos st.pos) 1))) st1).2.pos - st.pos := by omega
      rw [Nat.add_mul, Nat.one_mul, Nat.add_comm]
      exact Nat.add_le_add (Nat.le_trans hmv this) (Nat.le_trans h1 (Nat.mul_le_mul_left _ this))
    all_goals
      simp only [movesAfter, hr] at h1 ⊢
      rw [Nat.add_mul]
      exact Nat.le_trans h1 (Nat.le_add_left _ _)

theorem maxOf_map_le {α : Type} {f g : α → Nat} {l : List α} (h : ∀ x ∈ l, f x ≤ g x) : maxOf (l.map f) ≤ maxOf (l.map g) := by
  apply maxOf_le
  intro n hn
  obtain ⟨x, hx, rfl⟩ := List.mem_map.1 hn
  exact Nat.le_trans (h x hx) (maxOf_mem (List.mem_map.2 ⟨x, hx, rfl⟩))

theorem memberLevels_mono {lv lv' : Ty → Val → Nat} (h : ∀ t v, lv t v ≤ lv' t v) :
    ∀ t v, memberLevels lv t v ≤ memberLevels lv' t v
  | .seq _ _ t, v => by
    simp only [memberLevels]; exact maxOf_map_le fun x _ => h t x
  | .assoc _ _ _ key none, v => by
    simp only [memberLevels]; exact maxOf_map_le fun x _ => h key x
  | .assoc _ _ _ key (some m), v => by
    simp only [memberLevels]
    refine maxOf_map_le fun e _ => ?_
    have h1 := memberLevels_mono h key (e.elems.headD .unit)
    have h2 := memberLevels_mono h m (e.elems.getD 1 .unit)
    omega
  | .scalar _ _, v | .bool, v | .varint _ _, v | .empty, v | .struct _ _, v | .array _ _, v | .optional _ _, v | .optPtr _, v
  | .uptr _, v | .variant _ _ _ _, v | .bitset _, v | .msg _ _ _ _ _, v | .ref _, v => by
    simp only [memberLevels]; exact h _ v

theorem levels_mono : ∀ (n : Nat) (env : Nat → Ty) (dsz : SizeTy) (t : Ty) (v : Val),
    levels n env dsz t v ≤ levels (n + 1) env dsz t v
  | 0, _, _, _, _ => by simp [levels]
  | n + 1, env, dsz, t, v => by
    have ih := levels_mono n env
    cases t with
    | struct ok fs => rw [levels, levels]; exact maxOf_map_le fun x _ => ih dsz _ _
    | array k t' => rw [levels, levels]; exact maxOf_map_le fun x _ => ih dsz _ _
    | seq k sz t' => rw [levels, levels]; exact maxOf_map_le fun x _ => ih dsz _ _
    | assoc a b sz key mapped =>
      cases mapped with
      | none => rw [levels, levels]; exact maxOf_map_le fun x _ => ih dsz _ _
      | some m => rw [levels, levels]; exact maxOf_map_le fun x _ => maxOf_map_le fun y _ => ih dsz _ _
    | optional dc t' =>
      cases v with
      | some w => simp only [levels]; exact ih dsz _ _
      | _ => simp [levels]
    | optPtr t' =>
      cases v with
      | some w => simp only [levels]; exact ih dsz _ _
      | _ => simp [levels]
    | uptr t' =>
      cases v with
      | some w => simp only [levels]; exact ih dsz _ _
      | _ => simp [levels]
    | variant idTy ids dcs alts =>
      cases v with
      | alt i w =>
        rw [levels, levels]
        have h1 : (ids[i]?).elim 0 (levels n env dsz idTy) ≤ (ids[i]?).elim 0 (levels (n + 1) env dsz idTy) := by
          cases ids[i]? <;> simp [ih]
        have h2 : ((alts[i]?).elim 0 fun t' => levels n env dsz t' w) ≤ (alts[i]?).elim 0 fun t' => levels (n + 1) env dsz t' w := by
          cases alts[i]? <;> simp [ih]
        exact Nat.max_le.2 ⟨Nat.le_trans h1 (Nat.le_max_left _ _), Nat.le_trans h2 (Nat.le_max_right _ _)⟩
      | _ => simp [levels]
    | msg sz ok maps nums fs =>
      rw [levels, levels]
      exact Nat.add_le_add_left (maxOf_map_le fun x _ => memberLevels_mono (ih .varint) x.1 x.2) _
    | ref i => rw [levels, levels]; exact ih dsz _ _
    | _ => simp [levels]

theorem Moved.all {g : Growth} (hg : GrowthOk g) {rec : Val → OutM} {w : Val → OutSt → Nat} {lv : Val → Nat}
    (hs : ∀ v, SafeOut g (rec v)) (vs : List Val) (h : ∀ v, Moved (lv v) (rec v) (w v)) :
    Moved (maxOf (vs.map lv)) (encAll rec vs) (movesAll rec w vs) :=
  movesAll_moved hg hs vs fun v hv => (h v).le (maxOf_mem (List.mem_map.2 ⟨v, hv, rfl⟩))

theorem Moved.fields {g : Growth} (hg : GrowthOk g) {rec : Ty → Val → OutM} {w : Ty → Val → OutSt → Nat} {lv : Ty → Val → Nat}
    (hs : ∀ t v, SafeOut g (rec t v)) (ts : List Ty) (vs : List Val) (h : ∀ t v, Moved (lv t v) (rec t v) (w t v)) :
    Moved (maxOf ((ts.zip vs).map fun x => lv x.1 x.2)) (encFields rec ts vs) (movesFields rec w ts vs) :=
  movesFields_moved hg hs ts vs fun x hx => (h x.1 x.2).le (maxOf_mem (List.mem_map.2 ⟨x, hx, rfl⟩))

theorem elemClass_repeated {t e : Ty} (h : pbElemClass t = .repeated e) : e = t := by
  cases t with
  | scalar k n => cases k <;> simp only [pbElemClass] at h <;> cases h <;> rfl
  | bool => simp only [pbElemClass] at h; cases h
  | varint n zz => simp only [pbElemClass] at h; cases h
  | _ => simp only [pbElemClass] at h; cases h; rfl

theorem elemClass_not {t : Ty} : pbElemClass t ≠ .single ∧ ∀ key m, pbElemClass t ≠ .map key m := by
  cases t with
  | scalar k n => cases k <;> simp [pbElemClass]
  | _ => simp [pbElemClass]

theorem outClass_single {lv : Ty → Val → Nat} {t : Ty} {v : Val} (h : pbOutClass t = .single) : memberLevels lv t v = lv t v := by
  cases t with
  | seq k sz e => exact absurd h elemClass_not.1
  | assoc a b sz key m =>
    cases m with
    | some m => simp only [pbOutClass] at h; cases h
    | none => exact absurd h elemClass_not.1
  | _ => simp only [memberLevels]

theorem outClass_map {lv : Ty → Val → Nat} {t key m : Ty} {v : Val} (h : pbOutClass t = .map key m) :
    memberLevels lv t v = maxOf (v.elems.map fun e =>
      1 + max (memberLevels lv key (e.elems.headD .unit)) (memberLevels lv m (e.elems.getD 1 .unit))) := by
  cases t with
  | seq k sz e => exact absurd h (elemClass_not.2 _ _)
  | assoc a b sz key m =>
    cases m with
    | some m => simp only [pbOutClass] at h; cases h; simp only [memberLevels]
    | none => exact absurd h (elemClass_not.2 _ _)
  | scalar k n => cases k <;> simp [pbOutClass] at h
  | _ => simp [pbOutClass] at h

theorem outClass_repeated {lv : Ty → Val → Nat} {t e : Ty} {v : Val} (h : pbOutClass t = .repeated e) :
    memberLevels lv t v = maxOf (v.elems.map (lv e)) := by
  cases t with
  | seq k sz e => rw [elemClass_repeated h]; simp only [memberLevels]
  | assoc a b sz key m =>
    cases m with
    | some m => simp [pbOutClass] at h
    | none => rw [elemClass_repeated h]; simp only [memberLevels]
  | scalar k n => cases k <;> simp [pbOutClass] at h
  | _ => simp [pbOutClass] at h

/-- One member of a message. -/
theorem movesField_moved {c : Cfg} (hg : GrowthOk c.g) {rec : Ty → Val → OutM} {w : Ty → Val → OutSt → Nat} {lv : Ty → Val → Nat}
    (hs : ∀ t v, SafeOut c.g (rec t v)) (h : ∀ t v, Moved (lv t v) (rec t v) (w t v))
    (he : ∀ key m e, Moved (1 + max (memberLevels lv key (e.elems.headD .unit)) (memberLevels lv m (e.elems.getD 1 .unit)))
      (rec (pbEntry key m) e) (w (pbEntry key m) e))
    (maps : List (Nat × Nat)) (num : Option Nat) (i : Nat) (t : Ty) (v : Val) :
    Moved (memberLevels lv t v) (pbEncField c rec maps num i t v) (movesField c rec w maps num i t v) := by
  unfold movesField
  cases hcl : pbOutClass t with
  | single =>
    simp only [pbEncField, hcl]
    rw [outClass_single hcl]
    exact Moved.after hg (encTag_safe hg _ _ _ _) (hs _ _) (h _ _)
  | map key mapped =>
    simp only [pbEncField, hcl]
    rw [outClass_map hcl]
    cases v with
    | list vs =>
      exact Moved.all hg (fun x => (encTag_safe hg _ _ _ _).andThen hg (hs _ _)) vs
        fun x => Moved.after hg (encTag_safe hg _ _ _ _) (hs _ _) (he _ _ _)
    | _ => exact Moved.zero _ _
  | «repeated» e =>
    simp only [pbEncField, hcl]
    rw [outClass_repeated hcl]
    cases v with
    | list vs =>
      exact Moved.all hg (fun x => (encTag_safe hg _ _ _ _).andThen hg (hs _ _)) vs
        fun x => Moved.after hg (encTag_safe hg _ _ _ _) (hs _ _) (h _ _)
    | _ => exact Moved.zero _ _
  | _ => exact Moved.zero _ _

/-- All members of a message. -/
theorem movesMembers_moved {c : Cfg} (hg : GrowthOk c.g) {rec : Ty → Val → OutM} {w : Ty → Val → OutSt → Nat} {lv : Ty → Val → Nat}
    (hs : ∀ t v, SafeOut c.g (rec t v)) (h : ∀ t v, Moved (lv t v) (rec t v) (w t v))
    (he : ∀ key m e, Moved (1 + max (memberLevels lv key (e.elems.headD .unit)) (memberLevels lv m (e.elems.getD 1 .unit)))
      (rec (pbEntry key m) e) (w (pbEntry key m) e)) (maps : List (Nat × Nat)) {N : Nat} :
    ∀ (i : Nat) (nums : List (Option Nat)) (ts : List Ty) (vs : List Val), (∀ x ∈ ts.zip vs, memberLevels lv x.1 x.2 ≤ N) →
    Moved N (pbEncFields c rec maps i nums ts vs) (movesMembers c rec w maps i nums ts vs)
  | i, num :: nums, t :: ts, v :: vs, hN => by
    have := Moved.both hg (pbEncField_safe hg hs maps num i t v) (pbEncFields_safe hg hs maps nums (i + 1) ts vs)
      ((movesField_moved hg hs h he maps num i t v).le (hN (t, v) (by simp)))
      (movesMembers_moved hg hs h he maps (i + 1) nums ts vs fun x hx => hN x (by simp [hx]))
    exact this
  | _, [], _, _, _ => by simp only [movesMembers]; exact Moved.zero _ _
  | _, _ :: _, [], _, _ => by simp only [movesMembers]; exact Moved.zero _ _
  | _, _ :: _, _ :: _, [], _ => by simp only [movesMembers]; exact Moved.zero _ _

theorem memberLevels_entry {n : Nat} {env : Nat → Ty} {dsz : SizeTy} (t : Ty) (v : Val) :
    memberLevels (levels n env dsz) (pbEntryTy t) v = memberLevels (levels n env dsz) t v := by
  cases t with
  | scalar k m =>
    cases k <;> simp only [pbEntryTy]
    simp only [memberLevels]
    cases n <;> simp only [levels]
  | _ => simp only [pbEntryTy]

theorem pbOutCfg_env (c : Cfg) : (pbOutCfg c).env = c.env := by
  unfold pbOutCfg; split <;> rfl

theorem encode_moved (d : Nat) : ∀ (c : Cfg), GrowthOk c.g → ∀ t v, Moved (levels d c.env c.dsz t v) (encode d c t v) (moves d c t v) := by
  induction d with
  | zero => intro c _ t v; exact Moved.zero _ _
  | succ d ih =>
    intro c hg t v
    have hs := encode_safe d c hg
    have h := ih c hg
    cases t with
    | struct ok fs =>
      cases v <;> first | exact Moved.zero _ _ | skip
      rename_i vs
      unfold moves encode
      simp only [levels]
      split
      · exact Moved.zero _ _
      · exact Moved.fields hg hs _ _ h
    | array n t' =>
      cases v <;> first | exact Moved.zero _ _ | skip
      rename_i vs
      unfold moves encode
      simp only [levels]
      split
      · exact Moved.zero _ _
      · split
        · exact Moved.zero _ _
        · exact Moved.all hg (hs _) _ (h _)
    | seq k sz t' =>
      cases v <;> first | exact Moved.zero _ _ | skip
      rename_i vs
      unfold moves encode
      simp only [levels]
      split
      · exact Moved.zero _ _
      · exact Moved.after hg (encHdr_safe hg _ _) (encAll_safe hg (hs _) _) (Moved.all hg (hs _) _ (h _))
    | assoc multi hashed sz key mapped =>
      cases v <;> first | exact Moved.zero _ _ | skip
      rename_i vs
      cases mapped with
      | none =>
        unfold moves encode
        simp only [levels]
        exact Moved.after hg (encHdr_safe hg _ _) (encAll_safe hg (hs _) _) (Moved.all hg (hs _) _ (h _))
      | some m =>
        unfold moves encode
        simp only [levels]
        have hs' : ∀ e : Val, SafeOut c.g (match e with
            | .list es => encFields (encode d c) [key, m] es
            | _ => OutM.fail .illFormed) := by
          intro e
          split
          · exact encFields_safe hg hs _ _
          · exact SafeOut.fail _ fun _ => trivial
        refine Moved.after hg (encHdr_safe hg _ _) (encAll_safe hg hs' _) (Moved.all hg hs' _ fun e => ?_)
        cases e with
        | list es => exact Moved.fields hg hs _ _ h
        | _ => exact Moved.zero _ _
    | optional dc t' =>
      cases v <;> first | exact Moved.zero _ _ | skip
      unfold moves encode
      simp only [levels]
      exact Moved.after hg (put_safe hg _) (hs _ _) (h _ _)
    | optPtr t' =>
      cases v <;> first | exact Moved.zero _ _ | skip
      unfold moves encode
      simp only [levels]
      exact Moved.after hg (put_safe hg _) (hs _ _) (h _ _)
    | uptr t' =>
      cases v <;> first | exact Moved.zero _ _ | skip
      unfold moves encode
      simp only [levels]
      exact h _ _
    | variant idTy ids dcs alts =>
      cases v <;> first | exact Moved.zero _ _ | skip
      rename_i i v
      unfold encode moves
      simp only [levels, encVariant]
      cases h1 : ids[i]? with
      | none => exact Moved.zero _ _
      | some id =>
        cases h2 : alts[i]? with
        | none => exact Moved.zero _ _
        | some t' =>
          exact Moved.both hg (hs _ _) (hs _ _) ((h _ _).le (Nat.le_max_left _ _)) ((h _ _).le (Nat.le_max_right _ _))
    | msg sz ok maps nums fs =>
      cases v <;> first | exact Moved.zero _ _ | skip
      rename_i vs
      have hg' : GrowthOk (pbOutCfg c).g := by rw [pbOutCfg_g]; exact hg
      have hd : (pbOutCfg c).dsz = .varint := by unfold pbOutCfg; split <;> simp_all [pbCfg]
      have hs' := encode_safe d (pbOutCfg c) hg'
      have h' : ∀ t v, Moved (levels d c.env .varint t v) (encode d (pbOutCfg c) t v) (moves d (pbOutCfg c) t v) := by
        have := ih (pbOutCfg c) hg'
        rw [pbOutCfg_env, hd] at this
        exact this
      unfold moves encode
      simp only [levels, effSz]
      have hb := pbEncFields_safe hg' hs' maps nums 0 fs vs
      rw [pbOutCfg_g] at hb
      refine movesByProtocol_moved hg hb ?_
      refine movesMembers_moved hg' hs' h' ?_ maps 0 nums fs vs fun x hx => maxOf_mem (List.mem_map.2 ⟨x, hx, rfl⟩)
      intro key m e
      refine (h' _ _).le ?_
      cases d with
      | zero => simp only [levels]; omega
      | succ d =>
        unfold pbEntry
        rw [levels]
        simp only [Option.getD_none, if_true]
        refine Nat.add_le_add_left (maxOf_le fun n hn => ?_) 1
        have hm : ∀ t v, memberLevels (levels d c.env .varint) (pbEntryTy t) v ≤ memberLevels (levels (d + 1) c.env .varint) t v :=
          fun t v => by
            rw [memberLevels_entry]
            exact memberLevels_mono (levels_mono d c.env .varint) t v
        obtain ⟨x, hx, rfl⟩ := List.mem_map.1 hn
        rcases he : e.elems with _ | ⟨a, _ | ⟨b, rest⟩⟩
        · rw [he] at hx; simp at hx
        · rw [he] at hx
          simp at hx
          subst hx
          exact Nat.le_trans (hm _ _) (Nat.le_max_left _ _)
        · rw [he] at hx
          simp at hx
          rcases hx with rfl | rfl
          · exact Nat.le_trans (hm _ _) (Nat.le_max_left _ _)
          · exact Nat.le_trans (hm _ _) (Nat.le_max_right _ _)
    | ref i => exact h _ _
    | _ => exact Moved.zero _ _

theorem encMany_moved (d : Nat) (c : Cfg) (hg : GrowthOk c.g) {N : Nat} : ∀ items : List (Ty × Val),
    (∀ x ∈ items, levels d c.env c.dsz x.1 x.2 ≤ N) → Moved N (encMany d c items) (movesMany d c items)
  | [], _ => Moved.zero _ _
  | (t, v) :: rest, h =>
    Moved.both hg (encode_safe d c hg t v) (encMany_safe d c hg rest) ((encode_moved d c hg t v).le (h (t, v) List.mem_cons_self))
      (encMany_moved d c hg rest fun x hx => h x (List.mem_cons_of_mem _ hx))

/-! ## Chains of nodes -/

theorem claim_room {g : Growth} {n : Nat} {st : OutSt} (h : st.pos + n ≤ st.data.length) (hn : n < 2 ^ 63) :
    claim g n st = (.ok, st) := by
  have e : ¬ subSz st.data.length st.pos < n := by rw [subSz_of_le (by omega)]; omega
  unfold claim enlargeFor
  rw [if_neg (by omega)]
  simp only [e, if_false]
  split <;> rfl

theorem memcpyAt_room {bs : List UInt8} {st : OutSt} (h : st.pos + bs.length ≤ st.data.length) :
    ∃ st', memcpyAt bs st = (.ok, st') ∧ st'.pos = st.pos + bs.length ∧ st'.data.length = st.data.length := by
  refine ⟨_, by rw [memcpyAt, if_pos h], rfl, ?_⟩
  simp; omega

theorem putVarint_room {g : Growth} {v : Nat} {st : OutSt} (h : st.pos + 10 ≤ st.data.length) (hv : v < 128) :
    ∃ st', putVarint g 8 v st = (.ok, st') ∧ st'.pos = st.pos + 1 ∧ st'.data.length = st.data.length := by
  have e : ¬ subSz st.data.length st.pos < varintMaxSize 8 := by rw [subSz_of_le (by omega)]; simp only [varintMaxSize]; omega
  have e2 : ¬ st.data.length - st.pos < varintMaxSize 8 := by simp only [varintMaxSize]; omega
  obtain ⟨st', h1, h2, h3⟩ := memcpyAt_room (bs := varintBytes v) (st := st) (by rw [varintBytes_small hv]; simp; omega)
  refine ⟨st', ?_, by rw [h2, varintBytes_small hv]; rfl, h3⟩
  unfold putVarint enlargeFor OutM.andThen
  simp only [e, e2, if_false, false_and]
  split
  · exact h1
  · rw [if_neg (by omega)]; exact h1

theorem protocol_room {c : Cfg} {body : OutM} {w : OutSt → Nat} {st : OutSt} {lo hi : Nat}
    (hr : st.pos + 11 ≤ st.data.length) (hl : st.data.length < 2 ^ 56)
    (hb : ∀ st1, st1.pos = st.pos + 1 → st1.data.length = st.data.length → ∃ st2, body st1 = (.ok, st2) ∧
      st1.pos ≤ st2.pos ∧ st2.pos + 10 ≤ st.data.length ∧ st2.data.length = st.data.length ∧ st1.pos + lo ≤ st2.pos ∧
      st2.pos ≤ st1.pos + hi) {m : Nat}
    (hw : ∀ st1, st1.pos = st.pos + 1 → st1.data.length = st.data.length → m ≤ w st1) :
    ∃ st', encByProtocol c .varint body st = (.ok, st') ∧ st'.data.length = st.data.length ∧ st.pos + 1 + lo ≤ st'.pos ∧
      st'.pos ≤ st.pos + 10 + hi ∧ (128 ≤ lo → m + lo ≤ movesByProtocol c .varint body w st) ∧
      m ≤ movesByProtocol c .varint body w st := by
  obtain ⟨st1, h1, p1, l1⟩ := putVarint_room (g := c.g) (v := 0 % 2 ^ 64) (st := st) (by omega) (by simp)
  have hh : encHdr c .varint 0 st = (.ok, st1) := h1
  obtain ⟨st2, h2, q1, q2, q3, q4, q5⟩ := hb st1 p1 l1
  have hw := hw st1 p1 l1
  have hlen : subSz (subSz st2.pos st.pos) 1 = st2.pos - st1.pos := by
    have a : subSz st2.pos st.pos = st2.pos - st.pos := subSz_of_le (by omega)
    rw [a, subSz_of_le (by omega)]; omega
  have hv : st2.pos - st1.pos < 2 ^ 56 := by omega
  generalize hn : st2.pos - st1.pos = len at hlen hv
  have hs := varintSize_eq_length 8 len (by omega) (by omega)
  have hle : (varintBytes len).length ≤ 8 := (varintBytes_length_le_iff len 8 (by omega)).2 (by omega)
  have hpos := varintBytes_length_pos len
  rw [← hs] at hle hpos
  have hclaim : claim c.g (varintSize 8 len - 1) st2 = (.ok, st2) := claim_room (by omega) (by omega)
  obtain ⟨st3, h3, p3, l3⟩ : ∃ st3, moveAhead c.g st.pos st2 = (.ok, st3) ∧ st3.pos = st2.pos + (varintSize 8 len - 1) ∧
      st3.data.length = st.data.length := by
    unfold moveAhead
    simp only [hlen]
    split
    · exact ⟨st2, rfl, by omega, q3⟩
    · rw [hclaim]
      simp only
      rw [if_pos (by omega)]
      refine ⟨_, rfl, rfl, ?_⟩
      simp; omega
  obtain ⟨st4, h4, p4, l4⟩ : ∃ st4, patchSize c .varint st.pos len st3 = (.ok, st4) ∧ st4.pos = st3.pos ∧
      st4.data.length = st.data.length := by
    obtain ⟨st', h1, h2, h3⟩ := memcpyAt_room (bs := varintBytes len) (st := { st3 with pos := st.pos })
      (by simp only [← hs]; omega)
    refine ⟨{ st' with pos := st3.pos }, ?_, rfl, ?_⟩
    · unfold patchSize
      simp only [h1]
      rw [if_neg (by omega)]
    · simp only [h3, l3]
  have hm : movesByProtocol c .varint body w st = w st1 + movedAhead c.g st.pos st2 := by
    simp only [movesByProtocol, movesAfter, OutM.andThen, hh, h2]
  refine ⟨st4, ?_, l4, by omega, by omega, ?_, by omega⟩
  · simp only [encByProtocol, OutM.andThen, hh, h2, h3, hlen, h4]
  · intro hlo
    rw [hm]
    have : ¬ (varintBytes len).length ≤ 1 := by
      rw [varintBytes_length_le_iff len 1 (by omega)]; omega
    rw [← hs] at this
    simp only [movedAhead, hlen]
    rw [if_neg (by omega), hclaim]
    simp only
    omega

theorem chain_run {c : Cfg} (hc : c.dsz = .varint) (hh : c.host = .little) (he : c.env 0 = node) : ∀ (n d : Nat) (st : OutSt),
    2 * n + 1 ≤ d → st.pos + 11 * (n + 1) ≤ st.data.length → st.data.length < 2 ^ 56 →
    ∃ st', encode d c node (chain n) st = (.ok, st') ∧ st'.data.length = st.data.length ∧ st.pos + 2 * n + 1 ≤ st'.pos ∧
      st'.pos ≤ st.pos + 11 * n + 10 ∧ n * n ≤ moves d c node (chain n) st + 4096 := by
  have hp : pbOutCfg c = c := by unfold pbOutCfg; rw [if_neg (by simp [hc, hh])]
  intro n
  induction n with
  | zero =>
    intro d st hd hr hl
    obtain ⟨d, rfl⟩ : ∃ d', d = d' + 1 := ⟨d - 1, by omega⟩
    unfold node chain encode
    simp only [effSz, Option.getD_none, hc]
    obtain ⟨st', h1, h2, h3, h4, _⟩ := protocol_room (c := c) (w := fun _ => 0) (m := 0) (lo := 0) (hi := 0)
      (body := pbEncFields (pbOutCfg c) (encode d (pbOutCfg c)) [] 0 [none] [.seq .vector none (.ref 0)] [.list []])
      (st := st) (by omega) hl (fun st1 hp hl => ⟨st1, rfl, by omega, by omega, hl, by omega, by omega⟩) (fun _ _ _ => Nat.le_refl _)
    exact ⟨st', h1, h2, by omega, by omega, by omega⟩
  | succ n ih =>
    intro d st hd hr hl
    obtain ⟨d, rfl⟩ : ∃ d', d = d' + 2 := ⟨d - 2, by omega⟩
    have tag : ∀ st1 : OutSt, st1.pos = st.pos + 1 → st1.data.length = st.data.length →
        ∃ st2, encTag c [] none 0 2 st1 = (.ok, st2) ∧ st2.pos = st1.pos + 1 ∧ st2.data.length = st1.data.length := by
      intro st1 h1 h2
      obtain ⟨st2, h⟩ := putVarint_room (g := c.g) (v := ((0 + 1) <<< 3 ||| 2) % 2 ^ 64) (st := st1) (by omega) (by decide)
      exact ⟨st2, by unfold encTag; rw [if_pos (by simp [pbMapped])]; exact h.1, h.2⟩
    have key : ∀ st1 : OutSt, st1.pos = st.pos + 1 → st1.data.length = st.data.length → ∃ st3,
        pbEncFields c (encode (d + 1) c) [] 0 [none] [.seq .vector none (.ref 0)] [.list [chain n]] st1 = (.ok, st3) ∧
        st3.data.length = st.data.length ∧ st1.pos + (2 * n + 2) ≤ st3.pos ∧ st3.pos ≤ st1.pos + (11 * n + 11) ∧
        n * n - 4096 ≤ movesMembers c (encode (d + 1) c) (moves (d + 1) c) [] 0 [none] [.seq .vector none (.ref 0)]
          [.list [chain n]] st1 := by
      intro st1 h1 h2
      obtain ⟨st2, t1, t2, t3⟩ := tag st1 h1 h2
      obtain ⟨st3, r1, r2, r3, r4, r5⟩ := ih d st2 (by omega) (by omega) (by omega)
      have r1' : encode (d + 1) c (.ref 0) (chain n) st2 = (.ok, st3) := by rw [encode, he]; exact r1
      refine ⟨st3, ?_, by omega, by omega, by omega, ?_⟩
      · simp only [pbEncFields, pbEncField, pbOutClass, pbElemClass, encAll, OutM.andThen, pbWireType, t1, r1', OutM.skip]
      · simp only [movesMembers, movesField, pbOutClass, pbElemClass, movesAll, movesAfter, pbWireType, t1]
        rw [moves, he]
        omega
    obtain ⟨st', h1, h2, h3, h4, h5, h6⟩ := protocol_room (c := c) (m := n * n - 4096) (lo := 2 * n + 2) (hi := 11 * n + 11)
      (w := movesMembers c (encode (d + 1) c) (moves (d + 1) c) [] 0 [none] [.seq .vector none (.ref 0)] [.list [chain n]])
      (body := pbEncFields c (encode (d + 1) c) [] 0 [none] [.seq .vector none (.ref 0)] [.list [chain n]])
      (st := st) (by omega) hl
      (fun st1 a b => by
        obtain ⟨st3, k1, k2, k3, k4, _⟩ := key st1 a b
        exact ⟨st3, k1, by omega, by omega, k2, k3, k4⟩)
      (fun st1 a b => by obtain ⟨_, _, _, _, _, k⟩ := key st1 a b; exact k)
    refine ⟨st', ?_, h2, by omega, by omega, ?_⟩
    · unfold node chain
      rw [encode]
      simp only [effSz, Option.getD_none, hc, hp]
      exact h1
    · have em : moves (d + 2) c node (chain (n + 1)) st = movesByProtocol c .varint
          (pbEncFields c (encode (d + 1) c) [] 0 [none] [.seq .vector none (.ref 0)] [.list [chain n]])
          (movesMembers c (encode (d + 1) c) (moves (d + 1) c) [] 0 [none] [.seq .vector none (.ref 0)] [.list [chain n]]) st := by
        rw [node, chain, moves]
        simp only [effSz, Option.getD_none, hc, hp]
      rw [em]
      have e : (n + 1) * (n + 1) = n * n + 2 * n + 1 := by rw [Nat.add_mul, Nat.mul_add]; omega
      by_cases h : 128 ≤ 2 * n + 2
      · have := h5 h
        omega
      · have := Nat.mul_le_mul (show n + 1 ≤ 63 by omega) (show n + 1 ≤ 63 by omega)
        omega

end Zpp
