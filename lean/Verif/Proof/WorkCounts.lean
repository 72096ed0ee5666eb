import Verif.Spec.Work
import Verif.Model.Work
/-!
# The work of a successful read counts every object read
-/

namespace Zpp
open Zpp.Spec

theorem decAll_counts {rec : Val → Nat → Res} {w : Val → Nat → Nat} {o : Val → Nat}
    (h : ∀ v p v' p', rec v p = ⟨.ok, v', p'⟩ → o v' ≤ w v p) :
    ∀ (vs : List Val) (p : Nat), (decAll rec vs p).s = .ok → ((decAll rec vs p).vs.map o).sum ≤ workAll rec w vs p
  | [], p, _ => by simp [decAll]
  | v :: vs, p, hs => by
    simp only [decAll, workAll] at hs ⊢
    generalize hr : rec v p = r at hs ⊢
    obtain ⟨s, v', p'⟩ := r
    cases s
    case ok =>
      have h1 := h v p v' p' hr
      have h2 := decAll_counts h vs p' hs
      simp only [List.map_cons, List.sum_cons]
      omega
    all_goals cases hs

theorem decFields_counts {rec : Ty → Val → Nat → Res} {w : Ty → Val → Nat → Nat} {o : Ty → Val → Nat}
    (h : ∀ t v p v' p', rec t v p = ⟨.ok, v', p'⟩ → o t v' ≤ w t v p) :
    ∀ (ts : List Ty) (vs : List Val) (p : Nat), (decFields rec ts vs p).s = .ok →
      ((ts.zip (decFields rec ts vs p).vs).map fun x => o x.1 x.2).sum ≤ workFields rec w ts vs p
  | [], vs, p, _ => by simp [decFields]
  | t :: ts, vs, p, hs => by
    simp only [decFields, workFields] at hs ⊢
    generalize hr : rec t (vs.headD .unit) p = r at hs ⊢
    obtain ⟨s, v', p'⟩ := r
    cases s
    case ok =>
      have h1 := h t _ p v' p' hr
      have h2 := decFields_counts h ts vs.tail p' hs
      simp only [List.zip_cons_cons, List.map_cons, List.sum_cons]
      omega
    all_goals cases hs

theorem insertSorted_sum (lt : Val → Val → Bool) (isMap : Bool) (e : Val) (o : Val → Nat) :
    ∀ vs : List Val, ((insertSorted lt isMap e vs).map o).sum = o e + (vs.map o).sum
  | [] => by simp [insertSorted]
  | x :: xs => by
    simp only [insertSorted]
    split
    · simp
    · simp only [List.map_cons, List.sum_cons, insertSorted_sum lt isMap e o xs]
      omega

theorem assocInsert_sum (lt : Val → Val → Bool) (multi hashed isMap : Bool) (e : Val) (o : Val → Nat) (vs : List Val) :
    ((assocInsert lt multi hashed isMap e vs).map o).sum ≤ o e + (vs.map o).sum := by
  unfold assocInsert
  split
  · split
    · simp; omega
    · omega
  · split
    · rw [insertSorted_sum]; omega
    · omega

theorem decAssoc_counts {elem : Nat → Res} {w : Nat → Nat} {o : Val → Nat} {ins : Val → List Val → List Val}
    (h : ∀ p v' p', elem p = ⟨.ok, v', p'⟩ → o v' ≤ w p)
    (hi : ∀ e vs, ((ins e vs).map o).sum ≤ o e + (vs.map o).sum) :
    ∀ (n : Nat) (vs : List Val) (p : Nat), (decAssoc elem ins n vs p).s = .ok →
      ((decAssoc elem ins n vs p).vs.map o).sum ≤ (vs.map o).sum + workAssoc elem w n p
  | 0, vs, p, _ => by simp [decAssoc]
  | n + 1, vs, p, hs => by
    simp only [decAssoc, workAssoc] at hs ⊢
    generalize hr : elem p = r at hs ⊢
    obtain ⟨s, v', p'⟩ := r
    cases s
    case ok =>
      have h1 := h p v' p' hr
      have h2 := decAssoc_counts h hi n (ins v' vs) p' hs
      have h3 := hi v' vs
      simp only at h2 ⊢
      omega
    all_goals cases hs

theorem seqBody_counts {k : Nat} {c : Cfg} {kd : SeqKind} {sz : Option SizeTy} {t : Ty} {rec : Val → Nat → Res} {w : Val → Nat → Nat}
    {data : List UInt8} (h : ∀ v p v' p', rec v p = ⟨.ok, v', p'⟩ → objectsIn k c t v' ≤ w v p) {olds : List Val} {p : Nat}
    {v : Val} {p' : Nat} (hs : seqBody c kd t rec olds data p = ⟨.ok, v, p'⟩) :
    objectsIn (k + 1) c (.seq kd sz t) v ≤ 1 + workBody c kd t rec w olds p := by
  simp only [seqBody, workBody] at hs ⊢
  split at hs
  · next hb =>
    have hv := congrArg Res.v hs
    simp only [ResL.toRes] at hv
    subst hv
    cases kd <;> simp [objectsIn, hb.2]
    simp at hb
  · next hb =>
    rw [if_neg hb]
    have h1 : (decAll rec olds p).s = .ok := congrArg Res.s hs
    have hv := congrArg Res.v hs
    simp only [ResL.toRes] at hv
    subst hv
    have := decAll_counts h olds p h1
    cases kd
    case view => simp [objectsIn]
    all_goals
      simp only [objectsIn]
      rw [if_neg hb]
      exact Nat.add_le_add_left this 1

theorem objectsIn_pos (c : Cfg) (t : Ty) (v : Val) : 1 ≤ objectsIn 1 c t v := by
  unfold objectsIn
  split <;> (try split) <;> omega

private theorem Res.ext' {r : Res} {s : Status} {v : Val} {p : Nat} (h1 : r.s = s) (h2 : r.v = v) (h3 : r.p = p) : r = ⟨s, v, p⟩ := by
  cases r; simp_all

/-- Work is at least the number of objects found in what was read. -/
theorem decode_counts (q : Nat) (c : Cfg) (data : List UInt8) : ∀ (d k : Nat) (t : Ty) (old : Val) (p : Nat) (v : Val) (p' : Nat),
    decode d c t old data p = ⟨.ok, v, p'⟩ → objectsIn k c t v ≤ work q d c t old data p := by
  intro d
  induction d with
  | zero => intro k t old p v p' h; simp [decode] at h
  | succ d ih =>
    intro k t old p v p' h
    cases k with
    | zero => simp [objectsIn]
    | succ k =>
    have ih' := ih k
    cases t with
    | scalar sk n => simp [objectsIn, work]
    | bool => simp [objectsIn, work]
    | varint n zz => simp [objectsIn, work]
    | empty => simp [objectsIn, work]
    | bitset n => simp [objectsIn, work]
    | msg sz ok maps nums fs =>
      have : objectsIn (k + 1) c (.msg sz ok maps nums fs) v = 1 := by simp only [objectsIn]
      rw [this]
      simp only [work]
      split
      · omega
      · split <;> omega
    | struct ok fs =>
      simp only [decode] at h
      simp only [work]
      split at h
      · next hb =>
        rw [if_pos hb]
        cases v <;> simp [objectsIn, hb]
      · next hb =>
        rw [if_neg hb]
        have hs : (decFields (fun t v p => decode d c t v data p) fs old.elems p).s = .ok := congrArg Res.s h
        have hv := congrArg Res.v h
        simp only [ResL.toRes] at hv
        subst hv
        have := decFields_counts (w := fun t v p => work q d c t v data p) (o := objectsIn k c)
          (fun t v p v' p' hr => ih' t v p v' p' hr) fs old.elems p hs
        simp only [objectsIn, if_neg hb]
        exact Nat.add_le_add_left this 1
    | array n t' =>
      simp only [decode] at h
      simp only [work]
      split at h
      · next hb =>
        rw [if_pos hb]
        cases v <;> simp [objectsIn, hb]
      · next hb =>
        rw [if_neg hb]
        have hs : (decAll (fun v p => decode d c t' v data p) (resizeVals old.elems n .unit) p).s = .ok := congrArg Res.s h
        have hv := congrArg Res.v h
        simp only [ResL.toRes] at hv
        subst hv
        have := decAll_counts (w := fun v p => work q d c t' v data p) (o := objectsIn k c t')
          (fun v p v' p' hr => ih' t' v p v' p' hr) _ p hs
        simp only [objectsIn, if_neg hb]
        exact Nat.add_le_add_left this 1
    | seq kd sz t' =>
      have hr : ∀ v p v' p', (fun v p => decode d c t' v data p) v p = ⟨.ok, v', p'⟩ →
        objectsIn k c t' v' ≤ (fun v p => work q d c t' v data p) v p := fun v p v' p' hr => ih' t' v p v' p' hr
      simp only [decode] at h
      simp only [work]
      by_cases hk : kd = .view
      · subst hk
        have : objectsIn (k + 1) c (.seq .view sz t') v = 1 := by simp only [objectsIn]
        rw [this]
        split
        · simp
        · split <;> omega
      · generalize effSz c sz = e at h ⊢
        cases e
        case none =>
          cases kd
          case view => cases hk rfl
          all_goals exact seqBody_counts hr h
        all_goals
          simp only at h ⊢
          split at h
          · next n p1 hh =>
            rw [hh]
            cases kd
            case view => cases hk rfl
            case span =>
              simp only [seqFill, workFill] at h ⊢
              split at h
              · cases h
              · next hl => rw [if_neg hl]; exact seqBody_counts hr h
            all_goals
              simp only [seqFill, workFill] at h ⊢
              split at h
              · cases h
              · next hl =>
                rw [if_neg hl]
                split at h
                · cases h
                · next hm =>
                  rw [if_neg hm]
                  have := seqBody_counts (sz := sz) hr h
                  omega
          · next h0 hh =>
            simp only [Res.mk.injEq] at h
            obtain ⟨rfl, _, _⟩ := h
            exact (h0 rfl).elim
    | assoc multi hashed sz key mapped =>
      simp only [decode] at h
      simp only [work]
      split at h
      · next n p1 hh =>
        rw [hh]
        have hs : (decAssoc _ _ n [] p1).s = .ok := congrArg Res.s h
        have hv := congrArg Res.v h
        simp only [ResL.toRes] at hv
        subst hv
        cases mapped with
        | none =>
          have := decAssoc_counts (o := objectsIn k c key) (w := fun p => work q d c key (dflt c d key) data p)
            (fun p v' p' hr => ih' key _ p v' p' hr)
            (fun e vs => assocInsert_sum (c.keyLt key) multi hashed (Option.isSome (none : Option Ty)) e _ vs) n [] p1 hs
          simp only [objectsIn]
          simp only [List.map_nil, List.sum_nil, Nat.zero_add] at this
          exact Nat.add_le_add_left this 1
        | some m =>
          have := decAssoc_counts
            (o := fun e => (([key, m].zip e.elems).map fun x => objectsIn k c x.1 x.2).sum)
            (w := fun p => workFields (fun t v p => decode d c t v data p) (fun t v p => work q d c t v data p) [key, m]
              [dflt c d key, dflt c d m] p)
            (fun p v' p' hr => by
              have hs : (decFields (fun t v p => decode d c t v data p) [key, m] [dflt c d key, dflt c d m] p).s = .ok :=
                congrArg Res.s hr
              have hv := congrArg Res.v hr
              simp only [ResL.toRes] at hv
              subst hv
              exact decFields_counts (o := objectsIn k c) (fun t v p v' p' hr => ih' t v p v' p' hr) _ _ p hs)
            (fun e vs => assocInsert_sum (c.keyLt key) multi hashed (Option.isSome (some m)) e _ vs) n [] p1 hs
          simp only [objectsIn]
          simp only [List.map_nil, List.sum_nil, Nat.zero_add] at this
          exact Nat.add_le_add_left this 1
      · next h0 hh =>
        simp only [Res.mk.injEq] at h
        obtain ⟨rfl, _, _⟩ := h
        exact (h0 rfl).elim
    | optional dc t' =>
      simp only [decode] at h
      simp only [work]
      split at h
      · next bs p1 hh =>
        rw [hh]
        simp only
        split at h
        · next hz =>
          simp only [Res.mk.injEq] at h
          obtain ⟨_, rfl, _⟩ := h
          rw [if_pos hz]
          simp [objectsIn]
        · next hz =>
          rw [if_neg hz]
          split at h
          · next hd =>
            rw [if_pos hd]
            simp only [Res.mk.injEq] at h
            obtain ⟨hs, rfl, rfl⟩ := h
            have := ih' t' _ p1 _ _ (Res.ext' hs rfl rfl)
            simp only [objectsIn]
            exact Nat.add_le_add_left this 1
          · next hd =>
            rw [if_neg hd]
            split at h
            · next v1 p2 hr =>
              simp only [Res.mk.injEq] at h
              obtain ⟨_, rfl, rfl⟩ := h
              have := ih' t' _ p1 _ _ hr
              simp only [objectsIn]
              exact Nat.add_le_add_left this 1
            · next h0 hn =>
              simp only [Res.mk.injEq] at h
              obtain ⟨rfl, _, _⟩ := h
              exact (h0 rfl).elim
      · next h0 hh =>
        simp only [Res.mk.injEq] at h
        obtain ⟨rfl, _, _⟩ := h
        exact (h0 rfl).elim
    | optPtr t' =>
      simp only [decode] at h
      simp only [work]
      split at h
      · next bs p1 hh =>
        rw [hh]
        simp only
        split at h
        · next hz =>
          simp only [Res.mk.injEq] at h
          obtain ⟨_, rfl, _⟩ := h
          rw [if_pos hz]
          simp [objectsIn]
        · next hz =>
          rw [if_neg hz]
          split at h
          · next v1 p2 hr =>
            simp only [Res.mk.injEq] at h
            obtain ⟨_, rfl, rfl⟩ := h
            have := ih' t' _ p1 _ _ hr
            simp only [objectsIn]
            exact Nat.add_le_add_left this 1
          · next h0 hn =>
            simp only [Res.mk.injEq] at h
            obtain ⟨rfl, _, _⟩ := h
            exact (h0 rfl).elim
      · next h0 hh =>
        simp only [Res.mk.injEq] at h
        obtain ⟨rfl, _, _⟩ := h
        exact (h0 rfl).elim
    | uptr t' =>
      simp only [decode] at h
      simp only [work]
      split at h
      · next v1 p2 hr =>
        simp only [Res.mk.injEq] at h
        obtain ⟨_, rfl, rfl⟩ := h
        have := ih' t' _ p _ _ hr
        simp only [objectsIn]
        exact Nat.add_le_add_left this 1
      · next h0 hn =>
        simp only [Res.mk.injEq] at h
        obtain ⟨rfl, _, _⟩ := h
        exact (h0 rfl).elim
    | variant idTy ids dcs alts =>
      simp only [decode] at h
      simp only [work]
      split at h
      · next id p1 hi =>
        have h1 : 1 ≤ work q d c idTy (dflt c d idTy) data p := by
          have := ih 1 idTy _ p _ _ hi
          exact Nat.le_trans (objectsIn_pos c idTy id) this
        rw [hi]
        simp only
        split at h
        · cases h
        · next i hf =>
          rw [hf]
          simp only
          split at h
          · next t' dc ha hd =>
            simp only [ha, hd]
            unfold decAlt at h
            split at h
            · next hdc =>
              rw [if_pos hdc]
              simp only [Res.mk.injEq] at h
              obtain ⟨hs, rfl, rfl⟩ := h
              have h2 := ih' t' _ p1 _ _ (Res.ext' hs rfl rfl)
              simp only [objectsIn, ha, Option.elim]
              exact Nat.add_le_add (by omega) h2
            · next hdc =>
              rw [if_neg hdc]
              split at h
              · next v1 p2 hr =>
                simp only [Res.mk.injEq] at h
                obtain ⟨_, rfl, rfl⟩ := h
                have h2 := ih' t' _ p1 _ _ hr
                simp only [objectsIn, ha, Option.elim]
                omega
              · next h0 hn =>
                simp only [Res.mk.injEq] at h
                obtain ⟨rfl, _, _⟩ := h
                exact (h0 rfl).elim
          · cases h
      · next h0 hn =>
        simp only [Res.mk.injEq] at h
        obtain ⟨rfl, _, _⟩ := h
        exact (h0 rfl).elim
    | ref i =>
      have : objectsIn (k + 1) c (.ref i) v = 1 + objectsIn k c (c.env i) v := by simp only [objectsIn]
      rw [this]
      simp only [work]
      have := ih' (c.env i) old p v p' h
      omega
end Zpp
