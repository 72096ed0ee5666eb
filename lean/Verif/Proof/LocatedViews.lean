import Verif.Proof.Located
/-!
# Objects of view type hold places after a read
-/

namespace Zpp
open Zpp.Spec

theorem byteSerAll_get {so : Ty → Nat} : ∀ {fs : List Ty} {i : Nat} {t : Ty}, Ty.byteSerAll so fs = true → fs[i]? = some t →
    Ty.byteSer so t = true
  | [], i, t, _, h => by simp at h
  | f :: fs, 0, t, hb, h => by
    simp only [Ty.byteSerAll, Bool.and_eq_true] at hb
    simp only [List.getElem?_cons_zero, Option.some.injEq] at h
    exact h ▸ hb.1
  | f :: fs, i + 1, t, hb, h => by
    simp only [Ty.byteSerAll, Bool.and_eq_true] at hb
    exact byteSerAll_get hb.2 (by simpa using h)

/-- What is copied as bytes has no views. -/
theorem byteSer_noobject {env : Nat → Ty} {so : Ty → Nat} {t : Ty} {v w : LVal} (h : ViewObject env t v w) :
    Ty.byteSer so t = true → False := by
  induction h with
  | member i hf hv _ ih =>
    intro hb
    simp only [Ty.byteSer, Bool.and_eq_true] at hb
    exact ih (byteSerAll_get hb.1.1.2 hf)
  | array hv _ ih => intro hb; exact ih (by simpa [Ty.byteSer] using hb)
  | _ => intro hb; simp [Ty.byteSer] at hb

theorem indep_noobject {env : Nat → Ty} {t : Ty} {v w : LVal} (h : ViewObject env t v w) : Ty.endianIndep t = true → False := by
  induction h with
  | array hv _ ih => intro hb; exact ih (by simpa [Ty.endianIndep] using hb)
  | _ => intro hb; simp [Ty.endianIndep] at hb

theorem asBytes_noobject {env : Nat → Ty} {c : Cfg} {t : Ty} {v w : LVal} (h : ViewObject env t v w) (hb : asBytes c t = true) : False := by
  simp only [asBytes, Bool.or_eq_true, Bool.and_eq_true] at hb
  rcases hb with hb | hb
  · exact indep_noobject h hb
  · exact byteSer_noobject h hb.2

/-- All objects of view type are views. -/
def AllViews (env : Nat → Ty) (t : Ty) (v : LVal) : Prop := ∀ w, ViewObject env t v w → ∃ pl, w = .view pl

variable {env : Nat → Ty}

theorem allViews_all {P : LVal → Prop} {rec : LVal → Nat → LRes} (h : ∀ v p, (rec v p).s = .ok → P (rec v p).v) :
    ∀ (os : List LVal) (p : Nat), (decAllL rec os p).s = .ok → ∀ v ∈ (decAllL rec os p).vs, P v
  | [], p, _, v, hv => by simp [decAllL] at hv
  | o :: os, p, hs, v, hv => by
    have h1 := h o p
    simp only [decAllL] at hs hv
    generalize rec o p = r at h1 hs hv
    obtain ⟨s, x, p'⟩ := r
    cases s
    case ok =>
      simp only [List.mem_cons] at hs hv
      rcases hv with rfl | hv
      · exact h1 rfl
      · exact allViews_all h os p' hs v hv
    all_goals simp at hs

theorem allViews_fields {P : Ty → LVal → Prop} {rec : Ty → LVal → Nat → LRes} (h : ∀ t v p, (rec t v p).s = .ok → P t (rec t v p).v) :
    ∀ (ts : List Ty) (os : List LVal) (p : Nat), (decFieldsL rec ts os p).s = .ok → ∀ (i : Nat) (t : Ty) (v : LVal),
      ts[i]? = some t → (decFieldsL rec ts os p).vs[i]? = some v → P t v
  | [], os, p, _, i, t, v, ht, _ => by simp at ht
  | t0 :: ts, os, p, hs, i, t, v, ht, hv => by
    have h1 := h t0 (os.headD .unit) p
    simp only [decFieldsL] at hs hv
    generalize rec t0 (os.headD .unit) p = r at h1 hs hv
    obtain ⟨s, x, p'⟩ := r
    cases s
    case ok =>
      cases i with
      | zero =>
        simp only [List.getElem?_cons_zero, Option.some.injEq] at ht hv
        subst ht hv
        exact h1 rfl
      | succ i => exact allViews_fields h ts os.tail p' hs i t v (by simpa using ht) (by simpa using hv)
    all_goals simp at hs

theorem mem_insertSortedL {lt : Val → Val → Bool} {key : LVal → Val} {e v : LVal} : ∀ {vs : List LVal},
    v ∈ insertSortedL lt key e vs → v = e ∨ v ∈ vs
  | [], h => by simpa [insertSortedL] using h
  | x :: xs, h => by
    simp only [insertSortedL] at h
    split at h
    · simpa using h
    · rcases List.mem_cons.mp h with h | h
      · exact .inr (by simp [h])
      · exact (mem_insertSortedL h).imp_right fun h => by simp [h]

theorem mem_assocInsertL {lt : Val → Val → Bool} {multi hashed : Bool} {key : LVal → Val} {e v : LVal} {vs : List LVal}
    (h : v ∈ assocInsertL lt multi hashed key e vs) : v = e ∨ v ∈ vs := by
  unfold assocInsertL at h
  split at h
  · split at h
    · simp only [List.mem_append, List.mem_singleton] at h
      exact h.symm
    · exact .inr h
  · split at h
    · exact mem_insertSortedL h
    · exact .inr h

theorem allViews_assoc {P : LVal → Prop} {elem : Nat → LRes} {ins : LVal → List LVal → List LVal}
    (hi : ∀ e vs v, v ∈ ins e vs → v = e ∨ v ∈ vs) (h : ∀ p, (elem p).s = .ok → P (elem p).v) :
    ∀ (n : Nat) (vs : List LVal) (p : Nat), (∀ v ∈ vs, P v) → ∀ v ∈ (decAssocL elem ins n vs p).vs, P v
  | 0, vs, p, hv => hv
  | n + 1, vs, p, hv => by
    have h1 := h p
    simp only [decAssocL]
    generalize elem p = r at h1
    obtain ⟨s, x, p'⟩ := r
    cases s
    case ok =>
      refine allViews_assoc hi h n (ins x vs) p' fun v hm => ?_
      rcases hi _ _ _ hm with rfl | hm
      · exact h1 rfl
      · exact hv v hm
    all_goals exact hv

theorem decNewL_ok {old : LVal} {r : LRes} (h : (decNewL old r).s = .ok) : r.s = .ok ∧ (decNewL old r).v = .some r.v := by
  obtain ⟨s, v, p⟩ := r
  cases s
  case ok => exact ⟨rfl, rfl⟩
  all_goals simp [decNewL] at h

theorem decAltL_ok {rec : LVal → Nat → LRes} {dc : Bool} {i : Nat} {dv old : LVal} {p : Nat}
    (h : (decAltL rec dc i dv old p).s = .ok) :
    ∃ v q, (rec v q).s = .ok ∧ (decAltL rec dc i dv old p).v = .alt i (rec v q).v := by
  unfold decAltL at h ⊢
  split at h
  · next hd => rw [if_pos hd]; exact ⟨_, p, h, rfl⟩
  · next hd =>
    rw [if_neg hd]
    refine ⟨dv, p, ?_⟩
    generalize rec dv p = r at h
    obtain ⟨s, v, p'⟩ := r
    cases s
    case ok => exact ⟨rfl, rfl⟩
    all_goals simp at h

theorem isViewElem_iff {t : Ty} (h : t = .scalar .byte 1 ∨ t = .scalar .chr 1) : isViewElem t = true := by
  rcases h with rfl | rfl <;> rfl

/-- After a successful read all objects of view type are views. -/
theorem decodeL_views : ∀ (d : Nat) (c : Cfg) (m : Memory) (b : Nat) (t : Ty) (old : LVal) (p : Nat),
    (decodeL d c m b t old p).s = .ok → AllViews c.env t (decodeL d c m b t old p).v := by
  intro d
  induction d with
  | zero => intro c m b t old p h; simp [decodeL] at h
  | succ d ih =>
    intro c m b t old p
    have hrec : ∀ t v p, (decodeL d c m b t v p).s = .ok → AllViews c.env t (decodeL d c m b t v p).v :=
      fun t v p => ih c m b t v p
    have hbody : ∀ (k k' : SeqKind) (sz : Option SizeTy) (t : Ty) (olds : List LVal) (p : Nat), k ≠ .view →
        (seqBodyL c m b k' t (fun v p => decodeL d c m b t v p) olds p).s = .ok →
        AllViews c.env (.seq k sz t) (seqBodyL c m b k' t (fun v p => decodeL d c m b t v p) olds p).v := by
      intro k k' sz t olds p hk hs w hw
      unfold seqBodyL at hs hw
      split at hw
      · next hb =>
        generalize (decRep c t olds.length (LVal.lookAll m olds) (m b) p).toRes.owned.v = v at hw
        cases hw with
        | here => exact absurd rfl hk
        | elem _ _ hw => exact (asBytes_noobject hw hb.2).elim
      · next hb =>
        rw [if_neg hb] at hs
        have := allViews_all (P := AllViews c.env t) (hrec t) olds p hs
        generalize hv : (decAllL (fun v p => decodeL d c m b t v p) olds p).toRes.v = v at hw
        cases hw with
        | here => exact absurd rfl hk
        | elem _ hm hw =>
          simp only [LResL.toRes, LVal.list.injEq] at hv
          subst hv
          exact this _ hm w hw
    cases t with
    | scalar k n => intro _ w hw; generalize (decodeL (d + 1) c m b _ old p).v = v at hw; cases hw
    | bool => intro _ w hw; generalize (decodeL (d + 1) c m b _ old p).v = v at hw; cases hw
    | varint n zz => intro _ w hw; generalize (decodeL (d + 1) c m b _ old p).v = v at hw; cases hw
    | empty => intro _ w hw; generalize (decodeL (d + 1) c m b _ old p).v = v at hw; cases hw
    | bitset n => intro _ w hw; generalize (decodeL (d + 1) c m b _ old p).v = v at hw; cases hw
    | msg sz ok maps nums fs => intro _ w hw; generalize (decodeL (d + 1) c m b _ old p).v = v at hw; cases hw
    | ref i =>
      intro hs w hw
      simp only [decodeL] at hs hw
      cases hw with
      | ref hw => exact hrec _ _ _ hs w hw
    | struct ok fs =>
      intro hs w hw
      simp only [decodeL] at hs hw
      split at hw
      · next hb => exact (asBytes_noobject hw hb).elim
      · next hb =>
        rw [if_neg hb] at hs
        have := allViews_fields (P := AllViews c.env) hrec fs (old.elems m) p hs
        generalize hv : (decFieldsL (fun t v p => decodeL d c m b t v p) fs (old.elems m) p).toRes.v = v at hw
        cases hw with
        | member i hf hv' hw =>
          simp only [LResL.toRes, LVal.list.injEq] at hv
          subst hv
          exact this i _ _ hf hv' w hw
    | array n t =>
      intro hs w hw
      simp only [decodeL] at hs hw
      split at hw
      · next hb =>
        generalize (decode (d + 1) c (.array n t) (old.look m) (m b) p).owned.v = v at hw
        cases hw with
        | array _ hw => exact (asBytes_noobject hw hb).elim
      · next hb =>
        rw [if_neg hb] at hs
        have := allViews_all (P := AllViews c.env t) (hrec t) (resizeL (old.elems m) n .unit) p hs
        generalize hv : (decAllL (fun v p => decodeL d c m b t v p) (resizeL (old.elems m) n .unit) p).toRes.v = v at hw
        cases hw with
        | array hm hw =>
          simp only [LResL.toRes, LVal.list.injEq] at hv
          subst hv
          exact this _ hm w hw
    | seq k sz t =>
      intro hs w hw
      simp only [decodeL] at hs hw
      split at hw
      · next hk =>
        obtain ⟨rfl, hk⟩ := hk
        generalize (decode (d + 1) c (.seq .view sz t) (old.look m) (m b) p).owned.v = v at hw
        cases hw with
        | here ht => rw [isViewElem_iff ht] at hk; cases hk
        | elem hk' _ _ => exact absurd rfl hk'
      · next hk =>
        rw [if_neg hk] at hs
        have hfill : ∀ n p1, (seqFillL c m b k t (fun v p => decodeL d c m b t v p) (dflt c d t).owned old n p1).s = .ok →
            AllViews c.env (.seq k sz t) (seqFillL c m b k t (fun v p => decodeL d c m b t v p) (dflt c d t).owned old n p1).v := by
          intro n p1 hs w hw
          unfold seqFillL at hs hw
          cases k
          case view =>
            dsimp only at hs hw
            split at hs
            · simp at hs
            · next h1 =>
              rw [if_neg h1] at hw
              split at hs
              · next h2 =>
                rw [if_pos h2] at hw
                cases hw with
                | here => exact ⟨_, rfl⟩
              · simp at hs
          case span =>
            dsimp only at hs hw
            split at hs
            · simp at hs
            · next h1 =>
              rw [if_neg h1] at hw
              exact hbody _ _ _ _ _ _ (by simp) hs w hw
          all_goals
            dsimp only at hs hw
            split at hs
            · simp at hs
            · next h1 =>
              rw [if_neg h1] at hw
              split at hs
              · simp at hs
              · next h2 =>
                rw [if_neg h2] at hw
                exact hbody _ _ _ _ _ _ (by simp) hs w hw
        have hhdr : ∀ s, (match decHdr c s (m b) p with
              | (.ok, n, p1) => seqFillL c m b k t (fun v p => decodeL d c m b t v p) (dflt c d t).owned old n p1
              | (s', _, p1) => (⟨s', old, p1⟩ : LRes)).s = .ok →
            AllViews c.env (.seq k sz t) (match decHdr c s (m b) p with
              | (.ok, n, p1) => seqFillL c m b k t (fun v p => decodeL d c m b t v p) (dflt c d t).owned old n p1
              | (s', _, p1) => (⟨s', old, p1⟩ : LRes)).v := by
          intro s
          generalize decHdr c s (m b) p = r
          obtain ⟨s, n, p1⟩ := r
          cases s
          case ok => exact hfill n p1
          all_goals (intro h; simp at h)
        cases hsz : effSz c sz with
        | none =>
          rw [hsz] at hs hw
          dsimp only at hs hw
          unfold seqUnsizedL at hs hw
          cases k
          case view =>
            dsimp only at hs hw
            split at hs
            · simp at hs
            · next h1 =>
              rw [if_neg h1] at hw
              cases hw with
              | here => exact ⟨_, rfl⟩
          all_goals exact hbody _ _ _ _ _ _ (by simp) hs w hw
        | fixed n => rw [hsz] at hs hw; exact hhdr _ hs w hw
        | varint => rw [hsz] at hs hw; exact hhdr _ hs w hw
    | assoc mu ha sz key mp =>
      intro hs w hw
      simp only [decodeL] at hs hw
      generalize decHdr c (effSz c sz) (m b) p = r at hs hw
      obtain ⟨s, n, p1⟩ := r
      cases s
      case ok =>
        dsimp only at hs hw
        cases mp with
        | none =>
          have := allViews_assoc (P := AllViews c.env key) (elem := fun p => decodeL d c m b key (dflt c d key).owned p)
            (ins := assocInsertL (c.keyLt key) mu ha (fun e => assocKey false (e.look m)))
            (fun e vs v h => mem_assocInsertL h) (fun p h => hrec _ _ _ h) n [] p1 (by simp)
          dsimp only [Option.isSome] at hw
          generalize hv : (decAssocL _ _ n [] p1).toRes.v = v at hw
          cases hw with
          | setElem hm hw =>
            simp only [LResL.toRes, LVal.list.injEq] at hv
            subst hv
            exact this _ hm w hw
        | some t =>
          have := allViews_assoc (P := AllViews c.env (.struct false [key, t]))
            (elem := fun p => (decFieldsL (fun t v p => decodeL d c m b t v p) [key, t] [(dflt c d key).owned, (dflt c d t).owned] p).toRes)
            (ins := assocInsertL (c.keyLt key) mu ha (fun e => assocKey true (e.look m)))
            (fun e vs v h => mem_assocInsertL h) (fun p h w hw => by
              have hf := allViews_fields (P := AllViews c.env) hrec _ _ p h
              generalize hv : (decFieldsL (fun t v p => decodeL d c m b t v p) [key, t] _ p).toRes.v = v at hw
              cases hw with
              | member i hf' hv' hw =>
                simp only [LResL.toRes, LVal.list.injEq] at hv
                subst hv
                exact hf i _ _ hf' hv' w hw) n [] p1 (by simp)
          dsimp only [Option.isSome] at hw
          generalize hv : (decAssocL _ _ n [] p1).toRes.v = v at hw
          cases hw with
          | mapElem hm hw =>
            simp only [LResL.toRes, LVal.list.injEq] at hv
            subst hv
            exact this _ hm w hw
      all_goals simp at hs
    | optional dc t =>
      intro hs w hw
      simp only [decodeL] at hs hw
      generalize getBytes (m b) p 1 = r at hs hw
      obtain ⟨s, bs, p1⟩ := r
      cases s
      case ok =>
        dsimp only at hs hw
        split at hw
        · cases hw
        · next h1 =>
          rw [if_neg h1] at hs
          cases dc with
          | true =>
            simp only [if_true] at hs hw
            cases hw with
            | optional hw => exact hrec _ _ _ hs w hw
          | false =>
            simp only [Bool.false_eq_true, if_false] at hs hw
            obtain ⟨h2, h3⟩ := decNewL_ok hs
            rw [h3] at hw
            cases hw with
            | optional hw => exact hrec _ _ _ h2 w hw
      all_goals simp at hs
    | optPtr t =>
      intro hs w hw
      simp only [decodeL] at hs hw
      generalize getBytes (m b) p 1 = r at hs hw
      obtain ⟨s, bs, p1⟩ := r
      cases s
      case ok =>
        dsimp only at hs hw
        split at hw
        · cases hw
        · next h1 =>
          rw [if_neg h1] at hs
          obtain ⟨h2, h3⟩ := decNewL_ok hs
          rw [h3] at hw
          cases hw with
          | optPtr hw => exact hrec _ _ _ h2 w hw
      all_goals simp at hs
    | uptr t =>
      intro hs w hw
      simp only [decodeL] at hs hw
      obtain ⟨h2, h3⟩ := decNewL_ok hs
      rw [h3] at hw
      cases hw with
      | uptr hw => exact hrec _ _ _ h2 w hw
    | variant idTy ids dcs alts =>
      intro hs w hw
      simp only [decodeL] at hs hw
      generalize decode d c idTy (dflt c d idTy) (m b) p = r at hs hw
      obtain ⟨s, id, p1⟩ := r
      cases s
      case ok =>
        dsimp only at hs hw
        cases hf : findId id ids 0 with
        | none => rw [hf] at hs; simp at hs
        | some i =>
          rw [hf] at hs hw
          dsimp only at hs hw
          cases ha : alts[i]? with
          | none => rw [ha] at hs; simp at hs
          | some t =>
            cases hdc : dcs[i]? with
            | none => rw [ha, hdc] at hs; simp at hs
            | some dc =>
              rw [ha, hdc] at hs hw
              dsimp only at hs hw
              obtain ⟨x, q, h2, h3⟩ := decAltL_ok hs
              rw [h3] at hw
              cases hw with
              | alt ha' hw =>
                rw [ha] at ha'
                cases ha'
                exact hrec _ _ _ h2 w hw
      all_goals simp at hs

theorem decManyL_views {d : Nat} {c : Cfg} {m : Memory} {b : Nat} : ∀ (items : List (Ty × LVal)) (p : Nat),
    (decManyL d c m b items p).s = .ok → ∀ (i : Nat) (t : Ty) (o v : LVal), items[i]? = some (t, o) →
      (decManyL d c m b items p).vs[i]? = some v → AllViews c.env t v
  | [], p, _, i, t, o, v, hi, _ => by simp at hi
  | (t0, o0) :: rest, p, hs, i, t, o, v, hi, hv => by
    have h1 := decodeL_views d c m b t0 o0 p
    simp only [decManyL] at hs hv
    generalize decodeL d c m b t0 o0 p = r at h1 hs hv
    obtain ⟨s, x, p'⟩ := r
    cases s
    case ok =>
      cases i with
      | zero =>
        simp only [List.getElem?_cons_zero, Option.some.injEq, Prod.mk.injEq] at hi hv
        obtain ⟨rfl, rfl⟩ := hi
        subst hv
        exact h1 rfl
      | succ i => exact decManyL_views rest p' hs i t o v (by simpa using hi) (by simpa using hv)
    all_goals simp at hs

end Zpp
