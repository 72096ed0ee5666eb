import Verif.Spec.Views
import Verif.Proof.InLimit
import Verif.Proof.InSafe
import Verif.Proof.InSeq
/-!
# Views inside objects that were read
-/

namespace Zpp
open Zpp.Spec

theorem window_mono {data bs : List UInt8} {p p' q q' : Nat} (h : Window data p p' bs) (hq : q ≤ p) (hq' : p' ≤ q') :
    Window data q q' bs := by
  obtain ⟨x, h1, h2, h3, h4⟩ := h
  exact ⟨x, by omega, by omega, h3, h4⟩

theorem window_nil {data : List UInt8} {p p' : Nat} (h : p ≤ p') (hp : p ≤ data.length) : Window data p p' [] :=
  ⟨p, Nat.le_refl _, by simpa using h, by simpa using hp, by simp⟩

variable {env : Nat → Ty}

theorem unit_noview {t : Ty} {bs : List UInt8} : ¬ HasView env t .unit bs := by
  intro h
  generalize hv : Val.unit = v at h
  induction h <;> simp_all

theorem unrep_noview {e : Endian} {so : Ty → Nat} {t : Ty} {v : Val} {w : List UInt8} (h : HasView env t v w) :
    ∀ bs, v ≠ unrep e so t bs := by
  induction h with
  | here => intro bs h; simp [unrep] at h
  | elem => intro bs h; simp [unrep] at h
  | member i hf hv _ ih =>
    intro bs h
    simp only [unrep, Val.list.injEq] at h
    subst h
    obtain ⟨b, hb⟩ := unrepFields_get hf hv
    exact ih b hb
  | array hv _ ih =>
    intro bs h
    simp only [unrep, Val.list.injEq] at h
    subst h
    obtain ⟨b, hb⟩ := chunks_mem hv
    exact ih b hb
  | ref h _ => intro bs hb; simp only [unrep] at hb; subst hb; exact unit_noview h
  | _ => intro bs h; simp [unrep] at h

theorem dflt_view (c : Cfg) : ∀ (d : Nat) (t : Ty) (bs : List UInt8), HasView c.env t (dflt c d t) bs → bs = [] := by
  intro d
  induction d with
  | zero => intro t bs h; exact absurd h unit_noview
  | succ d ih =>
    intro t bs h
    cases t with
    | struct ok fs =>
      simp only [dflt] at h
      cases h with
      | member i hf hv h =>
        simp only [List.getElem?_map, hf, Option.map_some, Option.some.injEq] at hv
        subst hv
        exact ih _ _ h
    | array n t =>
      simp only [dflt] at h
      cases h with
      | array hv h =>
        rw [(List.mem_replicate.mp hv).2] at h
        exact ih _ _ h
    | seq k sz t =>
      simp only [dflt] at h
      generalize hv : Val.list [] = v at h
      cases h with
      | here _ => simpa using hv
      | elem _ hm _ => simp only [Val.list.injEq] at hv; subst hv; simp at hm
    | assoc mu ha sz key m =>
      simp only [dflt] at h
      cases h with
      | setElem hv _ => simp at hv
      | mapElem hv _ => simp at hv
    | variant idTy ids dcs alts =>
      simp only [dflt] at h
      cases alts with
      | nil => cases h
      | cons t' ts =>
        cases h with
        | alt ha h =>
          simp only [List.getElem?_cons_zero, Option.some.injEq] at ha
          subst ha
          exact ih _ _ h
    | ref i =>
      simp only [dflt] at h
      cases h with
      | ref h => exact ih _ _ h
    | _ => simp only [dflt] at h; cases h

theorem decAll_win {len : Nat} {rec : Val → Nat → Res}
    (hm : ∀ o q, q ≤ len → q ≤ (rec o q).p ∧ (rec o q).p ≤ len) : ∀ (os : List Val) (p : Nat), p ≤ len →
    (p ≤ (decAll rec os p).p ∧ (decAll rec os p).p ≤ len) ∧ ∀ v ∈ (decAll rec os p).vs,
      (∃ o ∈ os, ∃ q, p ≤ q ∧ q ≤ len ∧ v = (rec o q).v ∧ (rec o q).p ≤ (decAll rec os p).p ∧
        ((decAll rec os p).s = .ok → (rec o q).s = .ok)) ∨ (v ∈ os ∧ (decAll rec os p).s ≠ .ok) := by
  intro os
  induction os with
  | nil => intro p hp; simp [decAll, hp]
  | cons o os ih =>
    intro p hp
    have h0 := hm o p hp
    simp only [decAll]
    generalize hr : rec o p = r at h0
    obtain ⟨s, w, p'⟩ := r
    dsimp only at h0
    have hw : w = (rec o p).v := by rw [hr]
    have hp' : p' = (rec o p).p := by rw [hr]
    have hs : s = (rec o p).s := by rw [hr]
    cases s
    case ok =>
      obtain ⟨⟨h1, h2⟩, h3⟩ := ih p' h0.2
      refine ⟨⟨by dsimp only; omega, h2⟩, ?_⟩
      intro v hv
      simp only [List.mem_cons] at hv
      rcases hv with hv | hv
      · exact Or.inl ⟨o, by simp, p, Nat.le_refl _, hp, by rw [hv, hw], by rw [← hp']; exact h1, fun _ => hs.symm⟩
      · rcases h3 v hv with ⟨o', ho', q, g1, g2, g3, g4, g5⟩ | ⟨g1, g2⟩
        · exact Or.inl ⟨o', by simp [ho'], q, by omega, g2, g3, g4, g5⟩
        · exact Or.inr ⟨by simp [g1], g2⟩
    all_goals
      refine ⟨h0, ?_⟩
      intro v hv
      simp only [List.mem_cons] at hv
      rcases hv with hv | hv
      · exact Or.inl ⟨o, by simp, p, Nat.le_refl _, hp, by rw [hv, hw], by rw [← hp']; exact Nat.le_refl _, by simp⟩
      · exact Or.inr ⟨by simp [hv], by simp⟩

theorem decFields_win {len : Nat} {rec : Ty → Val → Nat → Res} : ∀ (ts : List Ty) (os : List Val) (p : Nat), p ≤ len →
    (∀ t ∈ ts, ∀ o q, q ≤ len → q ≤ (rec t o q).p ∧ (rec t o q).p ≤ len) →
    (p ≤ (decFields rec ts os p).p ∧ (decFields rec ts os p).p ≤ len) ∧
    ∀ (i : Nat) (t : Ty) (v : Val), ts[i]? = some t → (decFields rec ts os p).vs[i]? = some v →
      (∃ q, p ≤ q ∧ q ≤ len ∧ v = (rec t (os.getD i .unit) q).v ∧ (rec t (os.getD i .unit) q).p ≤ (decFields rec ts os p).p ∧
        ((decFields rec ts os p).s = .ok → (rec t (os.getD i .unit) q).s = .ok)) ∨
      (os[i]? = some v ∧ (decFields rec ts os p).s ≠ .ok) := by
  intro ts
  induction ts with
  | nil => intro os p hp _; simp [decFields, hp]
  | cons t' ts ih =>
    intro os p hp hm
    have hh : os.headD .unit = os.getD 0 .unit := by cases os <;> rfl
    have htl : ∀ i, os.tail[i]? = os[i + 1]? := by intro i; cases os <;> simp
    have htd : ∀ i, os.tail.getD i .unit = os.getD (i + 1) .unit := by intro i; cases os <;> simp
    have h0 := hm t' (by simp) (os.headD .unit) p hp
    simp only [decFields]
    generalize hr : rec t' (os.headD .unit) p = r at h0
    rw [hh] at hr
    obtain ⟨s, w, p'⟩ := r
    dsimp only at h0
    cases s
    case ok =>
      obtain ⟨⟨h1, h2⟩, h3⟩ := ih os.tail p' h0.2 (fun t ht => hm t (by simp [ht]))
      refine ⟨⟨by dsimp only; omega, h2⟩, ?_⟩
      intro i t v ht hv
      cases i with
      | zero =>
        simp only [List.getElem?_cons_zero, Option.some.injEq] at ht hv
        subst ht hv
        exact Or.inl ⟨p, Nat.le_refl _, hp, by rw [hr], by rw [hr]; exact h1, fun _ => by rw [hr]⟩
      | succ i =>
        simp only [List.getElem?_cons_succ] at ht hv
        rcases h3 i t v ht hv with ⟨q, g1, g2, g3, g4, g5⟩ | ⟨g1, g2⟩
        · rw [htd] at g3 g4 g5
          exact Or.inl ⟨q, by omega, g2, g3, g4, g5⟩
        · rw [htl] at g1
          exact Or.inr ⟨g1, g2⟩
    all_goals
      refine ⟨h0, ?_⟩
      intro i t v ht hv
      cases i with
      | zero =>
        simp only [List.getElem?_cons_zero, Option.some.injEq] at ht hv
        subst ht hv
        exact Or.inl ⟨p, Nat.le_refl _, hp, by rw [hr], by rw [hr]; exact Nat.le_refl _, by simp⟩
      | succ i =>
        simp only [List.getElem?_cons_succ] at ht hv
        exact Or.inr ⟨by rw [← htl]; exact hv, by simp⟩

theorem decAssoc_win {len : Nat} {elem : Nat → Res} {ins : Val → List Val → List Val}
    (hins : ∀ e vs v, v ∈ ins e vs → v = e ∨ v ∈ vs) (hm : ∀ q, q ≤ len → q ≤ (elem q).p ∧ (elem q).p ≤ len) :
    ∀ (n : Nat) (vs : List Val) (p : Nat), p ≤ len →
    (p ≤ (decAssoc elem ins n vs p).p ∧ (decAssoc elem ins n vs p).p ≤ len) ∧ ∀ v ∈ (decAssoc elem ins n vs p).vs,
      v ∈ vs ∨ ∃ q, p ≤ q ∧ q ≤ len ∧ v = (elem q).v ∧ (elem q).p ≤ (decAssoc elem ins n vs p).p ∧ (elem q).s = .ok := by
  intro n
  induction n with
  | zero => intro vs p hp; simp only [decAssoc]; exact ⟨⟨Nat.le_refl _, hp⟩, fun v h => Or.inl h⟩
  | succ n ih =>
    intro vs p hp
    have h0 := hm p hp
    simp only [decAssoc]
    generalize hr : elem p = r at h0
    obtain ⟨s, w, p'⟩ := r
    dsimp only at h0
    cases s
    case ok =>
      obtain ⟨⟨h1, h2⟩, h3⟩ := ih (ins w vs) p' h0.2
      refine ⟨⟨by dsimp only; omega, h2⟩, ?_⟩
      intro v hv
      rcases h3 v hv with h | ⟨q, g1, g2, g3, g4, g5⟩
      · rcases hins _ _ _ h with h | h
        · exact Or.inr ⟨p, Nat.le_refl _, hp, by rw [hr, h], by rw [hr]; exact h1, by rw [hr]⟩
        · exact Or.inl h
      · exact Or.inr ⟨q, by omega, g2, g3, g4, g5⟩
    all_goals exact ⟨h0, fun v h => Or.inl h⟩

/-- The views of the result are windows of the consumed input; after a failure they may also be those of the old object. -/
def Windows (env : Nat → Ty) (data : List UInt8) (t : Ty) (old : Val) (p : Nat) (r : Res) : Prop :=
  ∀ bs, HasView env t r.v bs → Window data p r.p bs ∨ (r.s ≠ .ok ∧ HasView env t old bs)

theorem decRep_noview {c : Cfg} {t : Ty} {n : Nat} {olds : List Val} {data : List UInt8} {p : Nat} {v : Val}
    (hs : 0 < c.sizeof t) (hl : olds.length = n)
    (h : v ∈ (decRep c t n olds data p).vs) :
    (v ∈ olds ∧ (decRep c t n olds data p).s ≠ .ok) ∨ ∃ b, v = unrep c.host c.sizeof t b := by
  unfold decRep at h ⊢
  split at h
  · next h0 =>
    have hn : n = 0 := by
      rcases Nat.mul_eq_zero.mp h0 with h1 | h1
      · exact h1
      · omega
    have : olds = [] := List.eq_nil_of_length_eq_zero (by omega)
    rw [this] at h
    simp at h
  · next h0 =>
    rw [if_neg h0]
    generalize getBytes data p (n * c.sizeof t) = r at h
    obtain ⟨s, bs, p'⟩ := r
    cases s <;> simp only at h
    case ok => exact Or.inr (chunks_mem h)
    all_goals exact Or.inl ⟨h, by simp⟩

theorem seqBody_win {c : Cfg} {k k' : SeqKind} {sz : Option SizeTy} {t : Ty} {rec : Val → Nat → Res} {olds : List Val}
    {data : List UInt8} {p : Nat} {old : Val} (hs : 0 < c.sizeof t) (hp : p ≤ data.length) (hk : k' ≠ .view)
    (hm : ∀ o q, q ≤ data.length → q ≤ (rec o q).p ∧ (rec o q).p ≤ data.length)
    (hrec : ∀ o q, q ≤ data.length → Windows c.env data t o q (rec o q))
    (hold : ∀ o ∈ olds, ∀ bs, HasView c.env t o bs → bs = [] ∨ HasView c.env (.seq k' sz t) old bs)
    (hpos : p ≤ (seqBody c k t rec olds data p).p) :
    Windows c.env data (.seq k' sz t) old p (seqBody c k t rec olds data p) := by
  intro bs h
  have hnil : bs = [] → Window data p (seqBody c k t rec olds data p).p bs := by
    rintro rfl; exact window_nil hpos hp
  unfold seqBody at h hnil ⊢
  split at h
  · next hb =>
    rw [if_pos hb] at hnil ⊢
    generalize hv : (decRep c t olds.length olds data p).toRes.v = v at h
    cases h with
    | here => exact absurd rfl hk
    | elem _ hv' h =>
      simp only [ResL.toRes, Val.list.injEq] at hv
      rw [← hv] at hv'
      rcases decRep_noview hs rfl hv' with ⟨h1, h2⟩ | ⟨b, h1⟩
      · rcases hold _ h1 _ h with h | h
        · exact Or.inl (hnil h)
        · exact Or.inr ⟨h2, h⟩
      · exact absurd h1 (unrep_noview h b)
  · next hb =>
    rw [if_neg hb] at hnil ⊢
    generalize hv : (decAll rec olds p).toRes.v = v at h
    cases h with
    | here => exact absurd rfl hk
    | elem _ hv' h =>
      simp only [ResL.toRes, Val.list.injEq] at hv
      rw [← hv] at hv'
      rcases (decAll_win hm olds p hp).2 _ hv' with ⟨o, ho, q, g1, g2, g3, g4, g5⟩ | ⟨h1, h2⟩
      · rw [g3] at h
        rcases hrec o q g2 bs h with h | ⟨h1, h⟩
        · exact Or.inl (window_mono h g1 g4)
        · rcases hold _ ho _ h with h | h
          · exact Or.inl (hnil h)
          · exact Or.inr ⟨fun hh => h1 (g5 hh), h⟩
      · rcases hold _ h1 _ h with h | h
        · exact Or.inl (hnil h)
        · exact Or.inr ⟨h2, h⟩

/-- Reading any object. -/
theorem decode_win : ∀ (d : Nat) (c : Cfg) (t : Ty) (old : Val) (data : List UInt8) (p : Nat), AbiOk c.sizeof →
    (∀ i, widthsOk (c.env i) = true) → widthsOk t = true → p ≤ data.length →
    Windows c.env data t old p (decode d c t old data p) := by
  intro d
  induction d with
  | zero =>
    intro c t old data p ha henv hw hp bs h
    exact Or.inr ⟨by simp [decode], h⟩
  | succ d ih =>
    intro c t old data p ha henv hw hp
    have hstep := decode_safe (d + 1) c t old data p henv hw hp
    have hmono : ∀ t, widthsOk t = true → ∀ o q, q ≤ data.length →
        q ≤ (decode d c t o data q).p ∧ (decode d c t o data q).p ≤ data.length :=
      fun t hw o q hq => ⟨(decode_safe d c t o data q henv hw hq).mono, (decode_safe d c t o data q henv hw hq).inb⟩
    -- the old object is kept after a failure
    have hfail : ∀ {s : Status} {q : Nat}, s ≠ .ok → Windows c.env data t old p ⟨s, old, q⟩ :=
      fun hs bs h => Or.inr ⟨hs, h⟩
    cases t with
    | scalar k n => intro bs h; generalize (decode (d + 1) c _ old data p).v = v at h; cases h
    | bool => intro bs h; generalize (decode (d + 1) c _ old data p).v = v at h; cases h
    | varint n zz => intro bs h; generalize (decode (d + 1) c _ old data p).v = v at h; cases h
    | empty => intro bs h; generalize (decode (d + 1) c _ old data p).v = v at h; cases h
    | bitset n => intro bs h; generalize (decode (d + 1) c _ old data p).v = v at h; cases h
    | msg sz ok maps nums fs => intro bs h; generalize (decode (d + 1) c _ old data p).v = v at h; cases h
    | ref i =>
      intro bs h
      rw [decode] at h ⊢
      cases h with
      | ref h =>
        rcases ih c (c.env i) old data p ha henv (henv i) hp bs h with h | ⟨h1, h⟩
        · exact Or.inl h
        · exact Or.inr ⟨h1, .ref h⟩
    | struct ok fs =>
      rw [decode] at hstep ⊢
      split at hstep
      · next hb =>
        rw [if_pos hb]
        have hz : 1 * c.sizeof (.struct ok fs) ≠ 0 := by have := ha.pos (.struct ok fs); omega
        unfold decRep
        rw [if_neg hz]
        generalize getBytes data p (1 * c.sizeof (.struct ok fs)) = r
        obtain ⟨s, bs, p'⟩ := r
        cases s <;> simp only [List.headD_cons]
        case ok =>
          intro w h
          exact absurd (by simp [unrepAll, chunks])
            (unrep_noview h (bs.take (c.sizeof (.struct ok fs))) (e := c.host) (so := c.sizeof))
        all_goals exact hfail (by simp)
      · next hb =>
        rw [if_neg hb]
        intro bs h
        have hwin := decFields_win (rec := fun t v p => decode d c t v data p) fs old.elems p hp
          (fun t ht => hmono t (widthsOkL_mem hw t ht))
        generalize hv : (decFields (fun t v p => decode d c t v data p) fs old.elems p).toRes.v = v at h
        cases h with
        | member i hf hv' h =>
          rename_i vs t' v'
          simp only [ResL.toRes, Val.list.injEq] at hv
          subst hv
          have hold : ∀ o, old.elems[i]? = some o → HasView c.env t' o bs → HasView c.env (.struct ok fs) old bs := by
            intro o hi he
            cases old with
            | list os => exact .member i hf hi he
            | _ => simp [Val.elems] at hi
          rcases hwin.2 i t' v' hf hv' with ⟨q, g1, g2, g3, g4, g5⟩ | ⟨g1, g2⟩
          · rw [g3] at h
            rcases ih c t' _ data q ha henv (widthsOkL_mem hw t' (List.mem_of_getElem? hf)) g2 bs h with h | ⟨h1, h⟩
            · exact Or.inl (window_mono h g1 g4)
            · refine Or.inr ⟨fun hh => h1 (g5 hh), ?_⟩
              rw [List.getD_eq_getElem?_getD] at h
              cases hi : old.elems[i]? with
              | none => rw [hi] at h; exact absurd h unit_noview
              | some o => rw [hi] at h; exact hold o hi h
          · exact Or.inr ⟨g2, hold _ g1 h⟩
    | array n t =>
      have hold : ∀ o ∈ resizeVals old.elems n .unit, ∀ bs, HasView c.env t o bs → HasView c.env (.array n t) old bs := by
        intro o hi bs he
        rcases resizeVals_mem hi with h | h
        · cases old with
          | list os => exact .array h he
          | _ => simp [Val.elems] at h
        · subst h; exact absurd he unit_noview
      rw [decode]
      intro bs h
      split at h
      · next hb =>
        rw [if_pos hb]
        generalize hv : (decRep c t n (resizeVals old.elems n .unit) data p).toRes.v = v at h
        cases h with
        | array hv' h =>
          simp only [ResL.toRes, Val.list.injEq] at hv
          subst hv
          rcases decRep_noview (ha.pos t) (resizeVals_length _ _ _) hv' with ⟨h1, h2⟩ | ⟨b, h1⟩
          · exact Or.inr ⟨h2, hold _ h1 _ h⟩
          · exact absurd h1 (unrep_noview h b)
      · next hb =>
        rw [if_neg hb]
        have hwin := decAll_win (rec := fun v p => decode d c t v data p) (hmono t hw) (resizeVals old.elems n .unit) p hp
        generalize hv : (decAll (fun v p => decode d c t v data p) (resizeVals old.elems n .unit) p).toRes.v = v at h
        cases h with
        | array hv' h =>
          simp only [ResL.toRes, Val.list.injEq] at hv
          subst hv
          rcases hwin.2 _ hv' with ⟨o, ho, q, g1, g2, g3, g4, g5⟩ | ⟨h1, h2⟩
          · rw [g3] at h
            rcases ih c t o data q ha henv hw g2 bs h with h | ⟨h1, h⟩
            · exact Or.inl (window_mono h g1 g4)
            · exact Or.inr ⟨fun hh => h1 (g5 hh), hold _ ho _ h⟩
          · exact Or.inr ⟨h2, hold _ h1 _ h⟩
    | seq k sz t =>
      have hview : ∀ (q n : Nat) (p' : Nat), p ≤ q → q + n ≤ data.length → q + n ≤ p' →
          Windows c.env data (.seq .view sz t) old p
            ⟨.ok, .list (unrepAll c.host c.sizeof t n ((data.drop q).take n)), p'⟩ := by
        intro q n p' h1 h2 h3 bs h
        dsimp only at h ⊢
        generalize hv : Val.list (unrepAll c.host c.sizeof t n ((data.drop q).take n)) = v at h
        cases h with
        | here ht =>
          simp only [Val.list.injEq] at hv
          have hsz : c.sizeof t = 1 := by rcases ht with rfl | rfl <;> exact ha.scalar _ 1 (by omega)
          have hlen : ((data.drop q).take n).length = n := by simp; omega
          have := unrepAll_bytes c ht hsz ((data.drop q).take n)
          rw [hlen] at this
          rw [this] at hv
          have heq : (data.drop q).take n = bs := by
            refine (List.map_inj_right ?_).mp hv
            intro a b hab
            simp only [Val.num.injEq] at hab
            exact UInt8.toNat_inj.mp hab
          have hbl : bs.length = n := by rw [← heq]; exact hlen
          exact Or.inl ⟨q, h1, by omega, by omega, by rw [hbl]; exact heq⟩
        | elem hk => exact absurd rfl hk
      have hold : k ≠ .view → ∀ o ∈ old.elems, ∀ bs, HasView c.env t o bs → HasView c.env (.seq k sz t) old bs := by
        intro hk o ho bs h
        cases old with
        | list os => exact .elem hk ho h
        | _ => simp [Val.elems] at ho
      have hbody : k ≠ .view → ∀ (k' : SeqKind) (olds : List Val) (q : Nat), q ≤ data.length → p ≤ q →
          (∀ o ∈ olds, ∀ bs, HasView c.env t o bs → bs = [] ∨ HasView c.env (.seq k sz t) old bs) →
          Windows c.env data (.seq k sz t) old p (seqBody c k' t (fun v p => decode d c t v data p) olds data q) := by
        intro hk k' olds q hq hpq ho bs h
        have hs := seqBody_safe (c := c) (k := k') (t := t) (rec := fun v p => decode d c t v data p)
          (fun v p hp => decode_safe d c t v data p henv hw hp) olds q hq
        rcases seqBody_win (k := k') (ha.pos t) hq hk (hmono t hw) (fun o q hq => ih c t o data q ha henv hw hq) ho hs.mono bs h
          with h | h
        · exact Or.inl (window_mono h hpq (Nat.le_refl _))
        · exact Or.inr h
      rw [decode]
      split
      · unfold seqUnsized
        cases k with
        | view =>
          simp only
          rw [if_neg (by omega)]
          have := hview p (data.length - p) data.length (Nat.le_refl _) (by omega) (by omega)
          rwa [List.take_of_length_le (by simp)] at this
        | _ => exact hbody (by simp) _ _ _ hp (Nat.le_refl _) (fun o ho bs h => Or.inr (hold (by simp) o ho bs h))
      · have h1 := decHdr_safe (c := c) (effSz c sz) hp
        generalize decHdr c (effSz c sz) data p = r at *
        obtain ⟨s, n, p1⟩ := r
        cases s <;> simp only <;> try exact hfail (by simp)
        dsimp only at h1
        unfold seqFill
        cases k with
        | view =>
          simp only
          split
          · exact hfail (by simp)
          · split
            · next h2 => exact hview p1 n _ h1.mono h2 (Nat.le_refl _)
            · exact hfail (by simp)
        | span =>
          simp only
          split
          · exact hfail (by simp)
          · exact hbody (by simp) _ _ _ h1.inb h1.mono
              (fun o ho bs h => Or.inr (hold (by simp) o (List.mem_of_mem_take ho) bs h))
        | _ =>
          simp only
          split
          · exact hfail (by simp)
          · split
            · exact hfail (by simp)
            · refine hbody (by simp) _ _ _ h1.inb h1.mono (fun o ho bs h => ?_)
              rcases resizeVals_mem ho with h' | h'
              · exact Or.inr (hold (by simp) o h' bs h)
              · rw [h'] at h; exact Or.inl (dflt_view c d t bs h)
    | assoc mu hs sz key m =>
      rw [decode]
      have h1 := decHdr_safe (c := c) (effSz c sz) hp
      generalize decHdr c (effSz c sz) data p = r at *
      obtain ⟨s, n, p1⟩ := r
      cases s <;> simp only <;> try exact hfail (by simp)
      dsimp only at h1
      intro bs h
      cases m with
      | none =>
        dsimp only at h ⊢
        have hwin := decAssoc_win (len := data.length) (elem := fun p => decode d c key (dflt c d key) data p)
          (ins := assocInsert (c.keyLt key) mu hs (none : Option Ty).isSome) (fun _ _ _ h => assocInsert_mem h)
          (hmono key hw (dflt c d key)) n [] p1 h1.inb
        generalize decAssoc (fun p => decode d c key (dflt c d key) data p)
          (assocInsert (c.keyLt key) mu hs (none : Option Ty).isSome) n [] p1 = r at h hwin ⊢
        generalize hv : r.toRes.v = v at h
        cases h with
        | setElem hv' h =>
          simp only [ResL.toRes, Val.list.injEq] at hv
          subst hv
          rcases hwin.2 _ hv' with h' | ⟨q, g1, g2, g3, g4, g5⟩
          · simp at h'
          · rw [g3] at h
            have := h1.mono
            rcases ih c key _ data q ha henv hw g2 bs h with h | ⟨h2, _⟩
            · exact Or.inl (window_mono h (by omega) g4)
            · exact absurd g5 h2
      | some m =>
        simp only [widthsOk, Bool.and_eq_true] at hw
        dsimp only at h ⊢
        have hwt : ∀ t ∈ [key, m], widthsOk t = true := by
          intro t ht
          simp only [List.mem_cons, List.not_mem_nil, or_false] at ht
          rcases ht with rfl | rfl
          · exact hw.1
          · exact hw.2
        have hf := fun q hq => decFields_win (len := data.length) (rec := fun t v p => decode d c t v data p) [key, m]
          [dflt c d key, dflt c d m] q hq (fun t ht => hmono t (hwt t ht))
        have hwin := decAssoc_win (len := data.length)
          (elem := fun p => (decFields (fun t v p => decode d c t v data p) [key, m] [dflt c d key, dflt c d m] p).toRes)
          (ins := assocInsert (c.keyLt key) mu hs (some m).isSome) (fun _ _ _ h => assocInsert_mem h)
          (fun q hq => (hf q hq).1) n [] p1 h1.inb
        generalize decAssoc
          (fun p => (decFields (fun t v p => decode d c t v data p) [key, m] [dflt c d key, dflt c d m] p).toRes)
          (assocInsert (c.keyLt key) mu hs (some m).isSome) n [] p1 = r at h hwin ⊢
        generalize hv : r.toRes.v = v at h
        cases h with
        | mapElem hv' h =>
          simp only [ResL.toRes, Val.list.injEq] at hv
          subst hv
          rcases hwin.2 _ hv' with h' | ⟨q, g1, g2, g3, g4, g5⟩
          · simp at h'
          · have := h1.mono
            rw [g3] at h
            simp only [ResL.toRes] at h g4 g5
            cases h with
            | member i hf' hv' h =>
              rcases (hf q g2).2 i _ _ hf' hv' with ⟨q', k1, k2, k3, k4, k5⟩ | ⟨_, k2⟩
              · rw [k3] at h
                rcases ih c _ _ data q' ha henv (hwt _ (List.mem_of_getElem? hf')) k2 bs h with h | ⟨h2, _⟩
                · exact Or.inl (window_mono h (by omega) (Nat.le_trans k4 g4))
                · exact absurd (k5 g5) h2
              · exact absurd g5 k2
    | optional dc t =>
      unfold decode
      have h1 := (getBytes_safe 1 hp).1
      generalize getBytes data p 1 = r at *
      obtain ⟨s, b, p1⟩ := r
      cases s <;> simp only <;> try exact hfail (by simp)
      dsimp only at h1
      have hm1 := h1.mono
      by_cases hz : leNat b = 0
      · simp only [hz, if_true]; intro bs h; cases h
      · simp only [hz, if_false]
        cases dc with
        | true =>
          simp only [if_true]
          intro bs h
          cases h with
          | optional h =>
            rcases ih c t _ data p1 ha henv hw h1.inb bs h with h | ⟨h2, h⟩
            · exact Or.inl (window_mono h hm1 (Nat.le_refl _))
            · cases old with
              | some v => exact Or.inr ⟨h2, .optional h⟩
              | _ =>
                dsimp only at h
                have hn := dflt_view c d t bs h
                subst hn
                have hq := (hmono t hw (dflt c d t) p1 h1.inb).1
                exact Or.inl (window_nil (Nat.le_trans hm1 hq) hp)
        | false =>
          have := ih c t (dflt c d t) data p1 ha henv hw h1.inb
          simp only [Bool.false_eq_true, if_false]
          generalize decode d c t (dflt c d t) data p1 = r at this ⊢
          obtain ⟨s, v, p2⟩ := r
          cases s <;> simp only <;> try exact hfail (by simp)
          intro bs h
          cases h with
          | optional h =>
            rcases this bs h with h | ⟨h2, _⟩
            · exact Or.inl (window_mono h hm1 (Nat.le_refl _))
            · exact absurd rfl h2
    | optPtr t =>
      rw [decode]
      have h1 := (getBytes_safe 1 hp).1
      generalize getBytes data p 1 = r at *
      obtain ⟨s, b, p1⟩ := r
      cases s <;> simp only <;> try exact hfail (by simp)
      dsimp only at h1
      have hm1 := h1.mono
      split
      · intro bs h; cases h
      · have := ih c t (dflt c d t) data p1 ha henv hw h1.inb
        generalize decode d c t (dflt c d t) data p1 = r at this ⊢
        obtain ⟨s, v, p2⟩ := r
        cases s <;> simp only <;> try exact hfail (by simp)
        intro bs h
        cases h with
        | optPtr h =>
          rcases this bs h with h | ⟨h2, _⟩
          · exact Or.inl (window_mono h hm1 (Nat.le_refl _))
          · exact absurd rfl h2
    | uptr t =>
      rw [decode]
      have := ih c t (dflt c d t) data p ha henv hw hp
      generalize decode d c t (dflt c d t) data p = r at this ⊢
      obtain ⟨s, v, p2⟩ := r
      cases s <;> simp only <;> try exact hfail (by simp)
      intro bs h
      cases h with
      | uptr h =>
        rcases this bs h with h | ⟨h2, _⟩
        · exact Or.inl h
        · exact absurd rfl h2
    | variant idTy ids dcs alts =>
      simp only [widthsOk, Bool.and_eq_true] at hw
      rw [decode]
      have h1 := decode_safe d c idTy (dflt c d idTy) data p henv hw.1 hp
      generalize decode d c idTy (dflt c d idTy) data p = r at *
      obtain ⟨s, id, p1⟩ := r
      cases s <;> simp only <;> try exact hfail (by simp)
      dsimp only at h1
      have hm1 := h1.mono
      split
      · exact hfail (by simp)
      · next i _ =>
        split
        · next t' dc hta _ =>
          have hwt : widthsOk t' = true := widthsOkL_mem hw.2 t' (List.mem_of_getElem? hta)
          unfold decAlt
          split
          · intro bs h
            cases h with
            | alt ha' h =>
              rw [hta] at ha'
              cases ha'
              rcases ih c t' _ data p1 ha henv hwt h1.inb bs h with h | ⟨h2, h⟩
              · exact Or.inl (window_mono h hm1 (Nat.le_refl _))
              · have hd : ∀ o, HasView c.env t' (dflt c d t') bs → Window data p (decode d c t' o data p1).p bs := by
                  intro o h
                  have hn := dflt_view c d t' bs h
                  subst hn
                  exact window_nil (Nat.le_trans hm1 (hmono t' hwt o p1 h1.inb).1) hp
                cases old with
                | alt j v =>
                  dsimp only at h h2 ⊢
                  by_cases hj : j = i
                  · subst hj
                    rw [if_pos rfl] at h
                    exact Or.inr ⟨h2, .alt hta h⟩
                  · rw [if_neg hj] at h
                    exact Or.inl (hd _ h)
                | _ => exact Or.inl (hd _ h)
          · have := ih c t' (dflt c d t') data p1 ha henv hwt h1.inb
            dsimp only
            generalize decode d c t' (dflt c d t') data p1 = r at this ⊢
            obtain ⟨s, v, p2⟩ := r
            cases s <;> simp only <;> try exact hfail (by simp)
            intro bs h
            cases h with
            | alt ha' h =>
              rw [hta] at ha'
              cases ha'
              rcases this bs h with h | ⟨h2, _⟩
              · exact Or.inl (window_mono h hm1 (Nat.le_refl _))
              · exact absurd rfl h2
        · exact hfail (by simp)

end Zpp
