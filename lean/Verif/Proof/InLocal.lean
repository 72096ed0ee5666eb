import Verif.Proof.InOld
/-! # A successful read depends only on the bytes it consumed -/

namespace Zpp
open Spec

/-- An operation reading from an input at a position. -/
abbrev Run (α : Type) := List UInt8 → Nat → Status × α × Nat

/-- The bytes `w` are read as `a`, whatever surrounds them; cut short, they are refused. -/
structure RunsTo {α : Type} (F : Run α) (w : List UInt8) (a : α) : Prop where
  full : ∀ data p rest, p ≤ data.length → data.drop p = w ++ rest → F data p = (.ok, a, p + w.length)
  cut : ∀ data p y, p ≤ data.length → w = data.drop p ++ y → y ≠ [] → (F data p).1 = .err .resultOutOfRange

/-- Every successful run is determined by the bytes it consumed (and not by the index, i.e. the destination). -/
def Loc {ι α : Type} (F : ι → Run α) : Prop :=
  ∀ i data p a p1, p ≤ data.length → F i data p = (.ok, a, p1) →
    ∃ w rest, data.drop p = w ++ rest ∧ p1 = p + w.length ∧ ∀ j, RunsTo (F j) w a

/-- `Res` as a triple. -/
def Res.t (r : Res) : Status × Val × Nat := (r.s, r.v, r.p)
/-- `ResL` as a triple. -/
def ResL.t (r : ResL) : Status × List Val × Nat := (r.s, r.vs, r.p)

theorem RunsTo.bind {α β : Type} {F : Run α} {K G : Run β} {w1 w2 : List UInt8} {a : α} {b : β}
    (h1 : RunsTo F w1 a) (h2 : RunsTo K w2 b)
    (hok : ∀ data p p1, F data p = (.ok, a, p1) → G data p = K data p1)
    (hbad : ∀ data p, (F data p).1 ≠ .ok → (G data p).1 = (F data p).1) : RunsTo G (w1 ++ w2) b := by
  constructor
  · intro data p rest hp hd
    rw [List.append_assoc] at hd
    have hl : p + w1.length ≤ data.length := by
      have := congrArg List.length hd; simp at this; omega
    rw [hok data p _ (h1.full data p _ hp hd)]
    rw [h2.full data (p + w1.length) rest hl (by rw [← List.drop_drop, hd]; simp)]
    simp [Nat.add_assoc]
  · intro data p y hp hw hy
    by_cases hlen : w1.length ≤ (data.drop p).length
    · obtain ⟨r, hr⟩ : ∃ r, data.drop p = w1 ++ r := by
        rw [List.append_eq_append_iff] at hw
        rcases hw with ⟨a', h1', h2'⟩ | ⟨c', h1', h2'⟩
        · exact ⟨a', h1'⟩
        · have : c' = [] := by
            have := congrArg List.length h1'
            simp only [List.length_append] at this
            exact List.eq_nil_of_length_eq_zero (by omega)
          subst this
          exact ⟨[], by simpa using h1'.symm⟩
      have hl : p + w1.length ≤ data.length := by
        simp only [List.length_drop] at hlen; omega
      rw [hok data p _ (h1.full data p r hp hr)]
      refine h2.cut data _ y hl ?_ hy
      rw [hr, List.append_assoc] at hw
      rw [← List.drop_drop, hr]
      simpa using hw
    · have : ∃ z, w1 = data.drop p ++ z ∧ z ≠ [] := by
        rw [List.append_eq_append_iff] at hw
        rcases hw with ⟨a', h1', h2'⟩ | ⟨c', h1', h2'⟩
        · exfalso; apply hlen; rw [h1']; simp
        · refine ⟨c', h1', ?_⟩
          intro hc; subst hc; apply hlen; rw [h1']; simp
      obtain ⟨z, hz, hz'⟩ := this
      have := h1.cut data p z hp hz hz'
      rw [hbad data p (by rw [this]; simp), this]

theorem Loc.bind {ι κ γ α β : Type} {F : ι → Run α} {K : α → κ → Run β} {G : γ → Run β}
    (φ : γ → ι) (ψ : γ → α → κ) (hF : Loc F) (hK : ∀ a, Loc (K a))
    (hok : ∀ g data p a p1, F (φ g) data p = (.ok, a, p1) → G g data p = K a (ψ g a) data p1)
    (hbad : ∀ g data p, (F (φ g) data p).1 ≠ .ok → (G g data p).1 = (F (φ g) data p).1) : Loc G := by
  intro g data p b p2 hp hg
  cases hf : F (φ g) data p with
  | mk s ap =>
    obtain ⟨a, p1⟩ := ap
    by_cases hs : s = .ok
    · subst hs
      rw [hok g data p a p1 hf] at hg
      obtain ⟨w1, r1, hd1, hp1, hr1⟩ := hF _ _ _ _ _ hp hf
      have hl : p1 ≤ data.length := by
        have := congrArg List.length hd1; simp at this; omega
      obtain ⟨w2, r2, hd2, hp2, hr2⟩ := hK a _ _ _ _ _ hl hg
      refine ⟨w1 ++ w2, r2, ?_, by simp [hp2, hp1, Nat.add_assoc], ?_⟩
      · rw [hd1, List.append_assoc, ← hd2, hp1, ← List.drop_drop, hd1]; simp
      · intro j
        exact (hr1 (φ j)).bind (hr2 (ψ j a)) (fun data p p1 h => hok j data p a p1 h) (fun data p h => hbad j data p h)
    · have := hbad g data p (by rw [hf]; exact hs)
      rw [hg, hf] at this
      exact absurd this.symm hs

/-- Post-processing of the value and re-indexing. -/
theorem Loc.map {ι γ α β : Type} {F : ι → Run α} {G : γ → Run β} (φ : γ → ι) (f : α → β) (hF : Loc F)
    (hok : ∀ g data p a p1, F (φ g) data p = (.ok, a, p1) → G g data p = (.ok, f a, p1))
    (hbad : ∀ g data p, (F (φ g) data p).1 ≠ .ok → (G g data p).1 = (F (φ g) data p).1) : Loc G := by
  refine Loc.bind (κ := Unit) (K := fun a _ _ p => (.ok, f a, p)) φ (fun _ _ => ()) hF ?_ hok hbad
  intro a _ data p b p1 hp h
  cases h
  exact ⟨[], data.drop p, by simp, by simp, fun _ => ⟨by intros; simp, by intro data p y _ h hy; simp at h; exact absurd h.2 hy⟩⟩

/-- Constant success. -/
theorem Loc.pure {ι α : Type} (a : α) : Loc (fun (_ : ι) (_ : List UInt8) p => (Status.ok, a, p)) := by
  intro _ data p b p1 hp h
  cases h
  exact ⟨[], data.drop p, by simp, by simp, fun _ => ⟨by intros; simp, by intro data p y _ h hy; simp at h; exact absurd h.2 hy⟩⟩

/-- Failure. -/
theorem Loc.fail {ι α : Type} {F : ι → Run α} (h : ∀ i data p, (F i data p).1 ≠ .ok) : Loc F := by
  intro i data p a p1 _ hf
  exact absurd (by rw [hf]) (h i data p)

theorem getBytes_loc (n : Nat) : Loc (fun (_ : Unit) data p => getBytes data p n) := by
  intro _ data p a p1 hp h
  dsimp only at h
  have h2 := (getBytes_safe n hp).2 (by rw [h])
  rw [h] at h2
  obtain ⟨h3, h4, h5⟩ := h2
  dsimp only at h3 h5
  have hlen : a.length = n := by rw [h5]; simp; omega
  refine ⟨a, data.drop (p + n), ?_, by omega, fun _ => ⟨?_, ?_⟩⟩
  · rw [h5, ← List.drop_drop, List.take_append_drop]
  · intro data p rest hp hd
    have : p + n ≤ data.length := by have := congrArg List.length hd; simp at this; omega
    dsimp only
    unfold getBytes
    rw [subSz_of_le hp, if_neg (by omega), if_pos this, hd, ← hlen]
    simp
  · intro data p y hp hw hy
    have : data.length - p < n := by
      have h6 := congrArg List.length hw
      have : 0 < y.length := List.length_pos_iff.mpr hy
      simp at h6; omega
    dsimp only
    unfold getBytes
    rw [subSz_of_le hp, if_pos this]

theorem readVarint_cut {n : Nat} (hn : IntWidth n) {x y : List UInt8} {v len : Nat} (hlen : (x ++ y).length = len) (hy : y ≠ [])
    (h : readVarintRaw n (x ++ y) = .ok v len) : readVarintRaw n x = .err .resultOutOfRange := by
  rw [(Props.C21_varint_decoder n hn _).2] at h
  cases hp : lebPrefix (x ++ y) with
  | none => rw [hp] at h; simp only at h; split at h <;> cases h
  | some g =>
    rw [hp] at h; simp only at h
    split at h
    · rename_i hg
      cases h
      have hyl : 0 < y.length := List.length_pos_iff.mpr hy
      simp only [List.length_append] at hlen
      rw [(Props.C21_varint_decoder n hn _).2]
      cases hx : lebPrefix x with
      | none => simp only; rw [if_pos (by omega)]
      | some g' =>
        have h1 := lebPrefix_append hx y
        rw [hp] at h1
        cases h1
        have := (lebPrefix_length hx)
        omega
    · cases h

theorem getVarint_loc {n : Nat} (hn : IntWidth n) (zz : Bool) : Loc (fun (old : Val) data p => (getVarint n zz old data p).t) := by
  intro old data p a p1 hp h
  dsimp only at h
  unfold getVarint at h
  rw [if_neg (by omega)] at h
  cases hr : readVarintRaw n (data.drop p) with
  | err e => rw [hr] at h; simp [Res.t] at h
  | ub => rw [hr] at h; simp [Res.t] at h
  | ok x len =>
    rw [hr] at h
    simp only [Res.t, Prod.mk.injEq, true_and] at h
    obtain ⟨h1, h2⟩ := h
    obtain ⟨_, _, h3⟩ := (Props.C23_varint_no_ub n hn (data.drop p)).2.2 x len hr
    have h4 := (Props.C21_varint_suffix_irrelevant n hn _ [] x len hr).2
    have hl : ((data.drop p).take len).length = len := by simp at h3 ⊢; omega
    refine ⟨(data.drop p).take len, (data.drop p).drop len, (List.take_append_drop _ _).symm, by rw [hl, h2], fun old' => ⟨?_, ?_⟩⟩
    · intro data' p' rest hp' hd
      have := (Props.C21_varint_suffix_irrelevant n hn _ rest x len h4).1
      dsimp only
      unfold getVarint
      rw [if_neg (by omega), hd, this, hl, ← h1]
      rfl
    · intro data' p' y hp' hw hy
      dsimp only
      unfold getVarint
      rw [if_neg (by omega)]
      rw [hw] at h4 hl
      rw [readVarint_cut hn hl hy h4]
      rfl

theorem decHdr_loc (c : Cfg) (sz : SizeTy) : Loc (fun (_ : Unit) data p => decHdr c sz data p) := by
  cases sz with
  | fixed k =>
    refine (getBytes_loc k).map (fun _ => ()) (fun bs => ioNat c bs) ?_ ?_
    · intro _ data p a p1 h; simp only [decHdr, h]
    · intro _ data p h
      unfold decHdr
      dsimp only
      generalize getBytes data p k = r at *
      obtain ⟨s, bs, p'⟩ := r
      cases s <;> first | exact absurd rfl h | rfl
  | varint =>
    refine (getVarint_loc intWidth8 false).bind (κ := Unit)
      (K := fun a _ _ p => match a with | .num x => (.ok, x, p) | _ => (.illFormed, 0, p)) (fun _ => .num 0) (fun _ _ => ()) ?_ ?_ ?_
    · intro a
      cases a
      case num x => exact Loc.pure x
      all_goals exact Loc.fail (by intros; simp)
    · intro _ data p a p1 h
      simp only [decHdr]
      generalize getVarint 8 false (.num 0) data p = r at *
      obtain ⟨s, v, p'⟩ := r
      cases h
      cases v <;> rfl
    · intro _ data p h
      simp only [decHdr]
      generalize getVarint 8 false (.num 0) data p = r at *
      obtain ⟨s, v, p'⟩ := r
      cases s <;> first | exact absurd rfl h | rfl
  | none => exact Loc.fail (by intro _ _ _ h; cases h)

theorem decAll_loc {rec : Val → List UInt8 → Nat → Res} (h : Loc (fun v data p => (rec v data p).t)) :
    ∀ n, Loc (fun (olds : {l : List Val // l.length = n}) data p => (decAll (fun v p => rec v data p) olds.1 p).t) := by
  intro n
  induction n with
  | zero =>
    refine (Loc.pure (ι := Unit) ([] : List Val)).map (fun _ => ()) id ?_ ?_
    · intro g data p a p1 h
      obtain ⟨l, hl⟩ := g
      have : l = [] := List.eq_nil_of_length_eq_zero hl
      subst this
      cases h; rfl
    · intro g data p h; exact absurd rfl h
  | succ n ih =>
    refine h.bind (γ := {l : List Val // l.length = n + 1}) (κ := {l : List Val // l.length = n})
      (K := fun v olds data p => ((decAll (fun v p => rec v data p) olds.1 p).s, v :: (decAll (fun v p => rec v data p) olds.1 p).vs,
        (decAll (fun v p => rec v data p) olds.1 p).p))
      (fun g => g.1.headD .unit) (fun g _ => ⟨g.1.tail, by simp [g.2]⟩) ?_ ?_ ?_
    · intro v
      refine ih.map id (fun vs => v :: vs) ?_ ?_
      · intro g data p a p1 h
        simp only [ResL.t, id, Prod.mk.injEq] at h ⊢
        exact ⟨h.1, by rw [h.2.1], h.2.2⟩
      · intro g data p h; rfl
    · intro g data p a p1 h
      obtain ⟨l, hl⟩ := g
      cases l with
      | nil => simp at hl
      | cons o os =>
        simp only [List.headD_cons, List.tail_cons] at h ⊢
        simp only [decAll]
        generalize rec o data p = r at *
        obtain ⟨s, v, p'⟩ := r
        cases h
        rfl
    · intro g data p h
      obtain ⟨l, hl⟩ := g
      cases l with
      | nil => simp at hl
      | cons o os =>
        simp only [List.headD_cons] at h ⊢
        simp only [decAll]
        generalize rec o data p = r at *
        obtain ⟨s, v, p'⟩ := r
        cases s <;> first | exact absurd rfl h | rfl

theorem decFields_loc {rec : Ty → Val → List UInt8 → Nat → Res} : ∀ ts, (∀ t ∈ ts, Loc (fun v data p => (rec t v data p).t)) →
    Loc (fun (olds : List Val) data p => (decFields (fun t v p => rec t v data p) ts olds p).t) := by
  intro ts
  induction ts with
  | nil => intro _; exact Loc.pure []
  | cons t ts ih =>
    intro h
    refine (h t (by simp)).bind (γ := List Val) (κ := List Val)
      (K := fun v olds data p => ((decFields (fun t v p => rec t v data p) ts olds p).s,
        v :: (decFields (fun t v p => rec t v data p) ts olds p).vs, (decFields (fun t v p => rec t v data p) ts olds p).p))
      (fun g => g.headD .unit) (fun g _ => g.tail) ?_ ?_ ?_
    · intro v
      refine (ih (fun t' ht => h t' (by simp [ht]))).map id (fun vs => v :: vs) ?_ ?_
      · intro g data p a p1 h
        simp only [ResL.t, id, Prod.mk.injEq] at h ⊢
        exact ⟨h.1, by rw [h.2.1], h.2.2⟩
      · intro g data p h; rfl
    · intro g data p a p1 h
      simp only [decFields]
      generalize rec t (g.headD .unit) data p = r at *
      obtain ⟨s, v, p'⟩ := r
      cases h
      rfl
    · intro g data p h
      simp only [decFields]
      generalize rec t (g.headD .unit) data p = r at *
      obtain ⟨s, v, p'⟩ := r
      cases s <;> first | exact absurd rfl h | rfl

theorem decRep_loc {c : Cfg} {t : Ty} {n : Nat} (hso : 0 < c.sizeof t) :
    Loc (fun (olds : {l : List Val // l.length = n}) data p => (decRep c t n olds.1 data p).t) := by
  cases n with
  | zero =>
    refine (Loc.pure (ι := Unit) ([] : List Val)).map (fun _ => ()) id ?_ ?_
    · intro g data p a p1 h
      obtain ⟨l, hl⟩ := g
      have : l = [] := List.eq_nil_of_length_eq_zero hl
      subst this
      cases h; simp [decRep, ResL.t]
    · intro g data p h; exact absurd rfl h
  | succ n =>
    have hz : (n + 1) * c.sizeof t ≠ 0 := by
      intro h; rcases Nat.mul_eq_zero.mp h with h | h <;> omega
    refine (getBytes_loc ((n + 1) * c.sizeof t)).map (fun _ => ()) (fun bs => unrepAll c.host c.sizeof t (n + 1) bs) ?_ ?_
    · intro g data p a p1 h
      simp only [decRep, if_neg hz, h]; rfl
    · intro g data p h
      simp only [decRep, if_neg hz]
      generalize getBytes data p ((n + 1) * c.sizeof t) = r at *
      obtain ⟨s, bs, p'⟩ := r
      cases s <;> first | exact absurd rfl h | rfl

theorem decAssoc_loc {elem : List UInt8 → Nat → Res} {ins : Val → List Val → List Val} (h : Loc (fun (_ : Unit) data p => (elem data p).t)) :
    ∀ n vs, Loc (fun (_ : Unit) data p => (decAssoc (fun p => elem data p) ins n vs p).t) := by
  intro n
  induction n with
  | zero => intro vs; exact Loc.pure vs
  | succ n ih =>
    intro vs
    refine h.bind (K := fun v _ data p => (decAssoc (fun p => elem data p) ins n (ins v vs) p).t) (fun _ => ()) (fun _ _ => ()) ?_ ?_ ?_
    · intro v; exact ih (ins v vs)
    · intro g data p a p1 h
      simp only [decAssoc]
      generalize elem data p = r at *
      obtain ⟨s, v, p'⟩ := r
      cases h
      rfl
    · intro g data p h
      simp only [decAssoc]
      generalize elem data p = r at *
      obtain ⟨s, v, p'⟩ := r
      cases s <;> first | exact absurd rfl h | rfl

theorem Loc.toRes {ι : Type} {F : ι → List UInt8 → Nat → ResL} (h : Loc (fun i data p => (F i data p).t)) :
    Loc (fun i data p => (F i data p).toRes.t) :=
  h.map id Val.list
    (by
      intro g data p a p1 h
      simp only [ResL.t, ResL.toRes, Res.t, id, Prod.mk.injEq] at h ⊢
      exact ⟨h.1, by rw [h.2.1], h.2.2⟩)
    (by intro g data p h; rfl)

theorem Loc.reindex {ι γ α : Type} {F : ι → Run α} (φ : γ → ι) (h : Loc F) : Loc (fun g => F (φ g)) :=
  h.map φ id (fun _ _ _ _ _ h => h) (fun _ _ _ _ => rfl)

theorem seqBody_loc {c : Cfg} {k : SeqKind} {t : Ty} {rec : Val → List UInt8 → Nat → Res} (hso : 0 < c.sizeof t)
    (h : Loc (fun v data p => (rec v data p).t)) (n : Nat) :
    Loc (fun (olds : {l : List Val // l.length = n}) data p => (seqBody c k t (fun v p => rec v data p) olds.1 data p).t) := by
  by_cases hb : k ≠ .list ∧ asBytes c t = true
  · have := (decRep_loc (n := n) hso).toRes
    refine this.map id id ?_ ?_
    · intro g data p a p1 h
      simp only [seqBody]; rw [if_pos hb, g.2]; exact h
    · intro g data p h
      simp only [seqBody]; rw [if_pos hb, g.2]; rfl
  · refine (decAll_loc h n).toRes.map id id ?_ ?_
    · intro g data p a p1 h
      simp only [seqBody]; rw [if_neg hb]; exact h
    · intro g data p h
      simp only [seqBody]; rw [if_neg hb]; rfl

theorem seqFill_loc {c : Cfg} {k : SeqKind} {t : Ty} {rec : Val → List UInt8 → Nat → Res} (hso : 0 < c.sizeof t)
    (h : Loc (fun v data p => (rec v data p).t)) (hk : k ≠ .span) (dv : Val) (n : Nat) :
    Loc (fun (old : Val) data p => (seqFill c k t (fun v p => rec v data p) dv old data n p).t) := by
  have hres : k ≠ .view → Loc (fun (old : Val) data p => (seqFill c k t (fun v p => rec v data p) dv old data n p).t) := by
    intro hv
    by_cases h1 : c.g.limit ≠ sizeMax ∧ c.g.limit / c.sizeof t < n
    · refine Loc.fail ?_
      intro old data p
      cases k <;> simp only [seqFill, if_pos h1] <;> first | (simp [Res.t]; done) | contradiction
    · by_cases h2 : c.g.maxMem < n * c.sizeof t
      · refine Loc.fail ?_
        intro old data p
        cases k <;> simp only [seqFill, if_neg h1, if_pos h2] <;> first | (simp [Res.t]; done) | contradiction
      · have := (seqBody_loc (k := k) hso h n).reindex (fun (old : Val) => ⟨resizeVals old.elems n dv, by simp⟩)
        refine this.map id id ?_ ?_
        · intro g data p a p1 h
          cases k <;> simp only [seqFill, if_neg h1, if_neg h2] <;> first | exact h | contradiction
        · intro g data p h
          cases k <;> simp only [seqFill, if_neg h1, if_neg h2] <;> first | rfl | contradiction
  cases k with
  | view =>
    refine (getBytes_loc n).map (fun _ => ()) (fun bs => .list (unrepAll c.host c.sizeof t n bs)) ?_ ?_
    · intro g data p a p1 h
      unfold getBytes at h
      simp only [seqFill]
      split at h
      · cases h
      · split at h
        · next h1 h2 => rw [if_neg h1, if_pos h2]; cases h; rfl
        · cases h
    · intro g data p h
      unfold getBytes at h ⊢
      simp only [seqFill]
      split
      · rfl
      · split
        · next h1 h2 => rw [if_neg h1, if_pos h2] at h; exact absurd rfl h
        · rfl
  | span => exact absurd rfl hk
  | vector => exact hres (by simp)
  | list => exact hres (by simp)

theorem selfDelimitingL_mem {dsz : SizeTy} {ts : List Ty} (h : selfDelimitingL dsz ts = true) :
    ∀ t ∈ ts, selfDelimiting dsz t = true := by
  induction ts with
  | nil => intro t ht; cases ht
  | cons a as ih =>
    simp only [selfDelimitingL, Bool.and_eq_true] at h
    intro t ht
    rcases List.mem_cons.mp ht with e | e
    · subst e; exact h.1
    · exact ih h.2 t e

theorem wrapSome_loc {rec : List UInt8 → Nat → Res} (h : Loc (fun (_ : Unit) data p => (rec data p).t)) {G : Val → List UInt8 → Nat → Res}
    (f : Val → Val)
    (hok : ∀ old data p v p1, rec data p = ⟨.ok, v, p1⟩ → G old data p = ⟨.ok, f v, p1⟩)
    (hbad : ∀ old data p, (rec data p).s ≠ .ok → (G old data p).s = (rec data p).s) :
    Loc (fun old data p => (G old data p).t) := by
  refine h.map (fun _ => ()) f ?_ ?_
  · intro g data p a p1 h
    have : rec data p = ⟨.ok, a, p1⟩ := by
      generalize rec data p = r at *; obtain ⟨s, v, p'⟩ := r; cases h; rfl
    rw [hok g data p a p1 this]; rfl
  · intro g data p h; exact hbad g data p h

theorem Loc.at {ι α : Type} {F : ι → Run α} (h : Loc F) (i : ι) : Loc (fun (_ : Unit) => F i) := h.reindex (fun _ => i)

theorem decode_seq {d : Nat} {c : Cfg} {k : SeqKind} {sz : Option SizeTy} {t : Ty} {old : Val} {data : List UInt8} {p : Nat}
    (he : effSz c sz ≠ .none) :
    decode (d + 1) c (.seq k sz t) old data p =
      match decHdr c (effSz c sz) data p with
      | (.ok, n, p1) => seqFill c k t (fun v p => decode d c t v data p) (dflt c d t) old data n p1
      | (s', _, p1) => ⟨s', old, p1⟩ := by
  rw [decode]
  split
  · next e => exact absurd e he
  · rfl

theorem decode_loc (c : Cfg) (habi : ∀ t, 0 < c.sizeof t)
    (henv : ∀ i, widthsOk (c.env i) = true ∧ selfDelimiting c.dsz (c.env i) = true) :
    ∀ (d : Nat) (t : Ty), widthsOk t = true → selfDelimiting c.dsz t = true →
    Loc (fun old data p => (decode d c t old data p).t) := by
  intro d
  induction d with
  | zero => intro t _ _; exact Loc.fail (by intro _ _ _ h; cases h)
  | succ d ih =>
    intro t hw hs
    cases t with
    | scalar k n =>
      refine (getBytes_loc n).map (fun _ => ()) (fun bs => .num (ioNat c bs)) ?_ ?_
      · intro g data p a p1 h; simp only [decode, h]; rfl
      · intro g data p h
        simp only [decode]
        generalize getBytes data p n = r at *
        obtain ⟨s, bs, p'⟩ := r
        cases s <;> first | exact absurd rfl h | rfl
    | bool =>
      refine (getBytes_loc 1).map (fun _ => ()) (fun bs => .num (leNat bs)) ?_ ?_
      · intro g data p a p1 h; simp only [decode, h]; rfl
      · intro g data p h
        simp only [decode]
        generalize getBytes data p 1 = r at *
        obtain ⟨s, bs, p'⟩ := r
        cases s <;> first | exact absurd rfl h | rfl
    | varint n zz => exact getVarint_loc (intWidth_iff.mp hw) zz
    | empty => exact Loc.pure Val.unit
    | struct ok fs =>
      by_cases hb : asBytes c (.struct ok fs) = true
      · refine (decRep_loc (c := c) (t := .struct ok fs) (n := 1) (habi _)).map (fun old => ⟨[old], rfl⟩)
          (fun vs => vs.headD .unit) ?_ ?_
        · intro g data p a p1 h
          simp only [decode, if_pos hb]
          simp only [ResL.t, Prod.mk.injEq] at h
          simp only [Res.t, h.1, h.2.1, h.2.2]
        · intro g data p h
          simp only [decode, if_pos hb, Res.t, ResL.t]
      · have := (decFields_loc (rec := decode d c) fs (fun t ht => ih t (widthsOkL_mem hw t ht) (selfDelimitingL_mem hs t ht))).toRes
        refine this.map (fun old => old.elems) id ?_ ?_
        · intro g data p a p1 h
          simp only [decode]; rw [if_neg hb]; exact h
        · intro g data p h
          simp only [decode]; rw [if_neg hb]
    | array n t' =>
      by_cases hb : asBytes c t' = true
      · refine ((decRep_loc (n := n) (habi t')).reindex (fun (old : Val) => ⟨resizeVals old.elems n .unit, by simp⟩)).toRes.map id id ?_ ?_
        · intro g data p a p1 h
          simp only [decode]; rw [if_pos hb]; exact h
        · intro g data p h
          simp only [decode]; rw [if_pos hb]; rfl
      · refine ((decAll_loc (ih t' hw hs) n).reindex (fun (old : Val) => ⟨resizeVals old.elems n .unit, by simp⟩)).toRes.map id id ?_ ?_
        · intro g data p a p1 h
          simp only [decode]; rw [if_neg hb]; exact h
        · intro g data p h
          simp only [decode]; rw [if_neg hb]; rfl
    | seq k sz t' =>
      simp only [selfDelimiting, Bool.and_eq_true, bne_iff_ne] at hs
      have he : effSz c sz ≠ .none := hs.1.2
      refine (decHdr_loc c (effSz c sz)).bind (K := fun n old data p =>
        (seqFill c k t' (fun v p => decode d c t' v data p) (dflt c d t') old data n p).t) (fun _ => ()) (fun old _ => old) ?_ ?_ ?_
      · intro n; exact seqFill_loc (habi t') (ih t' hw hs.2) hs.1.1 _ n
      · intro g data p a p1 h
        rw [decode_seq he, h]
      · intro g data p h
        rw [decode_seq he]
        generalize decHdr c (effSz c sz) data p = r at *
        obtain ⟨s, n, p'⟩ := r
        cases s <;> first | exact absurd rfl h | rfl
    | assoc mu ha sz key m =>
      refine (decHdr_loc c (effSz c sz)).bind (κ := Unit) (K := fun n _ data p =>
        (decAssoc (fun p => match m with
          | none => decode d c key (dflt c d key) data p
          | some m => (decFields (fun t v p => decode d c t v data p) [key, m] [dflt c d key, dflt c d m] p).toRes)
          (assocInsert (c.keyLt key) mu ha m.isSome) n [] p).toRes.t) (fun _ => ()) (fun old _ => ()) ?_ ?_ ?_
      · intro n
        cases m with
        | none =>
          exact (decAssoc_loc (elem := fun data p => decode d c key (dflt c d key) data p) ((ih key hw hs).at _) n []).toRes
        | some m =>
          simp only [widthsOk, selfDelimiting, Bool.and_eq_true] at hw hs
          have := (decFields_loc (rec := decode d c) [key, m] (by
            intro t ht
            simp only [List.mem_cons, List.not_mem_nil, or_false] at ht
            rcases ht with rfl | rfl
            · exact ih _ hw.1 hs.1
            · exact ih _ hw.2 hs.2)).toRes
          exact (decAssoc_loc (elem := fun data p => (decFields (fun t v p => decode d c t v data p) [key, m]
            [dflt c d key, dflt c d m] p).toRes) (this.at _) n []).toRes
      · intro g data p a p1 h
        simp only [decode]
        rw [h]
        rfl
      · intro g data p h
        simp only [decode]
        generalize decHdr c (effSz c sz) data p = r at *
        obtain ⟨s, n, p'⟩ := r
        cases s <;> first | exact absurd rfl h | rfl
    | optional dc t' =>
      refine (getBytes_loc 1).bind (K := fun bs old data p =>
        (if leNat bs = 0 then (⟨.ok, .none, p⟩ : Res) else if dc = true then
          (let r := decode d c t' (match old with | .some v => v | _ => dflt c d t') data p; ⟨r.s, .some r.v, r.p⟩)
          else match decode d c t' (dflt c d t') data p with
          | ⟨.ok, v, p2⟩ => ⟨.ok, .some v, p2⟩
          | ⟨s, _, p2⟩ => ⟨s, old, p2⟩).t) (fun _ => ()) (fun old _ => old) ?_ ?_ ?_
      · intro bs
        by_cases h0 : leNat bs = 0
        · simp only [if_pos h0]; exact Loc.pure Val.none
        · simp only [if_neg h0]
          cases dc
          · simp only [Bool.false_eq_true, if_false]
            refine wrapSome_loc ((ih t' hw hs).at (dflt c d t')) Val.some ?_ ?_
            · intro old data p v p1 h; simp only [h]
            · intro old data p h
              generalize decode d c t' (dflt c d t') data p = r at *
              obtain ⟨s, n, p'⟩ := r
              cases s <;> first | exact absurd rfl h | rfl
          · simp only [if_true]
            refine (ih t' hw hs).map (fun old => match old with | .some v => v | _ => dflt c d t') Val.some ?_ ?_
            · intro g data p a p1 h
              simp only [Res.t, Prod.mk.injEq] at h ⊢
              exact ⟨h.1, by rw [h.2.1], h.2.2⟩
            · intro g data p h; rfl
      · intro g data p a p1 h
        simp only [decode]
        rw [h]
        rfl
      · intro g data p h
        simp only [decode]
        generalize getBytes data p 1 = r at *
        obtain ⟨s, n, p'⟩ := r
        cases s <;> first | exact absurd rfl h | rfl
    | optPtr t' =>
      refine (getBytes_loc 1).bind (K := fun bs old data p =>
        (if leNat bs = 0 then (⟨.ok, .none, p⟩ : Res)
          else match decode d c t' (dflt c d t') data p with
          | ⟨.ok, v, p2⟩ => ⟨.ok, .some v, p2⟩
          | ⟨s, _, p2⟩ => ⟨s, old, p2⟩).t) (fun _ => ()) (fun old _ => old) ?_ ?_ ?_
      · intro bs
        by_cases h0 : leNat bs = 0
        · simp only [if_pos h0]; exact Loc.pure Val.none
        · simp only [if_neg h0]
          refine wrapSome_loc ((ih t' hw hs).at (dflt c d t')) Val.some ?_ ?_
          · intro old data p v p1 h; simp only [h]
          · intro old data p h
            generalize decode d c t' (dflt c d t') data p = r at *
            obtain ⟨s, n, p'⟩ := r
            cases s <;> first | exact absurd rfl h | rfl
      · intro g data p a p1 h
        simp only [decode]
        rw [h]
        rfl
      · intro g data p h
        simp only [decode]
        generalize getBytes data p 1 = r at *
        obtain ⟨s, n, p'⟩ := r
        cases s <;> first | exact absurd rfl h | rfl
    | uptr t' =>
      refine wrapSome_loc ((ih t' hw hs).at (dflt c d t')) Val.some ?_ ?_
      · intro old data p v p1 h; simp only [decode, h]
      · intro old data p h
        rw [decode]
        cases hr : decode d c t' (dflt c d t') data p with
        | mk s n p' =>
          rw [hr] at h
          cases s <;> first | exact absurd rfl h | rfl
    | variant idTy ids dcs alts =>
      simp only [widthsOk, selfDelimiting, Bool.and_eq_true] at hw hs
      refine ((ih idTy hw.1 hs.1).at (dflt c d idTy)).bind (K := fun id old data p =>
        (match findId id ids 0 with
        | none => (⟨.err .badMessage, old, p⟩ : Res)
        | some i =>
          match alts[i]?, dcs[i]? with
          | some t', some dc =>
            decAlt (fun v p => decode d c t' v data p) dc i (dflt c d t') old p
          | _, _ => ⟨.illFormed, old, p⟩).t) (fun _ => ()) (fun old _ => old) ?_ ?_ ?_
      · intro id
        cases findId id ids 0 with
        | none => exact Loc.fail (by intro _ _ _ h; cases h)
        | some i =>
          dsimp only
          cases ht : alts[i]? with
          | none => exact Loc.fail (by intro _ _ _ h; cases h)
          | some t' =>
            cases dcs[i]? with
            | none => exact Loc.fail (by intro _ _ _ h; cases h)
            | some dc =>
              have hm := List.mem_of_getElem? ht
              have hl := ih t' (widthsOkL_mem hw.2 t' hm) (selfDelimitingL_mem hs.2 t' hm)
              dsimp only
              unfold decAlt
              cases dc
              · simp only [Bool.false_eq_true, if_false]
                refine wrapSome_loc (hl.at (dflt c d t')) (Val.alt i) ?_ ?_
                · intro old data p v p1 h; simp only [h]
                · intro old data p h
                  generalize decode d c t' (dflt c d t') data p = r at *
                  obtain ⟨s, n, p'⟩ := r
                  cases s <;> first | exact absurd rfl h | rfl
              · simp only [if_true]
                refine hl.map (fun old => match old with | .alt j v => if j = i then v else dflt c d t' | _ => dflt c d t') (Val.alt i) ?_ ?_
                · intro g data p a p1 h
                  simp only [Res.t, Prod.mk.injEq] at h ⊢
                  exact ⟨h.1, congrArg (Val.alt i) h.2.1, h.2.2⟩
                · intro g data p h; rfl
      · intro g data p a p1 h
        simp only [decode]
        generalize decode d c idTy (dflt c d idTy) data p = r at *
        obtain ⟨s, v, p'⟩ := r
        cases h
        rfl
      · intro g data p h
        simp only [decode]
        generalize decode d c idTy (dflt c d idTy) data p = r at *
        obtain ⟨s, n, p'⟩ := r
        cases s <;> first | exact absurd rfl h | rfl
    | bitset n =>
      refine (getBytes_loc ((n + 7) / 8)).map (fun _ => ()) (fun bs => .bits (readBits n bs)) ?_ ?_
      · intro g data p a p1 h; simp only [decode, h]; rfl
      · intro g data p h
        simp only [decode]
        generalize getBytes data p ((n + 7) / 8) = r at *
        obtain ⟨s, bs, p'⟩ := r
        cases s <;> first | exact absurd rfl h | rfl
    | msg => cases hs
    | ref i => exact ih (c.env i) (henv i).1 (henv i).2

end Zpp
