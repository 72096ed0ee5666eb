import Verif.Spec.User
import Verif.Proof.InCall
import Verif.Proof.InRoundMain
import Verif.Proof.OutBits
/-! # User-written `serialize` functions -/

namespace Zpp
open Spec

theorem scriptOut_eq (d : Nat) (c : Cfg) (self : Obj) : ∀ s : Script,
    scriptOut d c self s = (encMany d c (handed self s)).andThen
      (match ending self s with | none => OutM.skip | some e => OutM.fail (.err e)) := by
  intro s
  induction s with
  | done => rfl
  | fail e => rfl
  | archive m t next ih =>
    have := ih (self m)
    simp only [scriptOut, handed, visits, List.map_cons, encMany, andThen_assoc, ending] at this ⊢
    rw [this]

theorem fitCall_fail (c : Cfg) (noFit : Bool) (b : OutM) (e : Errc) (st : OutSt) :
    fitCall c noFit (b.andThen (OutM.fail (.err e))) st =
      match fitCall c noFit b st with
      | (.ok, st') => (.err e, st')
      | r => r := by
  unfold fitCall OutM.andThen OutM.fail
  split
  · generalize b st = r
    obtain ⟨s, st'⟩ := r
    cases s <;> simp only <;> split <;> try rfl
    all_goals split <;> rfl
  · generalize b st = r
    obtain ⟨s, st'⟩ := r
    cases s <;> rfl

/-- The members read, in order. -/
def scriptLog (d : Nat) (c : Cfg) (data : List UInt8) : Script → Obj → Nat → Status × List (Nat × Val) × Nat
  | .done, _, p => (.ok, [], p)
  | .fail e, _, p => (.err e, [], p)
  | .archive m t next, o, p =>
    match decode d c t (o m) data p with
    | ⟨.ok, v, p'⟩ => let r := scriptLog d c data (next v) (o.set m v) p'; (r.1, (m, v) :: r.2.1, r.2.2)
    | ⟨s, v, p'⟩ => (s, [(m, v)], p')

/-- The assignments of a log. -/
def assign (o : Obj) : List (Nat × Val) → Obj
  | [] => o
  | (m, v) :: l => assign (o.set m v) l

theorem scriptIn_log (d : Nat) (c : Cfg) (data : List UInt8) : ∀ (s : Script) (o : Obj) (p : Nat),
    scriptIn d c data s o p =
      ⟨(scriptLog d c data s o p).1, assign o (scriptLog d c data s o p).2.1, (scriptLog d c data s o p).2.2⟩ := by
  intro s
  induction s with
  | done => intro o p; rfl
  | fail e => intro o p; rfl
  | archive m t next ih =>
    intro o p
    unfold scriptIn scriptLog
    generalize decode d c t (o m) data p = r
    obtain ⟨st, v, p1⟩ := r
    cases st <;> simp only [assign, ih]

theorem scriptIn_safe {d : Nat} {c : Cfg} {data : List UInt8} {E : Errc → Prop}
    (henv : ∀ i, widthsOk (c.env i) = true) : ∀ (s : Script) (o : Obj) (p : Nat), Always (widthsOk · = true) s →
      Fails E s → p ≤ data.length →
      (InOutcome (scriptIn d c data s o p).s ∨ ∃ e, E e ∧ (scriptIn d c data s o p).s = .err e) ∧
      p ≤ (scriptIn d c data s o p).p ∧ (scriptIn d c data s o p).p ≤ data.length := by
  intro s
  induction s with
  | done => intro o p _ _ hp; exact ⟨.inl trivial, Nat.le_refl _, hp⟩
  | fail e => intro o p _ hf hp; cases hf with | fail h => exact ⟨.inr ⟨e, h, rfl⟩, Nat.le_refl _, hp⟩
  | archive m t next ih =>
    intro o p ha hf hp
    cases ha with
    | archive hw hn =>
    cases hf with
    | archive hfn =>
    have h := decode_safe d c t (o m) data p henv hw hp
    unfold scriptIn
    generalize decode d c t (o m) data p = r at h
    obtain ⟨st, v, p1⟩ := r
    obtain ⟨h1, h2, h3⟩ := h
    cases st with
    | ok =>
      have := ih v (o.set m v) p1 (hn v) (hfn v) h3
      exact ⟨this.1, by simp only at h2 ⊢; omega, this.2.2⟩
    | _ => exact ⟨.inl h1, h2, h3⟩

theorem assign_get (self : Obj) : ∀ (l : List (Nat × Val)) (o : Obj) (k : Nat), (∀ x ∈ l, x.2 = self x.1) →
    assign o l k = if k ∈ l.map Prod.fst then self k else o k := by
  intro l
  induction l with
  | nil => intro o k _; simp [assign]
  | cons x l ih =>
    intro o k h
    obtain ⟨m, v⟩ := x
    have hv : v = self m := h (m, v) (by simp)
    rw [assign, ih _ _ fun x hx => h x (by simp [hx])]
    simp only [List.map_cons, List.mem_cons, Obj.set]
    by_cases h1 : k ∈ l.map Prod.fst
    · simp [h1]
    · by_cases h2 : k = m
      · subst h2; simp [h1, hv]
      · simp [h1, h2]

/-- Reading what was written assigns the members handed over, in order. -/
theorem scriptLog_rd {d : Nat} {c : Cfg} (ha : AbiOk c.sizeof) (he : EnvGood c) {data : List UInt8}
    (hlen : data.length < 2 ^ 64) (self : Obj) : ∀ (s : Script) (o : Obj) (bs : List UInt8),
      wireItems (fmtOf c) (handed self s) = some bs → ending self s = none →
      (∀ x ∈ handed self s, Good c x.1 = true) → (∀ x ∈ handed self s, Loadable c x.1 x.2) →
      StackOk d (handed self s) → ∀ p rest, p ≤ data.length → data.drop p = bs ++ rest →
      scriptLog d c data s o p = (.ok, (visits self s).map (fun x => (x.1, self x.1)), p + bs.length) := by
  intro s
  induction s with
  | done =>
    intro o bs h _ _ _ _ p rest _ _
    cases h; rfl
  | fail e => intro o bs _ h; cases h
  | archive m t next ih =>
    intro o bs h hend hg hl hd p rest hp hdr
    have hh : handed self (.archive m t next) = (t, self m) :: handed self (next (self m)) := rfl
    rw [hh] at h hg hl hd
    simp only [wireItems, cat_eq_some] at h
    obtain ⟨a, b, hx, hy, rfl⟩ := h
    rw [List.append_assoc] at hdr
    have s1 := drop_split hp hdr
    have h1 := (decode_round d c ha he).1 data hlen t (self m) a (hg (t, self m) (by simp)) hx
      (hl (t, self m) (by simp)) (by
        have := hd (t, self m) (by simp)
        simp only at this
        split <;> omega) (o m) p _ hp hdr
    have h2 := ih (self m) (o.set m (self m)) b hy hend (fun x h => hg x (by simp [h])) (fun x h => hl x (by simp [h]))
      (fun x h => hd x (by simp [h])) _ rest s1.1 s1.2
    rw [scriptLog]
    simp only [h1, h2, visits, List.map_cons, List.length_append, Nat.add_assoc]

theorem scriptLog_loc {d : Nat} {c : Cfg} (habi : ∀ t, 0 < c.sizeof t)
    (henv : ∀ i, widthsOk (c.env i) = true ∧ selfDelimiting c.dsz (c.env i) = true) : ∀ (s : Script),
      Always (fun t => widthsOk t = true ∧ selfDelimiting c.dsz t = true) s →
      Loc (fun (o : Obj) data p => scriptLog d c data s o p) := by
  intro s
  induction s with
  | done =>
    intro _ o data p a p1 hp h
    cases h
    refine ⟨[], data.drop p, rfl, rfl, fun j => ⟨?_, ?_⟩⟩
    · intro data p rest _ _; rfl
    · intro data p y _ hw hy
      cases y with
      | nil => exact absurd rfl hy
      | cons => simp at hw
  | fail e => intro _ o data p a p1 hp h; cases h
  | archive m t next ih =>
    intro ha o data p l p2 hp h
    cases ha with
    | archive hw hn =>
    have hl := decode_loc c habi henv d t hw.1 hw.2
    have h' := h
    simp only [scriptLog] at h'
    generalize hr : decode d c t (o m) data p = r at h'
    obtain ⟨st, v, p1⟩ := r
    cases st with
    | ok =>
      simp only at h'
      obtain ⟨w, rest, h1, h2, h3⟩ := hl (o m) data p v p1 hp (by dsimp only; rw [hr]; rfl)
      have hp1 : p1 ≤ data.length := by
        have := congrArg List.length h1
        simp at this; omega
      generalize hk : scriptLog d c data (next v) (o.set m v) p1 = k at h'
      obtain ⟨s2, l2, p3⟩ := k
      simp only [Prod.mk.injEq] at h'
      obtain ⟨rfl, rfl, rfl⟩ := h'
      obtain ⟨w2, rest2, g1, g2, g3⟩ := ih v (hn v) (o.set m v) data p1 l2 p3 hp1 hk
      refine ⟨w ++ w2, rest2, ?_, by simp; omega, fun j => ?_⟩
      · have : data.drop p1 = rest := by rw [h2, ← List.drop_drop, h1]; simp
        rw [h1, ← this, g1, List.append_assoc]
      · refine RunsTo.bind (F := fun data p => (decode d c t (j m) data p).t)
          (K := fun data p => (fun r : Status × List (Nat × Val) × Nat => (r.1, (m, v) :: r.2.1, r.2.2))
            (scriptLog d c data (next v) (j.set m v) p)) (h3 (j m)) ⟨?_, ?_⟩ ?_ ?_
        · intro data p rest hp hd
          simp only [(g3 (j.set m v)).full data p rest hp hd]
        · intro data p y hp hw hy
          exact (g3 (j.set m v)).cut data p y hp hw hy
        · intro data p q hq
          simp only [Res.t, Prod.mk.injEq] at hq
          simp only [scriptLog]
          generalize decode d c t (j m) data p = r at hq
          obtain ⟨st, v', p'⟩ := r
          obtain ⟨e1, e2, e3⟩ := hq
          simp only at e1 e2 e3
          subst e1 e2 e3
          rfl
        · intro data p hq
          simp only [Res.t] at hq ⊢
          simp only [scriptLog]
    | _ => simp at h'

end Zpp
