import Verif.Proof.UserNest
import Verif.Proof.InLocal
/-! # Locality of reading objects that contain classes with a user-written `serialize` function -/

namespace Zpp
open Spec

/-- A reader without index, as a triple. -/
abbrev LocU (F : List UInt8 → Nat → Res) : Prop := Loc (fun (_ : Unit) data p => (F data p).t)
abbrev LocUL (F : List UInt8 → Nat → ResL) : Prop := Loc (fun (_ : Unit) data p => (F data p).t)

theorem decAll_locU {rec : Val → List UInt8 → Nat → Res} (h : ∀ v, LocU (rec v)) :
    ∀ olds, LocUL (fun data p => decAll (fun v p => rec v data p) olds p) := by
  intro olds
  induction olds with
  | nil => exact Loc.pure []
  | cons o os ih =>
    refine (h o).bind (κ := Unit)
      (K := fun v _ data p => ((decAll (fun v p => rec v data p) os p).s, v :: (decAll (fun v p => rec v data p) os p).vs,
        (decAll (fun v p => rec v data p) os p).p)) (fun _ => ()) (fun _ _ => ()) ?_ ?_ ?_
    · intro v
      refine ih.map id (fun vs => v :: vs) ?_ ?_
      · intro g data p a p1 h
        simp only [ResL.t, Prod.mk.injEq] at h ⊢
        exact ⟨h.1, by rw [h.2.1], h.2.2⟩
      · intro g data p h; rfl
    · intro g data p a p1 h
      simp only [decAll]
      generalize rec o data p = r at *
      obtain ⟨s, v, p'⟩ := r
      cases h
      rfl
    · intro g data p h
      simp only [decAll]
      generalize rec o data p = r at *
      obtain ⟨s, v, p'⟩ := r
      cases s <;> first | exact absurd rfl h | rfl

theorem uScriptIn_loc {T : Type} {rec : T → Val → List UInt8 → Nat → Res} {Q : T → Prop} {QS : ScriptOf T → Prop}
    (hrec : ∀ t, Q t → ∀ v, LocU (rec t v))
    (hQ : ∀ m t next, QS (.archive m t next) → Q t ∧ ∀ v, QS (next v)) :
    ∀ (s : ScriptOf T) (vs : List Val), QS s → LocUL (fun data p => uScriptIn (fun t v p => rec t v data p) s vs p) := by
  intro s
  induction s with
  | done => intro vs _; exact Loc.pure vs
  | fail e => intro vs _; exact Loc.fail (by intro _ _ _ h; cases h)
  | archive m t next ih =>
    intro vs hs
    obtain ⟨h1, h2⟩ := hQ _ _ _ hs
    refine (hrec t h1 (memberOf vs m)).bind (κ := Unit)
      (K := fun v _ data p => (uScriptIn (fun t v p => rec t v data p) (next v) (vs.set m v) p).t)
      (fun _ => ()) (fun _ _ => ()) ?_ ?_ ?_
    · intro v; exact ih v (vs.set m v) (h2 v)
    · intro g data p a p1 h
      simp only [uScriptIn]
      generalize rec t (memberOf vs m) data p = r at *
      obtain ⟨s, v, p'⟩ := r
      cases h
      rfl
    · intro g data p h
      simp only [uScriptIn]
      generalize rec t (memberOf vs m) data p = r at *
      obtain ⟨s, v, p'⟩ := r
      cases s <;> first | exact absurd rfl h | rfl

theorem uEntryIn_loc {key mapped : List UInt8 → Nat → Res} (hk : LocU key) (hm : LocU mapped) :
    LocU (fun data p => uEntryIn (fun p => key data p) (fun p => mapped data p) p) := by
  refine hk.bind (κ := Unit) (K := fun k _ data p => ((mapped data p).s, Val.list [k, (mapped data p).v], (mapped data p).p))
    (fun _ => ()) (fun _ _ => ()) ?_ ?_ ?_
  · intro k
    refine hm.map id (fun v => Val.list [k, v]) ?_ ?_
    · intro g data p a p1 h
      simp only [Res.t, Prod.mk.injEq] at h ⊢
      exact ⟨h.1, by rw [h.2.1], h.2.2⟩
    · intro g data p h; rfl
  · intro g data p a p1 h
    simp only [uEntryIn]
    generalize key data p = r at *
    obtain ⟨s, v, p'⟩ := r
    cases h
    rfl
  · intro g data p h
    simp only [uEntryIn]
    generalize key data p = r at *
    obtain ⟨s, v, p'⟩ := r
    cases s <;> first | exact absurd rfl h | rfl

/-- Wrapping of the value on success, in place or not. -/
theorem wrap_locU {rec : List UInt8 → Nat → Res} (h : LocU rec) (f : Val → Val) {G : List UInt8 → Nat → Res}
    (hok : ∀ data p v p1, rec data p = ⟨.ok, v, p1⟩ → G data p = ⟨.ok, f v, p1⟩)
    (hbad : ∀ data p, (rec data p).s ≠ .ok → (G data p).s = (rec data p).s) : LocU G :=
  (wrapSome_loc h (G := fun _ => G) f (fun _ => hok) (fun _ => hbad)).at Val.unit

theorem uOptIn_loc {rec : Val → List UInt8 → Nat → Res} (h : ∀ v, LocU (rec v)) (inPlace : Bool) (cur dv old : Val) :
    LocU (fun data p => uOptIn inPlace (fun v p => rec v data p) cur dv old data p) := by
  refine (getBytes_loc 1).bind (κ := Unit)
    (K := fun bs _ data p =>
      (if leNat bs = 0 then (⟨.ok, .none, p⟩ : Res)
      else if inPlace then ⟨(rec cur data p).s, .some (rec cur data p).v, (rec cur data p).p⟩
      else match rec dv data p with
        | ⟨.ok, v, p2⟩ => ⟨.ok, .some v, p2⟩
        | ⟨s, _, p2⟩ => ⟨s, old, p2⟩).t) (fun _ => ()) (fun _ _ => ()) ?_ ?_ ?_
  · intro bs
    by_cases hz : leNat bs = 0
    · simp only [hz, if_true]
      exact Loc.pure Val.none
    · simp only [hz, if_false]
      cases inPlace
      · refine wrap_locU (h dv) Val.some ?_ ?_
        · intro data p v p1 h; simp [h]
        · intro data p h
          simp only [Bool.false_eq_true, if_false]
      · refine wrap_locU (h cur) Val.some ?_ ?_
        · intro data p v p1 h; simp [h]
        · intro data p h; rfl
  · intro g data p a p1 h; simp only [uOptIn, h]; rfl
  · intro g data p h
    simp only [uOptIn]
    generalize getBytes data p 1 = r at *
    obtain ⟨s, v, p'⟩ := r
    cases s <;> first | exact absurd rfl h | rfl

theorem decAlt_loc {rec : Val → List UInt8 → Nat → Res} (h : ∀ v, LocU (rec v)) (dc : Bool) (i : Nat) (dv old : Val) :
    LocU (fun data p => decAlt (fun v p => rec v data p) dc i dv old p) := by
  cases dc
  · refine wrap_locU (h dv) (Val.alt i) ?_ ?_
    · intro data p v p1 h; simp [decAlt, h]
    · intro data p h
      simp only [decAlt, Bool.false_eq_true, if_false]
  · have aux (cur : Val) : LocU (fun data p => ⟨(rec cur data p).s, .alt i (rec cur data p).v, (rec cur data p).p⟩) := by
      refine wrap_locU (h cur) (Val.alt i) ?_ ?_
      · intro data p v p1 h; simp [h]
      · intro data p h; rfl
    exact aux _

theorem uSeqFill_loc {rec : Val → List UInt8 → Nat → Res} (h : ∀ v, LocU (rec v)) (g : Growth) (k : SeqKind) (size : Nat)
    (dv old : Val) (n : Nat) : LocU (fun data p => uSeqFill g k size (fun v p => rec v data p) dv old n p) := by
  have hall (olds : List Val) : LocU (fun data p => (decAll (fun v p => rec v data p) olds p).toRes) :=
    (decAll_locU h olds).toRes
  have hgo : LocU (fun data p => if g.limit ≠ sizeMax ∧ g.limit / size < n then (⟨.err .messageSize, old, p⟩ : Res)
      else if g.maxMem < n * size then ⟨.badAlloc, old, p⟩
      else (decAll (fun v p => rec v data p) (resizeVals old.elems n dv) p).toRes) := by
    by_cases h1 : g.limit ≠ sizeMax ∧ g.limit / size < n
    · simp only [if_pos h1]; exact Loc.fail (by intro _ _ _ h; cases h)
    · simp only [if_neg h1]
      by_cases h2 : g.maxMem < n * size
      · simp only [if_pos h2]; exact Loc.fail (by intro _ _ _ h; cases h)
      · simp only [if_neg h2]; exact hall _
  cases k with
  | view => exact Loc.fail (by intro _ _ _ h; cases h)
  | span =>
    simp only [uSeqFill]
    by_cases h1 : old.elems.length < n
    · simp only [if_pos h1]; exact Loc.fail (by intro _ _ _ h; cases h)
    · simp only [if_neg h1]; exact hall _
  | vector => exact hgo
  | list => exact hgo

/-- Continuing after a part that does not depend on the destination. -/
theorem bind_locU {α : Type} {F : Run α} (h : Loc (fun (_ : Unit) => F)) {K : α → List UInt8 → Nat → Res}
    (hK : ∀ a, LocU (K a)) {G : List UInt8 → Nat → Res}
    (hok : ∀ data p a p1, F data p = (.ok, a, p1) → G data p = K a data p1)
    (hbad : ∀ data p, (F data p).1 ≠ .ok → (G data p).s = (F data p).1) : LocU G :=
  h.bind (κ := Unit) (K := fun a _ data p => (K a data p).t) (fun _ => ()) (fun _ _ => ()) hK
    (fun _ data p a p1 h => by rw [hok data p a p1 h]) (fun _ data p h => hbad data p h)

theorem uDecode_seq {d : Nat} {u : UCfg} {k : SeqKind} {sz : Option SizeTy} {t : UTy} {old : Val} {data : List UInt8}
    {p : Nat} (he : effSz u.c sz ≠ .none) :
    uDecode (d + 1) u (.seq k sz t) old data p =
      match decHdr u.c (effSz u.c sz) data p with
      | (.ok, n, p1) => uSeqFill u.c.g k (u.sizeof t) (fun v p => uDecode d u t v data p) (uFresh d u t) old n p1
      | (s', _, p1) => ⟨s', old, p1⟩ := by
  rw [uDecode]
  split
  · next e => exact absurd e he
  · rfl

theorem uDecode_loc (u : UCfg) (habi : ∀ t, 0 < u.c.sizeof t)
    (hlib : ∀ i, widthsOk (u.c.env i) = true ∧ selfDelimiting u.c.dsz (u.c.env i) = true)
    (henv : ∀ i, UAll (fun t => widthsOk t = true ∧ selfDelimiting u.c.dsz t = true) (fun _ => True) (u.env i)) :
    ∀ (d : Nat) (t : UTy) (dest : Val),
    UAll (fun t => widthsOk t = true ∧ selfDelimiting u.c.dsz t = true) (fun _ => True) t →
    LocU (fun data p => uDecode d u t dest data p) := by
  intro d
  induction d with
  | zero => intro t dest _; exact Loc.fail (by intro _ _ _ h; cases h)
  | succ d ih =>
    intro t dest ht
    have hdec (d : Nat) (t : Ty) (v : Val) (h : widthsOk t = true ∧ selfDelimiting u.c.dsz t = true) :
        LocU (fun data p => decode d u.c t v data p) := (decode_loc u.c habi hlib d t h.1 h.2).at v
    cases ht with
    | lib h => exact hdec (d + 1) _ dest h
    | user h =>
      refine Loc.toRes (uScriptIn_loc
        (Q := fun t => UAll (fun t => widthsOk t = true ∧ selfDelimiting u.c.dsz t = true) (fun _ => True) t)
        (QS := UAllS (fun t => widthsOk t = true ∧ selfDelimiting u.c.dsz t = true) (fun _ => True))
        (rec := fun t v data p => uDecode d u t v data p) (fun t ht v => ih t v ht) ?_ _ _ h)
      intro m t next hs
      cases hs with
      | archive h hn => exact ⟨h, hn⟩
    | @seq k sz t' h =>
      by_cases he : effSz u.c sz = .none
      · simp only [uDecode, he]
        by_cases hk : k = .view
        · simp only [if_pos hk]; exact Loc.fail (by intro _ _ _ h; cases h)
        · simp only [if_neg hk]
          exact Loc.toRes (decAll_locU (rec := fun v data p => uDecode d u t' v data p) (fun v => ih t' v h) _)
      · refine bind_locU (decHdr_loc u.c (effSz u.c sz)) (K := fun n data p =>
            uSeqFill u.c.g k (u.sizeof t') (fun v p => uDecode d u t' v data p) (uFresh d u t') dest n p) ?_ ?_ ?_
        · intro n; exact uSeqFill_loc (rec := fun v data p => uDecode d u t' v data p) (fun v => ih t' v h) _ _ _ _ _ _
        · intro data p n p1 hh
          rw [uDecode_seq he, hh]
        · intro data p hh
          rw [uDecode_seq he]
          generalize decHdr u.c (effSz u.c sz) data p = r at *
          obtain ⟨s, v, p'⟩ := r
          cases s <;> first | exact absurd rfl hh | rfl
    | @array n t' h =>
      exact Loc.toRes (decAll_locU (rec := fun v data p => uDecode d u t' v data p) (fun v => ih t' v h) _)
    | @set multi hashed sz t' h =>
      refine bind_locU (decHdr_loc u.c (effSz u.c sz)) (K := fun n data p =>
          (decAssoc (fun p => uDecode d u t' (uFresh d u t') data p)
          (assocInsert (u.lt t') multi hashed false) n [] p).toRes) ?_ ?_ ?_
      · intro n
        exact Loc.toRes (decAssoc_loc (ih t' _ h) n [])
      · intro data p n p1 hh; simp only [uDecode, hh]
      · intro data p hh
        simp only [uDecode]
    | @map multi hashed sz key t' hk h =>
      refine bind_locU (decHdr_loc u.c (effSz u.c sz)) (K := fun n data p =>
          (decAssoc (uEntryIn (fun p => uDecode d u key (uFresh d u key) data p)
            (fun p => uDecode d u t' (uFresh d u t') data p))
          (assocInsert (u.lt key) multi hashed true) n [] p).toRes) ?_ ?_ ?_
      · intro n
        exact Loc.toRes (decAssoc_loc (uEntryIn_loc (ih key _ hk) (ih t' _ h)) n [])
      · intro data p n p1 hh; simp only [uDecode, hh]
      · intro data p hh
        simp only [uDecode]
    | @optional dc t' h =>
      exact uOptIn_loc (rec := fun v data p => uDecode d u t' v data p) (fun v => ih t' v h) _ _ _ _
    | @optPtr t' h =>
      exact uOptIn_loc (rec := fun v data p => uDecode d u t' v data p) (fun v => ih t' v h) _ _ _ _
    | @uptr t' h =>
      refine wrap_locU (ih t' (uFresh d u t') h) Val.some ?_ ?_
      · intro data p v p1 h; simp [uDecode, h]
      · intro data p hh
        simp only [uDecode]
    | @variant idTy ids dcs alts hid h =>
      refine bind_locU (F := fun data p => (decode d u.c idTy (dflt u.c d idTy) data p).t) (hdec d idTy (dflt u.c d idTy) hid)
        (K := fun id data p =>
          match findId id ids 0 with
          | none => ⟨.err .badMessage, dest, p⟩
          | some i =>
            match alts[i]?, dcs[i]? with
            | some t', some dc => decAlt (fun v p => uDecode d u t' v data p) dc i (uFresh d u t') dest p
            | _, _ => ⟨.illFormed, dest, p⟩) ?_ ?_ ?_
      · intro id
        cases findId id ids 0 with
        | none => exact Loc.fail (by intro _ _ _ h; cases h)
        | some i =>
          dsimp only
          cases ha : alts[i]? with
          | none => exact Loc.fail (by intro _ _ _ h; cases h)
          | some t' =>
            cases dcs[i]? with
            | none => exact Loc.fail (by intro _ _ _ h; cases h)
            | some dc =>
              exact decAlt_loc (rec := fun v data p => uDecode d u t' v data p)
                (fun v => ih t' v (h t' (List.mem_of_getElem? ha))) _ _ _ _
      · intro data p id p1 hh
        simp only [uDecode]
        generalize decode d u.c idTy (dflt u.c d idTy) data p = r at *
        obtain ⟨s, v, p'⟩ := r
        cases hh
        rfl
      · intro data p hh
        simp only [uDecode]
        generalize decode d u.c idTy (dflt u.c d idTy) data p = r at *
        obtain ⟨s, v, p'⟩ := r
        cases s <;> first | exact absurd rfl hh | rfl
    | ref i => exact ih (u.env i) dest (henv i)

end Zpp
