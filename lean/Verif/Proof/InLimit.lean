import Verif.Proof.InRound
/-!
# The allocation limit on input
-/

namespace Zpp
open Zpp.Spec

variable {c : Cfg} {L : Nat}

theorem chunks_mem {f : List UInt8 → Val} {sz n : Nat} {bs : List UInt8} {v : Val} (h : v ∈ chunks f sz n bs) : ∃ b, v = f b := by
  induction n generalizing bs with
  | zero => simp [chunks] at h
  | succ n ih =>
    simp only [chunks, List.mem_cons] at h
    rcases h with h | h
    · exact ⟨_, h⟩
    · exact ih h

theorem chunks_length (f : List UInt8 → Val) (sz n : Nat) (bs : List UInt8) : (chunks f sz n bs).length = n := by
  induction n generalizing bs with
  | zero => rfl
  | succ n ih => simp [chunks, ih]

theorem unrepFields_get {e : Endian} {so : Ty → Nat} {ts : List Ty} {bs : List UInt8} {i : Nat} {t : Ty} {v : Val}
    (ht : ts[i]? = some t) (hv : (unrepFields e so ts bs)[i]? = some v) : ∃ b, v = unrep e so t b := by
  induction ts generalizing bs i with
  | nil => simp at ht
  | cons t' ts ih =>
    simp only [unrepFields] at hv
    cases i with
    | zero =>
      simp only [List.getElem?_cons_zero, Option.some.injEq] at ht hv
      subst ht hv
      exact ⟨_, rfl⟩
    | succ i =>
      simp only [List.getElem?_cons_succ] at ht hv
      exact ih ht hv

theorem unit_fine {t : Ty} : ¬ Exceeds c L t .unit := by
  intro h
  generalize hv : Val.unit = v at h
  induction h <;> simp_all

/-- Objects made of bytes contain no container. -/
theorem unrep_fine {e : Endian} {so : Ty → Nat} {t : Ty} {v : Val} (h : Exceeds c L t v) :
    ∀ bs, v ≠ unrep e so t bs := by
  induction h with
  | here => intro bs h; simp [unrep] at h
  | elem => intro bs h; simp [unrep] at h
  | member i hf hv _ ih =>
    intro bs h
    simp only [unrep, Val.list.injEq] at h
    subst h
    obtain ⟨b, hb⟩ := unrepFields_get hf hv
    exact ih b hb
  | array hv _ ih =>
    intro bs h
    simp only [unrep, Val.list.injEq] at h
    subst h
    obtain ⟨b, hb⟩ := chunks_mem hv
    exact ih b hb
  | ref h _ => intro bs hb; simp only [unrep] at hb; subst hb; exact unit_fine h
  | _ => intro bs h; simp [unrep] at h

theorem dflt_fine : ∀ (d : Nat) (t : Ty), ¬ Exceeds c L t (dflt c d t) := by
  intro d
  induction d with
  | zero => intro t h; exact unit_fine h
  | succ d ih =>
    intro t h
    cases t with
    | struct ok fs =>
      simp only [dflt] at h
      cases h with
      | member i hf hv h =>
        simp only [List.getElem?_map, hf, Option.map_some, Option.some.injEq] at hv
        subst hv
        exact ih _ h
    | array n t =>
      simp only [dflt] at h
      cases h with
      | array hv h =>
        rw [(List.mem_replicate.mp hv).2] at h
        exact ih _ h
    | seq k sz t =>
      simp only [dflt] at h
      cases h with
      | here _ h => simp at h
      | elem hv _ => simp at hv
    | assoc mu ha sz key m =>
      simp only [dflt] at h
      cases h with
      | setElem hv _ => simp at hv
      | mapElem hv _ => simp at hv
    | variant idTy ids dcs alts =>
      simp only [dflt] at h
      cases alts with
      | nil => cases h
      | cons t' ts =>
        cases h with
        | alt ha h =>
          simp only [List.getElem?_cons_zero, Option.some.injEq] at ha
          subst ha
          exact ih _ h
    | ref i =>
      simp only [dflt] at h
      cases h with
      | ref h => exact ih _ h
    | _ => simp only [dflt] at h; cases h

theorem decAll_mem {rec : Val → Nat → Res} : ∀ (os : List Val) (p : Nat) (v : Val), v ∈ (decAll rec os p).vs →
    ∃ o ∈ os, v = o ∨ ∃ q, v = (rec o q).v := by
  intro os
  induction os with
  | nil => intro p v h; simp [decAll] at h
  | cons o os ih =>
    intro p v h
    simp only [decAll] at h
    generalize hr : rec o p = r at h
    obtain ⟨s, w, p'⟩ := r
    have hw : w = (rec o p).v := by rw [hr]
    cases s <;> simp only [List.mem_cons] at h
    case ok =>
      rcases h with h | h
      · exact ⟨o, by simp, Or.inr ⟨p, by rw [h, hw]⟩⟩
      · obtain ⟨o', ho', h⟩ := ih p' v h
        exact ⟨o', by simp [ho'], h⟩
    all_goals
      rcases h with h | h
      · exact ⟨o, by simp, Or.inr ⟨p, by rw [h, hw]⟩⟩
      · exact ⟨v, by simp [h], Or.inl rfl⟩

theorem decAll_length {rec : Val → Nat → Res} : ∀ (os : List Val) (p : Nat), (decAll rec os p).vs.length = os.length := by
  intro os
  induction os with
  | nil => intro p; rfl
  | cons o os ih =>
    intro p
    simp only [decAll]
    generalize rec o p = r
    obtain ⟨s, w, p'⟩ := r
    cases s <;> simp [ih]

theorem decFields_get {rec : Ty → Val → Nat → Res} : ∀ (ts : List Ty) (os : List Val) (p i : Nat) (t : Ty) (v : Val),
    ts[i]? = some t → (decFields rec ts os p).vs[i]? = some v →
    (∃ q, v = (rec t (os.getD i .unit) q).v) ∨ os[i]? = some v := by
  intro ts
  induction ts with
  | nil => intro os p i t v h; simp at h
  | cons t' ts ih =>
    intro os p i t v ht hv
    simp only [decFields] at hv
    have hh : os.headD .unit = os.getD 0 .unit := by cases os <;> rfl
    have htl : ∀ i, os.tail[i]? = os[i + 1]? := by intro i; cases os <;> simp
    have htd : ∀ i, os.tail.getD i .unit = os.getD (i + 1) .unit := by intro i; cases os <;> simp
    generalize hr : rec t' (os.headD .unit) p = r at hv
    obtain ⟨s, w, p'⟩ := r
    cases i with
    | zero =>
      simp only [List.getElem?_cons_zero, Option.some.injEq] at ht
      subst ht
      have hw : v = w := by cases s <;> simpa using hv.symm
      refine Or.inl ⟨p, ?_⟩
      rw [← hh, hr, hw]
    | succ i =>
      simp only [List.getElem?_cons_succ] at ht
      cases s <;> simp only [List.getElem?_cons_succ] at hv
      case ok =>
        rcases ih os.tail p' i t v ht hv with h | h
        · rw [htd] at h; exact Or.inl h
        · rw [htl] at h; exact Or.inr h
      all_goals exact Or.inr (by rw [← htl]; exact hv)

theorem insertSorted_mem {lt : Val → Val → Bool} {isMap : Bool} {e v : Val} {vs : List Val} (h : v ∈ insertSorted lt isMap e vs) :
    v = e ∨ v ∈ vs := by
  induction vs with
  | nil => simpa [insertSorted] using h
  | cons x xs ih =>
    simp only [insertSorted] at h
    split at h
    · simpa using h
    · rcases List.mem_cons.mp h with h | h
      · exact Or.inr (by simp [h])
      · rcases ih h with h | h
        · exact Or.inl h
        · exact Or.inr (by simp [h])

theorem assocInsert_mem {lt : Val → Val → Bool} {multi hashed isMap : Bool} {e v : Val} {vs : List Val}
    (h : v ∈ assocInsert lt multi hashed isMap e vs) : v = e ∨ v ∈ vs := by
  unfold assocInsert at h
  split at h
  · split at h
    · simp only [List.mem_append, List.mem_singleton] at h; exact h.symm
    · exact Or.inr h
  · split at h
    · exact insertSorted_mem h
    · exact Or.inr h

theorem decAssoc_mem {elem : Nat → Res} {ins : Val → List Val → List Val} (hins : ∀ e vs v, v ∈ ins e vs → v = e ∨ v ∈ vs) :
    ∀ (n : Nat) (vs : List Val) (p : Nat) (v : Val), v ∈ (decAssoc elem ins n vs p).vs → v ∈ vs ∨ ∃ q, v = (elem q).v := by
  intro n
  induction n with
  | zero => intro vs p v h; exact Or.inl h
  | succ n ih =>
    intro vs p v h
    simp only [decAssoc] at h
    generalize hr : elem p = r at h
    obtain ⟨s, w, p'⟩ := r
    cases s <;> simp only at h
    case ok =>
      rcases ih _ _ _ h with h | h
      · rcases hins _ _ _ h with h | h
        · exact Or.inr ⟨p, by rw [hr, h]⟩
        · exact Or.inl h
      · exact Or.inr h
    all_goals exact Or.inl h

theorem decRep_mem {t : Ty} {n : Nat} {olds : List Val} {data : List UInt8} {p : Nat} {v : Val}
    (h : v ∈ (decRep c t n olds data p).vs) : v ∈ olds ∨ ∃ b, v = unrep c.host c.sizeof t b := by
  unfold decRep at h
  split at h
  · exact Or.inl h
  · generalize getBytes data p (n * c.sizeof t) = r at h
    obtain ⟨s, bs, p'⟩ := r
    cases s <;> simp only at h
    case ok => exact Or.inr (chunks_mem h)
    all_goals exact Or.inl h

theorem decRep_length {t : Ty} {n : Nat} {olds : List Val} {data : List UInt8} {p : Nat} (hl : olds.length = n) :
    (decRep c t n olds data p).vs.length = n := by
  unfold decRep
  split
  · exact hl
  · generalize getBytes data p (n * c.sizeof t) = r
    obtain ⟨s, bs, p'⟩ := r
    cases s <;> simp only [unrepAll, chunks_length] <;> exact hl

theorem seqBody_val {k : SeqKind} {t : Ty} {rec : Val → Nat → Res} {olds : List Val} {data : List UInt8} {p : Nat} :
    ∃ vs, (seqBody c k t rec olds data p).v = .list vs ∧ vs.length = olds.length ∧
      ∀ v ∈ vs, v ∈ olds ∨ (∃ b, v = unrep c.host c.sizeof t b) ∨ ∃ o ∈ olds, ∃ q, v = (rec o q).v := by
  unfold seqBody
  split
  · refine ⟨_, rfl, decRep_length rfl, ?_⟩
    intro v hv
    rcases decRep_mem hv with h | h
    · exact Or.inl h
    · exact Or.inr (Or.inl h)
  · refine ⟨_, rfl, decAll_length _ _, ?_⟩
    intro v hv
    obtain ⟨o, ho, h | h⟩ := decAll_mem _ _ _ hv
    · exact Or.inl (by rw [h]; exact ho)
    · exact Or.inr (Or.inr ⟨o, ho, h⟩)

theorem elems_fine {k : SeqKind} {sz : Option SizeTy} {t : Ty} {old : Val} (h : ¬ Exceeds c L (.seq k sz t) old) :
    (k = .vector ∨ k = .list → old.elems.length * c.sizeof t ≤ L) ∧ ∀ o ∈ old.elems, ¬ Exceeds c L t o := by
  cases old with
  | list vs =>
    simp only [Val.elems]
    refine ⟨fun hk => ?_, fun o ho he => h (.elem ho he)⟩
    by_cases hh : vs.length * c.sizeof t ≤ L
    · exact hh
    · exact absurd (.here hk (by omega)) h
  | _ => simp [Val.elems]

theorem resizeVals_mem {vs : List Val} {n : Nat} {dv v : Val} (h : v ∈ resizeVals vs n dv) : v ∈ vs ∨ v = dv := by
  simp only [resizeVals, List.mem_append] at h
  rcases h with h | h
  · exact Or.inl (List.mem_of_mem_take h)
  · exact Or.inr (List.mem_replicate.mp h).2

theorem seqBody_fine {k k' : SeqKind} {sz : Option SizeTy} {t : Ty} {rec : Val → Nat → Res} {olds : List Val} {data : List UInt8}
    {p : Nat} (hl : k' = .vector ∨ k' = .list → olds.length * c.sizeof t ≤ L) (ho : ∀ o ∈ olds, ¬ Exceeds c L t o)
    (hrec : ∀ o, ¬ Exceeds c L t o → ∀ q, ¬ Exceeds c L t (rec o q).v) :
    ¬ Exceeds c L (.seq k' sz t) (seqBody c k t rec olds data p).v := by
  obtain ⟨vs, hv, hlen, hm⟩ := seqBody_val (c := c) (k := k) (t := t) (rec := rec) (olds := olds) (data := data) (p := p)
  rw [hv]
  intro h
  cases h with
  | here hk h => rw [hlen] at h; have := hl hk; omega
  | elem hv h =>
    rcases hm _ hv with h' | ⟨b, h'⟩ | ⟨o, ho', q, h'⟩
    · exact ho _ h' h
    · exact unrep_fine h b h'
    · exact hrec o (ho o ho') q (h' ▸ h)

theorem decode_limit (hlim : c.g.limit = L) (hL : L ≠ sizeMax) :
    ∀ (d : Nat) (t : Ty) (old : Val) (data : List UInt8) (p : Nat), ¬ Exceeds c L t old →
      ¬ Exceeds c L t (decode d c t old data p).v := by
  intro d
  induction d with
  | zero => intro t old data p ho; exact ho
  | succ d ih =>
    intro t old data p ho
    cases t with
    | scalar k n => intro h; generalize (decode (d + 1) c _ old data p).v = v at h; cases h
    | bool => intro h; generalize (decode (d + 1) c _ old data p).v = v at h; cases h
    | varint n zz => intro h; generalize (decode (d + 1) c _ old data p).v = v at h; cases h
    | empty => intro h; generalize (decode (d + 1) c _ old data p).v = v at h; cases h
    | bitset n => intro h; generalize (decode (d + 1) c _ old data p).v = v at h; cases h
    | msg sz ok maps nums fs => intro h; generalize (decode (d + 1) c _ old data p).v = v at h; cases h
    | ref i =>
      rw [decode]
      intro h
      cases h with
      | ref h => exact ih _ old data p (fun h' => ho (.ref h')) h
    | struct ok fs =>
      rw [decode]
      split
      · unfold decRep
        split
        · exact ho
        · generalize getBytes data p (1 * c.sizeof (.struct ok fs)) = r
          obtain ⟨s, bs, p'⟩ := r
          cases s <;> simp only [List.headD_cons]
          case ok =>
            intro h
            exact unrep_fine h (bs.take (c.sizeof (.struct ok fs))) (e := c.host) (so := c.sizeof) (by simp [unrepAll, chunks])
          all_goals exact ho
      · intro h
        cases h with
        | member i hf hv h =>
          rename_i t' v'
          have hold : ∀ o, old.elems[i]? = some o → ¬ Exceeds c L t' o := by
            intro o hi he
            cases old with
            | list os => exact ho (.member i hf hi he)
            | _ => simp [Val.elems] at hi
          rcases decFields_get fs old.elems p i _ _ hf hv with ⟨q, hq⟩ | hq
          · rw [hq] at h
            refine ih _ _ data q ?_ h
            rw [List.getD_eq_getElem?_getD]
            cases hi : old.elems[i]? with
            | none => exact unit_fine
            | some o => exact hold o hi
          · exact hold _ hq h
    | array n t =>
      have hold : ∀ o ∈ resizeVals old.elems n .unit, ¬ Exceeds c L t o := by
        intro o hi he
        rcases resizeVals_mem hi with h | h
        · cases old with
          | list os => exact ho (.array h he)
          | _ => simp [Val.elems] at h
        · subst h; exact unit_fine he
      rw [decode]
      split
      · intro h
        cases h with
        | array hv h =>
          rcases decRep_mem hv with h' | ⟨b, h'⟩
          · exact hold _ h' h
          · exact unrep_fine h b h'
      · intro h
        cases h with
        | array hv h =>
          obtain ⟨o, hm, h' | ⟨q, h'⟩⟩ := decAll_mem _ _ _ hv
          · rw [h'] at h; exact hold _ hm h
          · rw [h'] at h; exact ih _ _ data q (hold _ hm) h
    | seq k sz t =>
      obtain ⟨ho1, ho2⟩ := elems_fine ho
      have hrec : ∀ o, ¬ Exceeds c L t o → ∀ q, ¬ Exceeds c L t ((fun v p => decode d c t v data p) o q).v :=
        fun o h q => ih t o data q h
      have hview : ∀ n bs, ¬ Exceeds c L (.seq .view sz t) (.list (unrepAll c.host c.sizeof t n bs)) := by
        intro n bs h
        cases h with
        | here hk => simp at hk
        | elem hv h =>
          obtain ⟨b, hb⟩ := chunks_mem hv
          exact unrep_fine h b hb
      rw [decode]
      split
      · unfold seqUnsized
        cases k with
        | view =>
          simp only
          split
          · exact ho
          · exact hview _ _
        | _ => exact seqBody_fine ho1 ho2 hrec
      · generalize decHdr c _ data p = r
        obtain ⟨s, n, p1⟩ := r
        cases s <;> simp only <;> try exact ho
        unfold seqFill
        cases k with
        | view =>
          simp only
          split
          · exact ho
          · split
            · exact hview _ _
            · exact ho
        | span =>
          simp only
          split
          · exact ho
          · exact seqBody_fine (by simp) (fun o h => ho2 o (List.mem_of_mem_take h)) hrec
        | _ =>
          simp only
          split
          · exact ho
          · next hn =>
            split
            · exact ho
            · refine seqBody_fine ?_ ?_ hrec
              · intro _
                rw [resizeVals_length]
                have : n ≤ c.g.limit / c.sizeof t := by
                  rw [hlim] at hn ⊢
                  omega
                rw [hlim] at this
                exact Nat.le_trans (Nat.mul_le_mul_right _ this) (Nat.div_mul_le_self L _)
              · intro o hm
                rcases resizeVals_mem hm with h | h
                · exact ho2 o h
                · subst h; exact dflt_fine d t
    | assoc mu ha sz key m =>
      rw [decode]
      generalize decHdr c _ data p = r
      obtain ⟨s, n, p1⟩ := r
      cases s <;> simp only <;> try exact ho
      intro h
      cases h with
      | setElem hv h =>
        rcases decAssoc_mem (fun _ _ _ h => assocInsert_mem h) _ _ _ _ hv with h' | ⟨q, h'⟩
        · simp at h'
        · rw [h'] at h
          exact ih _ _ data q (dflt_fine d _) h
      | mapElem hv h =>
        rcases decAssoc_mem (fun _ _ _ h => assocInsert_mem h) _ _ _ _ hv with h' | ⟨q, h'⟩
        · simp at h'
        · rw [h'] at h
          cases h with
          | member i hf hv h =>
            rcases decFields_get _ _ q i _ _ hf hv with ⟨q', hq⟩ | hq
            · rw [hq] at h
              refine ih _ _ data q' ?_ h
              match i, hf with
              | 0, hf => cases hf; exact dflt_fine d _
              | 1, hf => cases hf; exact dflt_fine d _
            · match i, hf, hq with
              | 0, hf, hq => cases hf; cases hq; exact dflt_fine d _ h
              | 1, hf, hq => cases hf; cases hq; exact dflt_fine d _ h
    | optional dc t =>
      unfold decode
      generalize getBytes data p 1 = r
      obtain ⟨s, bs, p1⟩ := r
      cases s <;> simp only <;> try exact ho
      by_cases hz : leNat bs = 0
      · simp only [hz, if_true]; intro h; cases h
      · simp only [hz, if_false]
        cases dc with
        | true =>
          simp only [if_true]
          intro h
          cases h with
          | optional h =>
            refine ih _ _ data p1 ?_ h
            cases old with
            | some v => exact fun h => ho (.optional h)
            | _ => exact dflt_fine d t
        | false =>
          have := ih t (dflt c d t) data p1 (dflt_fine d t)
          simp only [Bool.false_eq_true, if_false]
          generalize decode d c t (dflt c d t) data p1 = r at this ⊢
          obtain ⟨s, v, p2⟩ := r
          cases s <;> simp only <;> try exact ho
          intro h
          cases h with
          | optional h => exact this h
    | optPtr t =>
      rw [decode]
      generalize getBytes data p 1 = r
      obtain ⟨s, bs, p1⟩ := r
      cases s <;> simp only <;> try exact ho
      split
      · intro h; cases h
      · have := ih t (dflt c d t) data p1 (dflt_fine d t)
        generalize decode d c t (dflt c d t) data p1 = r at this
        obtain ⟨s, v, p2⟩ := r
        cases s <;> simp only <;> try exact ho
        intro h
        cases h with
        | optPtr h => exact this h
    | uptr t =>
      rw [decode]
      have := ih t (dflt c d t) data p (dflt_fine d t)
      generalize decode d c t (dflt c d t) data p = r at this
      obtain ⟨s, v, p2⟩ := r
      cases s <;> simp only <;> try exact ho
      intro h
      cases h with
      | uptr h => exact this h
    | variant idTy ids dcs alts =>
      rw [decode]
      generalize decode d c idTy (dflt c d idTy) data p = r
      obtain ⟨s, id, p1⟩ := r
      cases s <;> simp only <;> try exact ho
      split
      · exact ho
      · next i _ =>
        split
        · next t' dc ha _ =>
          unfold decAlt
          split
          · intro h
            cases h with
            | alt ha' h =>
              rw [ha] at ha'
              cases ha'
              refine ih _ _ data p1 ?_ h
              cases old with
              | alt j v =>
                simp only
                split
                · next hj => subst hj; exact fun h => ho (.alt ha h)
                · exact dflt_fine d _
              | _ => exact dflt_fine d _
          · have := ih t' (dflt c d t') data p1 (dflt_fine d t')
            dsimp only
            generalize decode d c t' (dflt c d t') data p1 = r at this ⊢
            obtain ⟨s, v, p2⟩ := r
            cases s <;> simp only <;> try exact ho
            intro h
            cases h with
            | alt ha' h =>
              rw [ha] at ha'
              cases ha'
              exact this h
        · exact ho

end Zpp
