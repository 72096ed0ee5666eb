import Verif.Model.In
/-! # The reader sees only the bytes from its position on -/

namespace Zpp

/-- The same result with the position moved by `k`. -/
def Res.shift (k : Nat) (r : Res) : Res := ⟨r.s, r.v, k + r.p⟩
/-- The same for lists. -/
def ResL.shift (k : Nat) (r : ResL) : ResL := ⟨r.s, r.vs, k + r.p⟩

theorem ResL.toRes_shift (k : Nat) (r : ResL) : (r.shift k).toRes = r.toRes.shift k := rfl

variable {pre data : List UInt8}

theorem drop_pre (q : Nat) : (pre ++ data).drop (pre.length + q) = data.drop q := by
  rw [← List.drop_drop]; simp

theorem subSz_pre (k a b : Nat) : subSz (k + a) (k + b) = subSz a b := by
  unfold subSz
  by_cases h : b ≤ a
  · rw [if_pos h, if_pos (by omega)]; omega
  · rw [if_neg h, if_neg (by omega)]; omega

theorem getBytes_shift (q n : Nat) : getBytes (pre ++ data) (pre.length + q) n =
    ((getBytes data q n).1, (getBytes data q n).2.1, pre.length + (getBytes data q n).2.2) := by
  unfold getBytes
  rw [drop_pre, List.length_append, subSz_pre]
  by_cases h : subSz data.length q < n
  · rw [if_pos h, if_pos h]
  · rw [if_neg h, if_neg h]
    by_cases h2 : q + n ≤ data.length
    · rw [if_pos h2, if_pos (by omega)]; simp only [Nat.add_assoc]
    · rw [if_neg h2, if_neg (by omega)]

theorem getVarint_shift (n : Nat) (zz : Bool) (old : Val) (q : Nat) :
    getVarint n zz old (pre ++ data) (pre.length + q) = (getVarint n zz old data q).shift pre.length := by
  unfold getVarint
  rw [drop_pre, List.length_append]
  by_cases h : data.length < q
  · rw [if_pos h, if_pos (by omega)]; rfl
  · rw [if_neg h, if_neg (by omega)]
    split <;> simp [Res.shift, Nat.add_assoc]

theorem decHdr_shift (c : Cfg) (sz : SizeTy) (q : Nat) : decHdr c sz (pre ++ data) (pre.length + q) =
    ((decHdr c sz data q).1, (decHdr c sz data q).2.1, pre.length + (decHdr c sz data q).2.2) := by
  cases sz with
  | fixed k =>
    simp only [decHdr, getBytes_shift]
    generalize getBytes data q k = r
    obtain ⟨s, b, p⟩ := r
    cases s <;> rfl
  | varint =>
    simp only [decHdr, getVarint_shift]
    generalize getVarint 8 false (.num 0) data q = r
    obtain ⟨s, v, p⟩ := r
    cases s <;> try rfl
    cases v <;> rfl
  | none => rfl

theorem decRep_shift (c : Cfg) (t : Ty) (n : Nat) (olds : List Val) (q : Nat) :
    decRep c t n olds (pre ++ data) (pre.length + q) = (decRep c t n olds data q).shift pre.length := by
  unfold decRep
  by_cases h : n * c.sizeof t = 0
  · rw [if_pos h, if_pos h]; rfl
  · rw [if_neg h, if_neg h, getBytes_shift]
    generalize getBytes data q (n * c.sizeof t) = r
    obtain ⟨s, b, p⟩ := r
    cases s <;> rfl

theorem decAll_shift {rec rec' : Val → Nat → Res} {k : Nat} (h : ∀ v q, rec v (k + q) = (rec' v q).shift k) :
    ∀ (os : List Val) (q : Nat), decAll rec os (k + q) = (decAll rec' os q).shift k := by
  intro os
  induction os with
  | nil => intro q; rfl
  | cons o os ih =>
    intro q
    simp only [decAll, h]
    generalize rec' o q = r
    obtain ⟨s, v, p⟩ := r
    cases s <;> try rfl
    simp only [Res.shift, ih]; rfl

theorem decFields_shift {rec rec' : Ty → Val → Nat → Res} {k : Nat} (h : ∀ t v q, rec t v (k + q) = (rec' t v q).shift k) :
    ∀ (ts : List Ty) (os : List Val) (q : Nat), decFields rec ts os (k + q) = (decFields rec' ts os q).shift k := by
  intro ts
  induction ts with
  | nil => intro os q; rfl
  | cons t ts ih =>
    intro os q
    simp only [decFields, h]
    generalize rec' t (os.headD .unit) q = r
    obtain ⟨s, v, p⟩ := r
    cases s <;> try rfl
    simp only [Res.shift, ih]; rfl

theorem decAssoc_shift {elem elem' : Nat → Res} {k : Nat} (h : ∀ q, elem (k + q) = (elem' q).shift k)
    (ins : Val → List Val → List Val) :
    ∀ (n : Nat) (vs : List Val) (q : Nat), decAssoc elem ins n vs (k + q) = (decAssoc elem' ins n vs q).shift k := by
  intro n
  induction n with
  | zero => intro vs q; rfl
  | succ n ih =>
    intro vs q
    simp only [decAssoc, h]
    generalize elem' q = r
    obtain ⟨s, v, p⟩ := r
    cases s <;> try rfl
    simp only [Res.shift, ih]

theorem decAlt_shift {rec rec' : Val → Nat → Res} {k : Nat} (h : ∀ v q, rec v (k + q) = (rec' v q).shift k)
    (dc : Bool) (i : Nat) (dv old : Val) (q : Nat) : decAlt rec dc i dv old (k + q) = (decAlt rec' dc i dv old q).shift k := by
  unfold decAlt
  cases dc
  · simp only [Bool.false_eq_true, if_false, h]
    generalize rec' dv q = r
    obtain ⟨s, v, p⟩ := r
    cases s <;> rfl
  · simp only [if_true, h]; rfl

theorem seqBody_shift {rec rec' : Val → Nat → Res} (h : ∀ v q, rec v (pre.length + q) = (rec' v q).shift pre.length)
    (c : Cfg) (k : SeqKind) (t : Ty) (olds : List Val) (q : Nat) :
    seqBody c k t rec olds (pre ++ data) (pre.length + q) = (seqBody c k t rec' olds data q).shift pre.length := by
  unfold seqBody
  by_cases hc : k ≠ .list ∧ asBytes c t = true
  · simp only [if_pos hc, decRep_shift]; rfl
  · simp only [if_neg hc, decAll_shift h]; rfl

theorem seqFill_shift {rec rec' : Val → Nat → Res} (h : ∀ v q, rec v (pre.length + q) = (rec' v q).shift pre.length)
    (c : Cfg) (k : SeqKind) (t : Ty) (dv old : Val) (n q : Nat) :
    seqFill c k t rec dv old (pre ++ data) n (pre.length + q) = (seqFill c k t rec' dv old data n q).shift pre.length := by
  unfold seqFill
  cases k
  case view =>
    simp only [drop_pre, List.length_append, subSz_pre]
    by_cases h1 : subSz data.length q < n
    · rw [if_pos h1, if_pos h1]; rfl
    · rw [if_neg h1, if_neg h1]
      by_cases h2 : q + n ≤ data.length
      · rw [if_pos h2, if_pos (by omega)]; simp only [Res.shift, Nat.add_assoc]
      · rw [if_neg h2, if_neg (by omega)]; rfl
  case span =>
    dsimp only
    split
    · rfl
    · exact seqBody_shift h ..
  all_goals
    dsimp only
    split
    · rfl
    · split
      · rfl
      · exact seqBody_shift h ..

theorem seqUnsized_shift {rec rec' : Val → Nat → Res} (h : ∀ v q, rec v (pre.length + q) = (rec' v q).shift pre.length)
    (c : Cfg) (k : SeqKind) (t : Ty) (old : Val) (q : Nat) :
    seqUnsized c k t rec old (pre ++ data) (pre.length + q) = (seqUnsized c k t rec' old data q).shift pre.length := by
  unfold seqUnsized
  cases k
  case view =>
    simp only [drop_pre, List.length_append]
    by_cases h1 : data.length < q
    · rw [if_pos h1, if_pos (by omega)]; rfl
    · rw [if_neg h1, if_neg (by omega)]
      simp only [Res.shift, show pre.length + data.length - (pre.length + q) = data.length - q by omega]
  all_goals exact seqBody_shift h ..

theorem msgSub_pre (q size : Nat) : msgSub (pre ++ data) (pre.length + q) size = msgSub data q size := by
  unfold msgSub
  rw [drop_pre, List.length_append, show pre.length + data.length - (pre.length + q) = data.length - q by omega]

theorem msgRun_shift (c' : Cfg) (rec : Ty → Val → List UInt8 → Nat → Res) (fresh : Ty → Val) (maps : List (Nat × Nat))
    (nums : List (Option Nat)) (fs : List Ty) (old : Val) (size q : Nat) :
    msgRun c' rec fresh maps nums fs old (pre ++ data) size (pre.length + q) =
      (msgRun c' rec fresh maps nums fs old data size q).shift pre.length := by
  unfold msgRun
  rw [msgSub_pre, List.length_append]
  by_cases h : data.length < q
  · rw [if_pos h, if_pos (by omega)]; rfl
  · rw [if_neg h, if_neg (by omega)]
    simp only [Res.shift, Nat.add_assoc]

theorem decode_shift (c : Cfg) : ∀ (d : Nat) (t : Ty) (old : Val) (q : Nat),
    decode d c t old (pre ++ data) (pre.length + q) = (decode d c t old data q).shift pre.length := by
  intro d
  induction d with
  | zero => intro t old q; rfl
  | succ d ih =>
    intro t old q
    cases t with
    | scalar k n =>
      simp only [decode, getBytes_shift]
      generalize getBytes data q n = r
      obtain ⟨s, b, p⟩ := r
      cases s <;> rfl
    | bool =>
      simp only [decode, getBytes_shift]
      generalize getBytes data q 1 = r
      obtain ⟨s, b, p⟩ := r
      cases s <;> rfl
    | varint n zz => simp only [decode, getVarint_shift]
    | empty => simp only [decode]; rfl
    | struct ok fs =>
      simp only [decode]
      split
      · simp only [decRep_shift]; rfl
      · rw [decFields_shift (rec' := fun t v p => decode d c t v data p) (fun t v q => ih t v q)]; rfl
    | array n t' =>
      simp only [decode]
      split
      · simp only [decRep_shift]; rfl
      · rw [decAll_shift (rec' := fun v p => decode d c t' v data p) (fun v q => ih t' v q)]; rfl
    | seq k sz t' =>
      simp only [decode]
      cases hs : effSz c sz with
      | none => exact seqUnsized_shift (fun v q => ih t' v q) ..
      | _ =>
        simp only [decHdr_shift]
        generalize decHdr c _ data q = r
        obtain ⟨s, n, p⟩ := r
        cases s <;> try rfl
        exact seqFill_shift (fun v q => ih t' v q) ..
    | assoc multi hashed sz key mapped =>
      simp only [decode, decHdr_shift]
      generalize decHdr c _ data q = r
      obtain ⟨s, n, p⟩ := r
      cases s <;> try rfl
      dsimp only
      cases mapped with
      | none => rw [decAssoc_shift (elem' := fun p => decode d c key (dflt c d key) data p) (fun q => ih key _ q)]; rfl
      | some m =>
        rw [decAssoc_shift (elem' := fun p =>
          (decFields (fun t v p => decode d c t v data p) [key, m] [dflt c d key, dflt c d m] p).toRes) (fun q => by
            dsimp only
            rw [decFields_shift (rec' := fun t v p => decode d c t v data p) (fun t v q => ih t v q)]; rfl)]
        rfl
    | optional dc t' =>
      simp only [decode, getBytes_shift]
      generalize getBytes data q 1 = r
      obtain ⟨s, b, p⟩ := r
      cases s <;> try rfl
      dsimp only
      split
      · rfl
      · split
        · rw [ih]; rfl
        · rw [ih]
          generalize decode d c t' (dflt c d t') data p = r
          obtain ⟨s, v, p⟩ := r
          cases s <;> rfl
    | optPtr t' =>
      simp only [decode, getBytes_shift]
      generalize getBytes data q 1 = r
      obtain ⟨s, b, p⟩ := r
      cases s <;> try rfl
      dsimp only
      split
      · rfl
      · rw [ih]
        generalize decode d c t' (dflt c d t') data p = r
        obtain ⟨s, v, p⟩ := r
        cases s <;> rfl
    | uptr t' =>
      simp only [decode]
      rw [ih]
      generalize decode d c t' (dflt c d t') data q = r
      obtain ⟨s, v, p⟩ := r
      cases s <;> rfl
    | variant idTy ids dcs alts =>
      simp only [decode]
      rw [ih]
      generalize decode d c idTy (dflt c d idTy) data q = r
      obtain ⟨s, v, p⟩ := r
      cases s <;> try rfl
      dsimp only [Res.shift]
      split
      · rfl
      · split
        · exact decAlt_shift (fun v q => ih _ v q) ..
        · rfl
    | bitset n =>
      simp only [decode, getBytes_shift]
      generalize getBytes data q _ = r
      obtain ⟨s, b, p⟩ := r
      cases s <;> rfl
    | msg sz ok maps nums fs =>
      simp only [decode]
      cases hs : effSz c sz with
      | none => exact msgRun_shift ..
      | _ =>
        simp only [decHdr_shift]
        generalize decHdr c _ data q = r
        obtain ⟨s, n, p⟩ := r
        cases s <;> try rfl
        exact msgRun_shift ..
    | ref i => simp only [decode]; exact ih ..

theorem decMany_shift (d : Nat) (c : Cfg) : ∀ (items : List (Ty × Val)) (q : Nat),
    decMany d c (pre ++ data) items (pre.length + q) = (decMany d c data items q).shift pre.length := by
  intro items
  induction items with
  | nil => intro q; rfl
  | cons it rest ih =>
    intro q
    obtain ⟨t, o⟩ := it
    simp only [decMany, decode_shift]
    generalize decode d c t o data q = r
    obtain ⟨s, v, p⟩ := r
    cases s <;> try rfl
    simp only [Res.shift, ih]; rfl

end Zpp
