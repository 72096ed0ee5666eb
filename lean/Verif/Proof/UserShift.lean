import Verif.Proof.InShift
import Verif.Proof.OutShift
import Verif.Model.UserNest
/-! # The reader sees only the bytes from its position on: classes with a user-written `serialize` function -/

namespace Zpp

variable {pre data : List UInt8}

theorem uScriptIn_shift {T : Type} {rec rec' : T → Val → Nat → Res} {k : Nat}
    (h : ∀ t v q, rec t v (k + q) = (rec' t v q).shift k) :
    ∀ (s : ScriptOf T) (vs : List Val) (q : Nat), uScriptIn rec s vs (k + q) = (uScriptIn rec' s vs q).shift k := by
  intro s
  induction s with
  | done => intro vs q; rfl
  | fail e => intro vs q; rfl
  | archive m t next ih =>
    intro vs q
    simp only [uScriptIn, h]
    generalize rec' t (memberOf vs m) q = r
    obtain ⟨s, v, p⟩ := r
    cases s <;> try rfl
    exact ih ..

theorem uOptIn_shift {rec rec' : Val → Nat → Res} (h : ∀ v q, rec v (pre.length + q) = (rec' v q).shift pre.length)
    (b : Bool) (cur dv old : Val) (q : Nat) :
    uOptIn b rec cur dv old (pre ++ data) (pre.length + q) = (uOptIn b rec' cur dv old data q).shift pre.length := by
  unfold uOptIn
  rw [getBytes_shift]
  generalize getBytes data q 1 = r
  obtain ⟨s, bs, p⟩ := r
  cases s <;> try rfl
  dsimp only
  split
  · rfl
  · split
    · rw [h]; rfl
    · rw [h]
      generalize rec' dv p = r
      obtain ⟨s, v, p⟩ := r
      cases s <;> rfl

theorem uSeqFill_shift {rec rec' : Val → Nat → Res} {m : Nat} (h : ∀ v q, rec v (m + q) = (rec' v q).shift m)
    (g : Growth) (k : SeqKind) (size : Nat) (dv old : Val) (n q : Nat) :
    uSeqFill g k size rec dv old n (m + q) = (uSeqFill g k size rec' dv old n q).shift m := by
  unfold uSeqFill
  cases k
  case view => rfl
  case span =>
    dsimp only
    split
    · rfl
    · rw [decAll_shift h]; rfl
  all_goals
    dsimp only
    split
    · rfl
    · split
      · rfl
      · rw [decAll_shift h]; rfl

theorem uEntryIn_shift {key key' mapped mapped' : Nat → Res} {k : Nat} (h1 : ∀ q, key (k + q) = (key' q).shift k)
    (h2 : ∀ q, mapped (k + q) = (mapped' q).shift k) (q : Nat) :
    uEntryIn key mapped (k + q) = (uEntryIn key' mapped' q).shift k := by
  unfold uEntryIn
  rw [h1]
  generalize key' q = r
  obtain ⟨s, v, p⟩ := r
  cases s <;> try rfl
  simp only [Res.shift, h2]

theorem uDecode_shift (u : UCfg) : ∀ (d : Nat) (t : UTy) (old : Val) (q : Nat),
    uDecode d u t old (pre ++ data) (pre.length + q) = (uDecode d u t old data q).shift pre.length := by
  intro d
  induction d with
  | zero => intro t old q; rfl
  | succ d ih =>
    intro t old q
    cases t with
    | lib t' => simp only [uDecode]; exact decode_shift ..
    | user fresh s =>
      simp only [uDecode]
      rw [uScriptIn_shift (rec' := fun t v p => uDecode d u t v data p) (fun t v q => ih t v q)]; rfl
    | seq k sz t' =>
      simp only [uDecode]
      cases hs : effSz u.c sz with
      | none =>
        dsimp only
        split
        · rfl
        · rw [decAll_shift (rec' := fun v p => uDecode d u t' v data p) (fun v q => ih t' v q)]; rfl
      | _ =>
        simp only [decHdr_shift]
        generalize decHdr u.c _ data q = r
        obtain ⟨s, n, p⟩ := r
        cases s <;> try rfl
        exact uSeqFill_shift (fun v q => ih t' v q) ..
    | array n t' =>
      simp only [uDecode]
      rw [decAll_shift (rec' := fun v p => uDecode d u t' v data p) (fun v q => ih t' v q)]; rfl
    | set multi hashed sz t' =>
      simp only [uDecode, decHdr_shift]
      generalize decHdr u.c _ data q = r
      obtain ⟨s, n, p⟩ := r
      cases s <;> try rfl
      dsimp only
      rw [decAssoc_shift (fun q => ih t' _ q)]; rfl
    | map multi hashed sz key t' =>
      simp only [uDecode, decHdr_shift]
      generalize decHdr u.c _ data q = r
      obtain ⟨s, n, p⟩ := r
      cases s <;> try rfl
      dsimp only
      rw [decAssoc_shift (uEntryIn_shift (fun q => ih key _ q) (fun q => ih t' _ q))]; rfl
    | optional dc t' => simp only [uDecode]; exact uOptIn_shift (fun v q => ih t' v q) ..
    | optPtr t' => simp only [uDecode]; exact uOptIn_shift (fun v q => ih t' v q) ..
    | uptr t' =>
      simp only [uDecode]
      rw [ih]
      generalize uDecode d u t' (uFresh d u t') data q = r
      obtain ⟨s, v, p⟩ := r
      cases s <;> rfl
    | variant idTy ids dcs alts =>
      simp only [uDecode]
      rw [decode_shift]
      generalize decode d u.c idTy (dflt u.c d idTy) data q = r
      obtain ⟨s, v, p⟩ := r
      cases s <;> try rfl
      dsimp only [Res.shift]
      split
      · rfl
      · split
        · exact decAlt_shift (fun v q => ih _ v q) ..
        · rfl
    | ref i => simp only [uDecode]; exact ih ..

theorem uScriptOut_shifts {T : Type} {rec : T → Val → OutM} (h : ∀ t v, Shifts (rec t v)) (self : List Val) :
    ∀ s : ScriptOf T, Shifts (uScriptOut rec self s) := by
  intro s
  induction s with
  | done => exact Shifts.skip
  | fail e => exact Shifts.fail _
  | archive m t next ih => exact (h ..).andThen (ih _)

theorem uEntryOut_shifts {key mapped : Val → OutM} (h1 : ∀ v, Shifts (key v)) (h2 : ∀ v, Shifts (mapped v)) (v : Val) :
    Shifts (uEntryOut key mapped v) := by
  unfold uEntryOut
  split
  · exact (h1 _).andThen (h2 _)
  · exact ((h1 _).andThen (h2 _)).andThen (Shifts.fail _)
  · exact (h1 _).andThen (Shifts.fail _)
  · exact Shifts.fail _

theorem uEncode_shifts (u : UCfg) (hg : u.c.g.resizable = false) :
    ∀ (d : Nat) (t : UTy) (v : Val), Shifts (uEncode d u t v) := by
  intro d
  induction d with
  | zero => intro t v; exact Shifts.fail _
  | succ d ih =>
    intro t v
    cases t with
    | lib t' => exact encode_shifts _ _ hg ..
    | user fresh s =>
      cases v
      case list vs => exact uScriptOut_shifts ih ..
      all_goals exact Shifts.fail _
    | seq k sz t' =>
      cases v
      case list vs => exact (encHdr_shifts hg ..).andThen (encAll_shifts (ih t') _)
      all_goals exact Shifts.fail _
    | array n t' =>
      cases v
      case list vs => exact Shifts.ite (Shifts.fail _) (encAll_shifts (ih t') _)
      all_goals exact Shifts.fail _
    | set multi hashed sz t' =>
      cases v
      case list vs => exact (encHdr_shifts hg ..).andThen (encAll_shifts (ih t') _)
      all_goals exact Shifts.fail _
    | map multi hashed sz key t' =>
      cases v
      case list vs =>
        exact (encHdr_shifts hg ..).andThen
          (encAll_shifts (uEntryOut_shifts (ih key) (ih t')) _)
      all_goals exact Shifts.fail _
    | optional dc t' => exact encOptional_shifts hg (ih t') v
    | optPtr t' => exact encOptional_shifts hg (ih t') v
    | uptr t' => exact encUptr_shifts (ih t') v
    | variant idTy ids dcs alts =>
      cases v
      case alt i x =>
        simp only [uEncode]
        split
        · exact (encode_shifts d u.c hg _ _).andThen (ih _ _)
        · exact Shifts.fail _
      all_goals exact Shifts.fail _
    | ref i => exact ih ..

end Zpp
