import Verif.Model.Out
/-! # A writer over a fixed buffer neither sees nor touches the bytes in front of its position -/

namespace Zpp

/-- The outcome of an operation on a buffer in front of which `pre` stands. -/
def shiftOut (pre : List UInt8) (r : Status × OutSt) : Status × OutSt :=
  (r.1, ⟨pre ++ r.2.data, pre.length + r.2.pos⟩)

/-- The operation ignores a prefix of the buffer; the position does not move back, or out of the buffer. -/
structure Shifts (m : OutM) : Prop where
  run : ∀ (data : List UInt8) (pos : Nat), pos ≤ data.length →
    (∀ pre : List UInt8, m ⟨pre ++ data, pre.length + pos⟩ = shiftOut pre (m ⟨data, pos⟩)) ∧
    pos ≤ (m ⟨data, pos⟩).2.pos ∧ (m ⟨data, pos⟩).2.pos ≤ (m ⟨data, pos⟩).2.data.length

theorem Shifts.skip : Shifts OutM.skip := ⟨fun _ _ h => ⟨fun _ => rfl, Nat.le_refl _, h⟩⟩

theorem Shifts.fail (s : Status) : Shifts (OutM.fail s) := ⟨fun _ _ h => ⟨fun _ => rfl, Nat.le_refl _, h⟩⟩

theorem Shifts.andThen {a b : OutM} (ha : Shifts a) (hb : Shifts b) : Shifts (a.andThen b) := by
  constructor
  intro data pos h
  obtain ⟨h1, h2, h3⟩ := ha.run data pos h
  simp only [OutM.andThen, h1]
  generalize a ⟨data, pos⟩ = r at h2 h3
  obtain ⟨s, d', p'⟩ := r
  cases s
  case ok =>
    obtain ⟨h4, h5, h6⟩ := hb.run d' p' h3
    exact ⟨h4, Nat.le_trans h2 h5, h6⟩
  all_goals exact ⟨fun _ => rfl, h2, h3⟩

theorem Shifts.ite {p : Prop} [Decidable p] {a b : OutM} (ha : Shifts a) (hb : Shifts b) : Shifts (if p then a else b) := by
  split
  · exact ha
  · exact hb

theorem subSz_add_left (k a b : Nat) : subSz (k + a) (k + b) = subSz a b := by
  unfold subSz
  split <;> split <;> omega

theorem claim_shifts {g : Growth} (hg : g.resizable = false) (n : Nat) : Shifts (claim g n) := by
  constructor
  intro data pos h
  simp only [claim, hg, List.length_append, subSz_add_left]
  refine ⟨fun pre => ?_, ?_⟩
  · split
    · rfl
    · simp only [Bool.false_eq_true, if_false]
      split <;> rfl
  · split
    · exact ⟨Nat.le_refl _, h⟩
    · simp only [Bool.false_eq_true, if_false]
      split <;> exact ⟨Nat.le_refl _, h⟩

theorem memcpyAt_shifts (bs : List UInt8) : Shifts (memcpyAt bs) := by
  constructor
  intro data pos h
  simp only [memcpyAt, List.length_append]
  by_cases hc : pos + bs.length ≤ data.length
  · rw [if_pos hc]
    refine ⟨fun pre => ?_, Nat.le_add_right .., ?_⟩
    · rw [if_pos (by omega)]
      simp only [shiftOut, Nat.add_assoc, List.take_length_add_append, List.drop_length_add_append, List.append_assoc]
    · simp only [List.length_append, List.length_take, List.length_drop]; omega
  · rw [if_neg hc]
    refine ⟨fun pre => ?_, Nat.le_refl _, h⟩
    rw [if_neg (by omega)]; rfl

theorem put_shifts {g : Growth} (hg : g.resizable = false) (bs : List UInt8) : Shifts (put g bs) :=
  (claim_shifts hg _).andThen (memcpyAt_shifts bs)

theorem putBytes_shifts {g : Growth} (hg : g.resizable = false) (bs : List UInt8) : Shifts (putBytes g bs) :=
  Shifts.ite Shifts.skip (put_shifts hg bs)

theorem putVarint_shifts {g : Growth} (hg : g.resizable = false) (n value : Nat) : Shifts (putVarint g n value) := by
  constructor
  intro data pos h
  obtain ⟨h1, h2, h3⟩ := (memcpyAt_shifts (varintBytes value)).run data pos h
  simp only [putVarint, hg, List.length_append, Nat.add_sub_add_left, Bool.false_eq_true, if_false]
  rw [if_neg (Nat.not_lt.mpr h)]
  refine ⟨fun pre => ?_, ?_⟩
  · rw [if_neg (by omega)]
    split
    · rfl
    · exact h1 pre
  · split
    · exact ⟨Nat.le_refl _, h⟩
    · exact ⟨h2, h3⟩

theorem encVarintVal_shifts {c : Cfg} (hg : c.g.resizable = false) (n : Nat) (zz : Bool) (v : Val) :
    Shifts (encVarintVal c n zz v) := by
  cases v
  case num x => exact Shifts.ite (putVarint_shifts hg ..) (Shifts.fail _)
  all_goals exact Shifts.fail _

theorem encHdr_shifts {c : Cfg} (hg : c.g.resizable = false) (sz : SizeTy) (n : Nat) : Shifts (encHdr c sz n) := by
  cases sz
  · exact put_shifts hg _
  · exact putVarint_shifts hg ..
  · exact Shifts.skip

theorem encAll_shifts {rec : Val → OutM} (h : ∀ v, Shifts (rec v)) : ∀ vs, Shifts (encAll rec vs)
  | [] => Shifts.skip
  | v :: vs => (h v).andThen (encAll_shifts h vs)

theorem encFields_shifts {rec : Ty → Val → OutM} (h : ∀ t v, Shifts (rec t v)) :
    ∀ ts vs, Shifts (encFields rec ts vs)
  | [], [] => Shifts.skip
  | t :: ts, v :: vs => (h t v).andThen (encFields_shifts h ts vs)
  | [], _ :: _ => Shifts.fail _
  | _ :: _, [] => Shifts.fail _

theorem encRep_shifts {g : Growth} (hg : g.resizable = false) (r : Option (List UInt8)) : Shifts (encRep g r) := by
  cases r
  · exact Shifts.fail _
  · exact putBytes_shifts hg _

theorem encBitset_shifts {g : Growth} (hg : g.resizable = false) (n : Nat) (bits : List Bool) :
    Shifts (encBitset g n bits) := by
  refine Shifts.ite ((claim_shifts hg _).andThen ?_) (Shifts.fail _)
  constructor
  intro data pos h
  simp only [List.length_append, List.drop_length_add_append]
  by_cases hc : pos + bitsetBytes n ≤ data.length
  · rw [if_pos hc]
    cases ho : orBits bits 0 ((data.drop pos).take (bitsetBytes n)) with
    | none =>
      refine ⟨fun pre => ?_, Nat.le_refl _, h⟩
      rw [if_pos (by omega)]; rfl
    | some bs =>
      obtain ⟨h1, h2, h3⟩ := (memcpyAt_shifts bs).run data pos h
      refine ⟨fun pre => ?_, h2, h3⟩
      rw [if_pos (by omega)]
      exact h1 pre
  · rw [if_neg hc]
    refine ⟨fun pre => ?_, Nat.le_refl _, h⟩
    rw [if_neg (by omega)]; rfl

theorem encVariant_shifts {rec : Ty → Val → OutM} (h : ∀ t v, Shifts (rec t v)) (idTy : Ty) (ids : List Val)
    (alts : List Ty) (v : Val) : Shifts (encVariant rec idTy ids alts v) := by
  cases v
  case alt i v =>
    simp only [encVariant]
    split
    · exact (h ..).andThen (h ..)
    · exact Shifts.fail _
  all_goals exact Shifts.fail _

theorem encOptional_shifts {g : Growth} (hg : g.resizable = false) {rec : Val → OutM} (h : ∀ v, Shifts (rec v))
    (v : Val) : Shifts (encOptional g rec v) := by
  cases v
  case none => exact put_shifts hg _
  case some v => exact (put_shifts hg _).andThen (h v)
  all_goals exact Shifts.fail _

theorem encUptr_shifts {rec : Val → OutM} (h : ∀ v, Shifts (rec v)) (v : Val) : Shifts (encUptr rec v) := by
  cases v
  case some v => exact h v
  all_goals exact Shifts.fail _

/-- The overwrite of a size field shifts along with the place of the field. -/
theorem patchSize_shift (c : Cfg) (sz : SizeTy) (sizePos n : Nat) (pre data : List UInt8) (pos : Nat) (h : sizePos ≤ data.length)
    (hp : pos ≤ data.length) :
    patchSize c sz (pre.length + sizePos) n ⟨pre ++ data, pre.length + pos⟩ =
      shiftOut pre (patchSize c sz sizePos n ⟨data, pos⟩) ∧
    (patchSize c sz sizePos n ⟨data, pos⟩).2.pos = pos ∧
    pos ≤ (patchSize c sz sizePos n ⟨data, pos⟩).2.data.length := by
  have key : ∀ bs, memcpyAt bs ⟨pre ++ data, pre.length + sizePos⟩ = shiftOut pre (memcpyAt bs ⟨data, sizePos⟩) :=
    fun bs => ((memcpyAt_shifts bs).run data sizePos h).1 pre
  have len : ∀ bs st', memcpyAt bs ⟨data, sizePos⟩ = (.ok, st') → st'.data.length = data.length := by
    intro bs st' hb
    simp only [memcpyAt] at hb
    split at hb
    · cases hb
      simp only [List.length_append, List.length_take, List.length_drop]; omega
    · cases hb
  have both : ∀ bs : List UInt8,
      ((match memcpyAt bs ⟨pre ++ data, pre.length + sizePos⟩ with
        | (.ok, st') => (Status.ok, { st' with pos := pre.length + pos })
        | (s, _) => (s, (⟨pre ++ data, pre.length + pos⟩ : OutSt))) =
        shiftOut pre (match memcpyAt bs ⟨data, sizePos⟩ with
          | (.ok, st') => (Status.ok, { st' with pos := pos })
          | (s, _) => (s, ⟨data, pos⟩))) ∧
      (match memcpyAt bs ⟨data, sizePos⟩ with
          | (.ok, st') => (Status.ok, { st' with pos := pos })
          | (s, _) => (s, (⟨data, pos⟩ : OutSt))).2.pos = pos ∧
      pos ≤ (match memcpyAt bs ⟨data, sizePos⟩ with
          | (.ok, st') => (Status.ok, { st' with pos := pos })
          | (s, _) => (s, (⟨data, pos⟩ : OutSt))).2.data.length := by
    intro bs
    rw [key]
    have hl := len bs
    generalize memcpyAt bs ⟨data, sizePos⟩ = r at hl
    obtain ⟨s, st'⟩ := r
    cases s
    case ok => exact ⟨rfl, rfl, by rw [hl st' rfl]; exact hp⟩
    all_goals exact ⟨rfl, rfl, hp⟩
  cases sz
  case fixed k => exact both _
  case varint =>
    simp only [patchSize]
    split
    · exact ⟨rfl, rfl, hp⟩
    · exact both _
  case none => exact ⟨rfl, rfl, hp⟩

theorem moveAhead_shift {g : Growth} (hg : g.resizable = false) (sizePos : Nat) (data : List UInt8) (pos : Nat)
    (h : pos ≤ data.length) :
    (∀ pre : List UInt8, moveAhead g (pre.length + sizePos) ⟨pre ++ data, pre.length + pos⟩ =
      shiftOut pre (moveAhead g sizePos ⟨data, pos⟩)) ∧
    pos ≤ (moveAhead g sizePos ⟨data, pos⟩).2.pos ∧
    (moveAhead g sizePos ⟨data, pos⟩).2.pos ≤ (moveAhead g sizePos ⟨data, pos⟩).2.data.length := by
  simp only [moveAhead, subSz_add_left]
  generalize varintSize 8 (subSz (subSz pos sizePos) 1) - 1 = ahead
  by_cases ha : ahead = 0
  · simp only [ha, if_true]
    exact ⟨fun _ => rfl, Nat.le_refl _, h⟩
  · simp only [if_neg ha]
    obtain ⟨h1, h2, h3⟩ := (claim_shifts hg ahead).run data pos h
    simp only [h1]
    generalize claim g ahead ⟨data, pos⟩ = r at h2 h3
    obtain ⟨s, d', p'⟩ := r
    cases s
    case ok =>
      simp only [shiftOut, List.length_append]
      by_cases hc : pos + ahead ≤ d'.length ∧ sizePos + 1 ≤ pos
      · rw [if_pos hc]
        refine ⟨fun pre => ?_, Nat.le_add_right .., ?_⟩
        · rw [if_pos (by omega)]
          simp only [Nat.add_assoc, List.take_length_add_append, List.drop_length_add_append, List.append_assoc]
        · simp only [List.length_append, List.length_take, List.length_drop]; omega
      · rw [if_neg hc]
        refine ⟨fun pre => ?_, h2, h3⟩
        rw [if_neg (by omega)]
    all_goals exact ⟨fun _ => rfl, h2, h3⟩

theorem encByProtocol_shifts {c : Cfg} (hg : c.g.resizable = false) (sz : SizeTy) {body : OutM} (hb : Shifts body) :
    Shifts (encByProtocol c sz body) := by
  have hdr : Shifts ((encHdr c sz 0).andThen body) := (encHdr_shifts hg sz 0).andThen hb
  constructor
  intro data pos h
  cases sz
  case none => exact hb.run data pos h
  case fixed k =>
    simp only [encByProtocol]
    generalize (encHdr c (.fixed k) 0).andThen body = X at hdr
    obtain ⟨h1, h2, h3⟩ := hdr.run data pos h
    simp only [OutM.andThen, h1]
    generalize X ⟨data, pos⟩ = r at h2 h3
    obtain ⟨s, d', p'⟩ := r
    cases s
    case ok =>
      simp only [shiftOut, subSz_add_left]
      dsimp only at h2 h3
      refine ⟨fun pre => (patchSize_shift c _ _ _ pre d' p' (Nat.le_trans h2 h3) h3).1, ?_⟩
      obtain ⟨-, h4, h5⟩ := patchSize_shift c (.fixed k) pos (subSz (subSz p' pos) k) [] d' p' (Nat.le_trans h2 h3) h3
      rw [h4]
      exact ⟨h2, h5⟩
    all_goals exact ⟨fun _ => rfl, h2, h3⟩
  case varint =>
    simp only [encByProtocol]
    generalize (encHdr c .varint 0).andThen body = X at hdr
    obtain ⟨h1, h2, h3⟩ := hdr.run data pos h
    simp only [OutM.andThen, h1]
    generalize X ⟨data, pos⟩ = r at h2 h3
    obtain ⟨s, d', p'⟩ := r
    cases s
    case ok =>
      simp only [shiftOut, subSz_add_left]
      dsimp only at h2 h3
      obtain ⟨h4, h5, h6⟩ := moveAhead_shift hg pos d' p' h3
      simp only [h4]
      generalize moveAhead c.g pos ⟨d', p'⟩ = r at h5 h6
      obtain ⟨s, d2, p2⟩ := r
      dsimp only at h5 h6
      cases s
      case ok =>
        refine ⟨fun pre => (patchSize_shift c _ _ _ pre d2 p2 (by omega) h6).1, ?_⟩
        obtain ⟨-, h7, h8⟩ := patchSize_shift c .varint pos (subSz (subSz p' pos) 1) [] d2 p2 (by omega) h6
        dsimp only
        rw [h7]
        exact ⟨by omega, h8⟩
      all_goals exact ⟨fun _ => rfl, by dsimp only; omega, h6⟩
    all_goals exact ⟨fun _ => rfl, h2, h3⟩

theorem encTag_shifts {c : Cfg} (hg : c.g.resizable = false) (maps : List (Nat × Nat)) (num : Option Nat) (i wt : Nat) :
    Shifts (encTag c maps num i wt) := Shifts.ite (putVarint_shifts hg ..) (putVarint_shifts hg ..)

theorem pbEncField_shifts {c : Cfg} (hg : c.g.resizable = false) {rec : Ty → Val → OutM} (h : ∀ t v, Shifts (rec t v))
    (maps : List (Nat × Nat)) (num : Option Nat) (i : Nat) (t : Ty) (v : Val) :
    Shifts (pbEncField c rec maps num i t v) := by
  unfold pbEncField
  have tag := fun num wt => encTag_shifts hg maps num i wt
  split
  · exact Shifts.skip
  · exact (tag ..).andThen (encVarintVal_shifts hg ..)
  · exact (tag ..).andThen (h ..)
  · split
    · exact encAll_shifts (fun e => (tag ..).andThen (h ..)) _
    · exact Shifts.fail _
  · split
    · refine Shifts.ite Shifts.skip (((tag ..).andThen (putVarint_shifts hg ..)).andThen ?_)
      split
      · exact h ..
      · exact encAll_shifts (fun v => h _ v) _
    · exact Shifts.fail _
  · split
    · exact Shifts.ite Shifts.skip (((tag ..).andThen (putVarint_shifts hg ..)).andThen
        (encAll_shifts (fun v => encVarintVal_shifts hg ..) _))
    · exact Shifts.fail _
  · split
    · exact Shifts.ite Shifts.skip (((tag ..).andThen (putVarint_shifts hg ..)).andThen
        (encAll_shifts (fun v => encVarintVal_shifts hg ..) _))
    · exact Shifts.fail _
  · split
    · exact encAll_shifts (fun e => (tag ..).andThen (h ..)) _
    · exact Shifts.fail _

theorem pbEncFields_shifts {c : Cfg} (hg : c.g.resizable = false) {rec : Ty → Val → OutM} (h : ∀ t v, Shifts (rec t v))
    (maps : List (Nat × Nat)) : ∀ (i : Nat) (nums : List (Option Nat)) (ts : List Ty) (vs : List Val),
    Shifts (pbEncFields c rec maps i nums ts vs) := by
  intro i nums
  induction nums generalizing i with
  | nil =>
    intro ts vs
    cases ts <;> cases vs <;> first | exact Shifts.skip | exact Shifts.fail _
  | cons num nums ih =>
    intro ts vs
    cases ts <;> cases vs <;> first
      | exact (pbEncField_shifts hg h maps num i _ _).andThen (ih (i + 1) _ _)
      | exact Shifts.fail _

theorem encode_shifts : ∀ (d : Nat) (c : Cfg), c.g.resizable = false → ∀ (t : Ty) (v : Val), Shifts (encode d c t v) := by
  intro d
  induction d with
  | zero => intro c hg t v; exact Shifts.fail _
  | succ d ih =>
    intro c hg t v
    have ihc := ih c hg
    cases t with
    | scalar _ n =>
      cases v
      case num x => exact put_shifts hg _
      all_goals exact Shifts.fail _
    | bool =>
      cases v
      case num x => exact put_shifts hg _
      all_goals exact Shifts.fail _
    | varint n zz => exact encVarintVal_shifts hg ..
    | empty => exact Shifts.skip
    | struct ok fs =>
      cases v
      case list vs => exact Shifts.ite (encRep_shifts hg _) (encFields_shifts ihc ..)
      all_goals exact Shifts.fail _
    | array n t' =>
      cases v
      case list vs =>
        exact Shifts.ite (Shifts.fail _) (Shifts.ite (encRep_shifts hg _) (encAll_shifts (ihc t') _))
      all_goals exact Shifts.fail _
    | seq k sz t' =>
      cases v
      case list vs =>
        exact (encHdr_shifts hg ..).andThen (Shifts.ite (encRep_shifts hg _) (encAll_shifts (ihc t') _))
      all_goals exact Shifts.fail _
    | assoc _ _ sz key mapped =>
      cases v
      case list vs =>
        refine (encHdr_shifts hg ..).andThen (encAll_shifts (fun e => ?_) _)
        split
        · exact ihc ..
        · split
          · exact encFields_shifts ihc ..
          · exact Shifts.fail _
      all_goals exact Shifts.fail _
    | optional _ t' => exact encOptional_shifts hg (ihc t') v
    | optPtr t' => exact encOptional_shifts hg (ihc t') v
    | uptr t' => exact encUptr_shifts (ihc t') v
    | variant idTy ids _ alts => exact encVariant_shifts ihc ..
    | bitset n =>
      cases v
      case bits bs => exact encBitset_shifts hg n bs
      all_goals exact Shifts.fail _
    | msg sz _ maps nums fs =>
      cases v
      case list vs =>
        have hg' : (pbOutCfg c).g.resizable = false := by
          unfold pbOutCfg
          split
          · exact hg
          · exact hg
        exact encByProtocol_shifts hg _ (pbEncFields_shifts hg' (ih _ hg') maps 0 nums fs vs)
      all_goals exact Shifts.fail _
    | ref i => exact ihc ..

theorem encMany_shifts (d : Nat) (c : Cfg) (hg : c.g.resizable = false) : ∀ items, Shifts (encMany d c items)
  | [] => Shifts.skip
  | (t, v) :: rest => (encode_shifts d c hg t v).andThen (encMany_shifts d c hg rest)

theorem outCall_shifts (d : Nat) (c : Cfg) (hg : c.g.resizable = false) (noFit : Bool) (items : List (Ty × Val)) :
    Shifts (outCall d c noFit items) := by
  have : outCall d c noFit items = encMany d c items := by
    funext st
    simp [outCall, fitCall, hg]
  rw [this]
  exact encMany_shifts d c hg items

end Zpp
