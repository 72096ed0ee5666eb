import Verif.Proof.OutProtocol
/-! # Serialization writes the documented format -/

namespace Zpp
open Spec

/-- A reference to a named class. -/
def Ty.isRef : Ty → Bool
  | .ref _ => true
  | _ => false

theorem depth_mem {v : Val} {vs : List Val} (h : v ∈ vs) : depth v ≤ depthL vs := by
  induction vs with
  | nil => cases h
  | cons w ws ih =>
    simp only [depthL]
    rcases List.mem_cons.mp h with h | h
    · subst h; omega
    · have := ih h; omega

theorem noBits_mem {v : Val} {vs : List Val} (h : v ∈ vs) (hb : noBitsL vs = true) : noBits v = true := by
  induction vs with
  | nil => cases h
  | cons w ws ih =>
    simp only [noBitsL, Bool.and_eq_true] at hb
    rcases List.mem_cons.mp h with h | h
    · subst h; exact hb.1
    · exact ih h hb.2

theorem depth_pos (v : Val) : 0 < depth v := by
  cases v <;> simp [depth] <;> omega

/-- A serializer emits the documented encoding for all good types, up to a nesting depth. -/
def EncOk (c : Cfg) (rec : Ty → Val → OutM) (z : Bool) (D : Nat) : Prop :=
  ∀ t v bs, Good c t = true → wire (fmtOf c) t v = some bs → bs.length < 2 ^ 63 →
    (z = true ∨ noBits v = true) → 2 * depth v ≤ (if t.isRef then D else D + 1) → Emits c.g z bs (rec t v)

/-- Elements: generic in the element encoding. -/
theorem encAll_emits {g : Growth} {z : Bool} {rec : Val → OutM} {w : Val → Option (List UInt8)}
    {W : List Val → Option (List UInt8)} (hnil : W [] = some [])
    (hcons : ∀ v vs, W (v :: vs) = cat (w v) (W vs)) :
    ∀ (vs : List Val) (bs : List UInt8), W vs = some bs → bs.length < 2 ^ 63 →
      (∀ v ∈ vs, ∀ b, w v = some b → b.length < 2 ^ 63 → Emits g z b (rec v)) →
      Emits g z bs (encAll rec vs) := by
  intro vs
  induction vs with
  | nil => intro bs h _ _; rw [hnil] at h; cases h; exact Emits.skip g z
  | cons v vs ih =>
    intro bs h hl hr
    rw [hcons, cat_eq_some] at h
    obtain ⟨x, y, hx, hy, rfl⟩ := h
    simp only [List.length_append] at hl
    exact (hr v (by simp) x hx (by omega)).andThen
      (ih y hy (by omega) (fun v' h' => hr v' (by simp [h'])))

theorem encFields_emits {g : Growth} {z : Bool} {f : Fmt} {rec : Ty → Val → OutM} :
    ∀ (ts : List Ty) (vs : List Val) (bs : List UInt8), wireFields f ts vs = some bs → bs.length < 2 ^ 63 →
      (∀ t ∈ ts, ∀ v ∈ vs, ∀ b, wire f t v = some b → b.length < 2 ^ 63 → Emits g z b (rec t v)) →
      Emits g z bs (encFields rec ts vs) := by
  intro ts
  induction ts with
  | nil =>
    intro vs bs h _ _
    cases vs with
    | nil => simp only [wireFields, Option.some.injEq] at h; subst h; exact Emits.skip g z
    | cons v vs => simp [wireFields] at h
  | cons t ts ih =>
    intro vs bs h hl hr
    cases vs with
    | nil => simp [wireFields] at h
    | cons v vs =>
      simp only [wireFields, cat_eq_some] at h
      obtain ⟨x, y, hx, hy, rfl⟩ := h
      simp only [List.length_append] at hl
      exact (hr t (by simp) v (by simp) x hx (by omega)).andThen
        (ih vs y hy (by omega) (fun t' ht v' hv => hr t' (by simp [ht]) v' (by simp [hv])))

theorem GoodL_mem {c : Cfg} {ts : List Ty} (h : GoodL c ts = true) : ∀ t ∈ ts, Good c t = true := by
  induction ts with
  | nil => intro t ht; cases ht
  | cons a as ih =>
    simp only [GoodL, Bool.and_eq_true] at h
    intro t ht
    rcases List.mem_cons.mp ht with e | e
    · subst e; exact h.1
    · exact ih h.2 t e

theorem encVarintVal_emits {c : Cfg} (hg : GrowthOk c.g) (z : Bool) {n : Nat} (zz : Bool) {x : Nat}
    (hn : IntWidth n) (hx : x < 2 ^ (8 * n)) :
    Emits c.g z (leb (varintValue n zz x)) (encVarintVal c n zz (.num x)) := by
  have h0 : 0 < n ∧ n ≤ 8 := by rcases hn with h | h | h | h <;> omega
  unfold encVarintVal
  simp only
  rw [if_pos ⟨h0.1, h0.2, hx⟩, leb_varintValue n zz x hn hx]
  exact putVarint_emits hg z hn (varintLoad_lt n zz x h0.1 hx)

theorem shl3_or (a b : Nat) (h : b < 8) : a <<< 3 ||| b = a * 8 + b := by
  have := Nat.two_pow_add_eq_or_of_lt (i := 3) (b := b) h a
  rw [Nat.shiftLeft_eq, Nat.mul_comm a (2 ^ 3), ← this]

theorem encTag_emits {c : Cfg} (hg : GrowthOk c.g) (z : Bool) {maps num i wt N} (hN : pbNumber maps num i = N)
    (hlt : N < 2 ^ 29) (hwt : wt < 8) : Emits c.g z (leb (N * 8 + wt)) (encTag c maps num i wt) := by
  unfold encTag
  rw [leb_eq _ (by omega)]
  split
  · rename_i h
    have : N = i + 1 := by
      rw [← hN]
      unfold pbNumber
      obtain ⟨h1, h2⟩ := h
      simp only [Option.isNone_iff_eq_none] at h1
      subst h1
      simp [h2]
    rw [shl3_or _ _ hwt, ← this, Nat.mod_eq_of_lt (by omega)]
    exact putVarint_emits hg z (by simp [IntWidth]) (by omega)
  · rw [hN, shl3_or _ _ hwt, Nat.mod_eq_of_lt (by omega)]
    exact putVarint_emits hg z (by simp [IntWidth]) (by omega)

theorem wireNums_eq_wireAll (f : Fmt) (t : Ty) (ht : numTy t = true) :
    ∀ vs, wireNums f t vs = wireAll f t vs := by
  intro vs
  induction vs with
  | nil => rfl
  | cons v vs ih =>
    cases t <;> simp [numTy] at ht <;> cases v <;> simp [wireNums, wireAll, wire, cat, ih]

theorem wire_num_length {f : Fmt} {t : Ty} {n : Nat} (ht : t = .scalar .int n ∨ t = .scalar .enum n ∨
    t = .scalar .byte n ∨ t = .scalar .chr n ∨ (t = .bool ∧ n = 1)) {v : Val} {bs : List UInt8}
    (h : wire f t v = some bs) : bs.length = n := by
  rcases ht with rfl | rfl | rfl | rfl | ⟨rfl, rfl⟩ <;> cases v <;> simp only [wire, wireNum] at h <;>
    first
    | (split at h
       · cases h; simp
       · cases h)
    | cases h

theorem wireAll_length {f : Fmt} {t : Ty} {n : Nat} (ht : ∀ v bs, wire f t v = some bs → bs.length = n) :
    ∀ (vs : List Val) (bs : List UInt8), wireAll f t vs = some bs → bs.length = vs.length * n := by
  intro vs
  induction vs with
  | nil => intro bs h; simp [wireAll] at h; simp [← h]
  | cons v vs ih =>
    intro bs h
    simp only [wireAll, cat_eq_some] at h
    obtain ⟨x, y, hx, hy, rfl⟩ := h
    simp [ht v x hx, ih y hy, Nat.add_mul, Nat.add_comm]

/-- Properties of the format inside protobuf messages. -/
structure InPb (c : Cfg) : Prop where
  idem : pbCfg c = c
  fmt : fmtOf c = pbFmt c.env

theorem inPb_pbCfg (c : Cfg) : InPb (pbCfg c) := ⟨rfl, fmtOf_pbCfg c⟩

/-- A length-delimited payload is the encoding with default size prefix. -/
theorem pbLen_msg {env : Nat → Ty} {N : Nat} {sz ok maps nums fs vs bs}
    (hsz : sz = none)
    (h : pbLen N (pbFields env maps 0 nums fs vs) = some bs) :
    ∃ p, wire (pbFmt env) (.msg sz ok maps nums fs) (.list vs) = some p ∧ bs = leb (N * 8 + 2) ++ p := by
  subst hsz
  simp only [wire]
  cases hb : pbFields env maps 0 nums fs vs with
  | none => simp [pbLen, hb] at h
  | some body =>
    simp only [pbLen, hb] at h
    split at h
    · rename_i hlt
      cases h
      simp [hb, pbFmt, msgPrefix, hlt, cat, pbRecord]
    · cases h

theorem pbPayload_wire {env : Nat → Ty} {N : Nat} {t : Ty} {v : Val} {bs : List UInt8}
    (ht : isMsg env t = true ∨ isStr t = true) (h : pbPayload env N t v = some bs) :
    ∃ p, wire (pbFmt env) t v = some p ∧ bs = leb (N * 8 + 2) ++ p := by
  cases t with
  | msg sz ok maps nums fs =>
    have hsz : sz = none := by simpa [isMsg, isStr] using ht
    cases v <;> simp only [pbPayload] at h <;> first | cases h | skip
    exact pbLen_msg hsz h
  | ref i =>
    cases v <;> simp only [pbPayload] at h <;> first | cases h | skip
    cases he : env i <;> simp only [he] at h <;> first | cases h | skip
    rename_i sz ok maps nums fs
    have hsz : sz = none := by simpa [isMsg, isStr, he] using ht
    obtain ⟨p, hp, e⟩ := pbLen_msg (ok := ok) hsz h
    refine ⟨p, ?_, e⟩
    rw [← hp]
    simp [wire, pbFmt, he]
  | seq k sz t' =>
    simp only [isMsg, Bool.false_eq_true, false_or] at ht
    cases t' <;> simp only [isStr] at ht <;> first | cases ht | skip
    rename_i sk n
    simp only [Bool.and_eq_true, Bool.or_eq_true, beq_iff_eq] at ht
    obtain ⟨⟨⟨rfl, rfl⟩, hsk⟩, rfl⟩ := ht
    cases v <;> simp only [pbPayload] at h <;> first | cases h | skip
    rename_i vs
    rw [wireNums_eq_wireAll _ _ (by rcases hsk with rfl | rfl <;> rfl)] at h
    cases hb : wireAll (pbFmt env) (.scalar sk 1) vs with
    | none => simp [pbLen, hb] at h
    | some body =>
      simp only [pbLen, hb] at h
      split at h
      · rename_i hlt
        cases h
        have hl := wireAll_length (n := 1) (fun v bs hw =>
          wire_num_length (by rcases hsk with rfl | rfl <;> simp) hw) vs body hb
        refine ⟨leb body.length ++ body, ?_, by simp [pbRecord]⟩
        simp only [wire, hb]
        rw [show Option.getD none (pbFmt env).dsz = .varint from rfl]
        simp only [sizePrefix]
        rw [if_pos (by omega)]
        simp [cat, hl]
      · cases h
  | _ => rcases ht with ht | ht <;> simp [isMsg, isStr] at ht

/-- A map entry is an entry message. -/
theorem pbFields_entry (env : Nat → Ty) (key m : Ty) (vs : List Val) :
    pbFields env [] 0 [none, none] [pbEntryTy key, pbEntryTy m] vs =
    pbFields env [] 0 [none, none] [key, m] vs := by
  have h : ∀ N t v, pbField env N (pbEntryTy t) v = pbField env N t v := by
    intro N t v
    cases t <;> try rfl
    rename_i k n
    cases k <;> try rfl
    cases v <;> simp [pbEntryTy, pbField, pbScalar, varintValue]
  match vs with
  | [] => simp [pbFields]
  | [v] => simp only [pbFields, h]
  | v :: w :: ws => simp only [pbFields, h]

theorem good_entry {c : Cfg} (hc : InPb c) {key m : Ty} (hk : (pbScalarOk key || isStr key) = true)
    (hm : (pbScalarOk m || isStr m || isMsg c.env m) = true) (gk : Good c key = true) (gm : Good c m = true) :
    Good c (pbEntry key m) = true := by
  have e1 : ∀ t, Good c t = true → (pbScalarOk t = true ∨ isStr t = true ∨ isMsg c.env t = true) →
      Good c (pbEntryTy t) = true ∧ ∀ i, pbFieldOk c.env [] none i (pbEntryTy t) = true := by
    intro t gt ht
    cases t with
    | scalar k n =>
      cases k
      case enum =>
        have hw : intWidth n = true := by simpa [pbScalarOk, isStr, isMsg] using ht
        exact ⟨by simpa [pbEntryTy, Good, nodeOk] using hw, fun i => by simp [pbEntryTy, pbFieldOk, pbScalarOk, hw]⟩
      all_goals
        refine ⟨gt, fun i => ?_⟩
        simpa [pbEntryTy, pbFieldOk, pbScalarOk, isStr, isMsg] using ht
    | seq k sz t' =>
      refine ⟨gt, fun i => ?_⟩
      simp only [pbScalarOk, isMsg, Bool.false_eq_true, false_or, or_false] at ht
      cases t' <;> simp only [isStr] at ht <;> first | cases ht | skip
      rename_i sk n
      simp only [Bool.and_eq_true, Bool.or_eq_true, beq_iff_eq] at ht
      obtain ⟨⟨⟨rfl, rfl⟩, hsk⟩, rfl⟩ := ht
      rcases hsk with rfl | rfl <;> simp [pbEntryTy, pbFieldOk, pbElemOk, packedElem, numTy, scalarOk, isPacked]
    | _ =>
      refine ⟨gt, fun i => ?_⟩
      first
      | simpa [pbEntryTy, pbFieldOk, pbScalarOk, isStr, isMsg] using ht
      | simp [pbScalarOk, isStr, isMsg] at ht
  obtain ⟨k1, k2⟩ := e1 key gk (by simp only [Bool.or_eq_true] at hk; rcases hk with h | h <;> simp [h])
  obtain ⟨m1, m2⟩ := e1 m gm (by simp only [Bool.or_eq_true] at hm; rcases hm with (h | h) | h <;> simp [h])
  have hd : c.dsz = .varint := by rw [← hc.idem]; rfl
  have ha : c.aware = (c.host == .big) := by
    have := congrArg Cfg.aware hc.idem
    simpa [pbCfg] using this.symm
  simp only [pbEntry, Good, GoodL, insideMsg_eq, hc.idem, k1, m1, Bool.and_true, Bool.true_and]
  simp only [nodeOk, pbFieldsOk, k2, m2, msgSzOk, hd, Option.getD_none, ha]
  cases c.host <;> simp [fieldNumber, fieldNumbers, nodup, mapOnce]

theorem wireNums_append_pos {f : Fmt} {t : Ty} {v : Val} {vs : List Val} {bs : List UInt8}
    (h : wireNums f t (v :: vs) = some bs) : ∃ x, v = .num x := by
  cases v <;> simp [wireNums] at h
  exact ⟨_, rfl⟩

theorem packedSize_wire (f : Fmt) (n : Nat) (hn : IntWidth n) (zz : Bool) :
    ∀ (vs : List Val) (bs : List UInt8), wireNums f (.varint n zz) vs = some bs →
      packedSize n zz vs = bs.length := by
  have h0 : 0 < n := by rcases hn with h | h | h | h <;> omega
  intro vs
  induction vs with
  | nil => intro bs h; simp [wireNums] at h; simp [h, packedSize]
  | cons v vs ih =>
    intro bs h
    cases v <;> simp only [wireNums] at h <;> first | cases h | skip
    rename_i x
    rw [cat_eq_some] at h
    obtain ⟨a, b, ha, hb, rfl⟩ := h
    simp only [wireNum] at ha
    split at ha
    · rename_i hx
      cases ha
      have := ih b hb
      unfold packedSize at this ⊢
      simp only [List.map_cons, List.sum_cons, List.length_append, this]
      rw [leb_varintValue n zz x hn hx, varintSize_eq_length n _ h0 (varintLoad_lt n zz x h0 hx)]
    · cases ha

theorem encAll_varint_emits {c : Cfg} (hg : GrowthOk c.g) (z : Bool) (f : Fmt) {n : Nat} (hn : IntWidth n)
    (zz : Bool) (vs : List Val) (bs : List UInt8) (h : wireNums f (.varint n zz) vs = some bs)
    (hl : bs.length < 2 ^ 63) : Emits c.g z bs (encAll (encVarintVal c n zz) vs) := by
  rw [wireNums_eq_wireAll _ _ (by simpa [numTy, intWidth_iff] using hn)] at h
  refine encAll_emits (w := wire f (.varint n zz)) (W := wireAll f (.varint n zz)) rfl (fun _ _ => rfl) vs bs h hl ?_
  intro v _ b hb _
  cases v <;> simp only [wire, wireNum] at hb <;> first | cases hb | skip
  split at hb
  · rename_i hx; cases hb; exact encVarintVal_emits hg z zz hn hx
  · cases hb

/-- Packed varints and enumerations. -/
theorem packedVar_emits {c : Cfg} (hg : GrowthOk c.g) (z : Bool) {maps num i N} (hN : pbNumber maps num i = N)
    (hlt : N < 2 ^ 29) {n : Nat} (hn : IntWidth n) (zz : Bool) {env : Nat → Ty} (vs : List Val) (bs : List UInt8)
    (h : (match vs with
      | [] => some []
      | _ => match wireNums (pbFmt env) (.varint n zz) vs with
        | some bs => if bs.length < 2 ^ 56 then some (pbRecord N (.len bs)) else none
        | none => none) = some bs) (hl : bs.length < 2 ^ 63) :
    Emits c.g z bs (if packedSize n zz vs = 0 then OutM.skip
      else ((encTag c maps num i 2).andThen
        (putVarint c.g 8 (packedSize n zz vs % 2 ^ 64))).andThen (encAll (encVarintVal c n zz) vs)) := by
  cases vs with
  | nil => cases h; exact Emits.skip _ _
  | cons v vs =>
    simp only at h
    cases hb : wireNums (pbFmt env) (.varint n zz) (v :: vs) with
    | none => simp [hb] at h
    | some body =>
      simp only [hb] at h
      split at h
      · rename_i hlt'
        cases h
        have hps := packedSize_wire _ n hn zz _ _ hb
        have hne : packedSize n zz (v :: vs) ≠ 0 := by
          rw [hps]
          obtain ⟨x, rfl⟩ := wireNums_append_pos hb
          simp only [wireNums, cat_eq_some] at hb
          obtain ⟨a, b, ha, hb', rfl⟩ := hb
          simp only [wireNum] at ha
          split at ha
          · cases ha
            have := leb_length_pos (varintValue n zz x)
            simp only [List.length_append]; omega
          · cases ha
        rw [if_neg hne, hps, Nat.mod_eq_of_lt (by omega)]
        simp only [pbRecord, List.length_append] at hl ⊢
        refine ((encTag_emits hg z hN hlt (by omega)).andThen ?_).andThen
          (encAll_varint_emits hg z _ hn zz _ _ hb (by omega))
        rw [leb_eq _ (by omega)]
        exact putVarint_emits hg z (by simp [IntWidth]) (by omega)
      · cases h

theorem pbMapped_none {i : Nat} : ∀ {maps : List (Nat × Nat)}, (maps.filter fun m => m.1 == i + 1) = [] → pbMapped maps i = 0
  | [], _ => rfl
  | m :: maps, h => by
    rw [List.filter_cons] at h
    split at h
    · cases h
    · rename_i hm
      have := pbMapped_none h
      simp only [pbMapped, List.map_cons, List.sum_cons] at this ⊢
      rw [this, if_neg (fun e => hm (by simp [e]))]

theorem pbMapped_some {i : Nat} : ∀ {maps : List (Nat × Nat)} {m : Nat × Nat}, (maps.filter fun m => m.1 == i + 1) = [m] →
    pbMapped maps i = m.2
  | [], _, h => by cases h
  | x :: maps, m, h => by
    rw [List.filter_cons] at h
    split at h
    · rename_i hm
      simp only [List.cons.injEq] at h
      obtain ⟨rfl, h⟩ := h
      have := pbMapped_none h
      simp only [pbMapped, List.map_cons, List.sum_cons] at this ⊢
      rw [this, if_pos (by simpa using (beq_iff_eq.mp hm).symm)]; rfl
    · rename_i hm
      have := pbMapped_some h
      simp only [pbMapped, List.map_cons, List.sum_cons] at this ⊢
      rw [this, if_neg (fun e => hm (by simp [e])), Nat.zero_add]

/-- The number the code computes is the documented one. -/
theorem pbNumber_eq {maps : List (Nat × Nat)} {i : Nat} (h : mapOnce maps i = true) (num : Option Nat) :
    pbNumber maps num i = fieldNumber maps num i := by
  simp only [mapOnce, Bool.and_eq_true, decide_eq_true_eq] at h
  cases num with
  | some n => rfl
  | none =>
    simp only [pbNumber, fieldNumber] at h ⊢
    rw [← List.head?_filter] at h ⊢
    match hf : maps.filter fun m => m.1 == i + 1 with
    | [] => rw [hf]; simp [pbMapped_none hf]
    | [m] =>
      rw [hf] at h ⊢
      simp only [List.head?_cons] at h ⊢
      rw [pbMapped_some hf, if_pos (by omega)]
    | _ :: _ :: _ => rw [hf] at h; simp at h

theorem fieldOk_of {c : Cfg} {maps num i t} {ns ts}
    (h : pbFieldsOk c.env maps i (num :: ns) (t :: ts) = true) :
    pbFieldOk c.env maps num i t = true ∧ 0 < fieldNumber maps num i ∧ fieldNumber maps num i < 2 ^ 29 ∧
    pbNumber maps num i = fieldNumber maps num i ∧ pbNumber maps none i = fieldNumber maps none i ∧
    fieldNumber maps none i < 2 ^ 29 ∧ pbFieldsOk c.env maps (i + 1) ns ts = true := by
  simp only [pbFieldsOk, Bool.and_eq_true, decide_eq_true_eq] at h
  obtain ⟨⟨⟨⟨h1, h2, h3⟩, h4⟩, h6⟩, h7⟩ := h
  exact ⟨h1, h2, h3, pbNumber_eq h4 _, pbNumber_eq h4 _, h6, h7⟩

/-- Packed fixed size elements. -/
theorem packedFix_emits {c : Cfg} (hg : GrowthOk c.g) (hc : InPb c) (ha : AbiOk c.sizeof) (z : Bool)
    {rec : Ty → Val → OutM} {D : Nat} (hrec : EncOk c rec z D)
    {maps num i N} (hN : pbNumber maps num i = N) (hlt : N < 2 ^ 29) {t elem : Ty} {sz : Nat}
    (hel : elem = .scalar .int sz ∨ elem = .scalar .enum sz ∨ elem = .scalar .byte sz ∨
      elem = .scalar .chr sz ∨ (elem = .bool ∧ sz = 1)) (hsz0 : 0 < sz)
    (gel : Good c elem = true)
    (gseq : ∀ k s t', t = .seq k s t' → Good c (.seq k (some .none) elem) = true)
    (vs : List Val) (bs : List UInt8)
    (h : (match vs with
      | [] => some []
      | _ => match wireNums (pbFmt c.env) elem vs with
        | some bs => if bs.length < 2 ^ 56 then some (pbRecord N (.len bs)) else none
        | none => none) = some bs) (hl : bs.length < 2 ^ 63)
    (hnb : z = true ∨ noBits (.list vs) = true) (hd : 2 * depth (.list vs) ≤ D) :
    Emits c.g z bs (if vs.length = 0 then OutM.skip
      else ((encTag c maps num i 2).andThen
        (putVarint c.g 8 ((vs.length * c.sizeof elem) % 2 ^ 64))).andThen
        (match t with
          | .seq k _ _ => rec (.seq k (some .none) elem) (.list vs)
          | _ => encAll (rec elem) vs)) := by
  have hnum : numTy elem = true := by
    rcases hel with rfl | rfl | rfl | rfl | ⟨rfl, rfl⟩ <;> simp_all [numTy, Good, nodeOk]
  have hso : c.sizeof elem = sz := by
    rcases hel with rfl | rfl | rfl | rfl | ⟨rfl, rfl⟩ <;> first | exact ha.scalar _ _ hsz0 | exact ha.bool
  cases vs with
  | nil => cases h; exact Emits.skip _ _
  | cons v vs =>
    simp only at h
    rw [wireNums_eq_wireAll _ _ hnum] at h
    cases hb : wireAll (pbFmt c.env) elem (v :: vs) with
    | none => simp [hb] at h
    | some body =>
      simp only [hb] at h
      split at h
      · rename_i hlt'
        cases h
        have hbl := wireAll_length (n := sz) (fun v bs hw => wire_num_length hel hw) _ _ hb
        rw [if_neg (by simp), hso, ← hbl, Nat.mod_eq_of_lt (by omega)]
        simp only [pbRecord, List.length_append] at hl ⊢
        refine ((encTag_emits hg z hN hlt (by omega)).andThen ?_).andThen ?_
        · rw [leb_eq _ (by omega)]
          exact putVarint_emits hg z (by simp [IntWidth]) (by omega)
        · split
          · rename_i k s t'
            refine hrec _ _ _ (gseq k s t' rfl) ?_ (by omega) hnb (by simp [Ty.isRef]; omega)
            rw [hc.fmt]
            simp [wire, sizePrefix, hb, cat]
          · refine encAll_emits (w := wire (fmtOf c) elem) (W := wireAll (fmtOf c) elem) rfl (fun _ _ => rfl)
              (v :: vs) body (by rw [hc.fmt]; exact hb) (by omega) ?_
            intro v' hv' b hb' hbl'
            refine hrec _ _ _ gel hb' hbl' ?_ ?_
            · rcases hnb with h | h
              · exact Or.inl h
              · exact Or.inr (noBits_mem hv' h)
            · have := depth_mem hv'
              simp only [depth] at hd
              split <;> omega
      · cases h

/-- Elements of a repeated member. -/
theorem repeated_emits {c : Cfg} (hg : GrowthOk c.g) (hc : InPb c) (z : Bool)
    {rec : Ty → Val → OutM} {D : Nat} (hrec : EncOk c rec z D)
    {maps num i N} (hN : pbNumber maps num i = N) (hlt : N < 2 ^ 29) {elem : Ty}
    (hel : isMsg c.env elem = true ∨ isStr elem = true) (gel : Good c elem = true) (vs : List Val)
    (bs : List UInt8) (h : pbRepeated c.env N elem vs = some bs) (hl : bs.length < 2 ^ 63)
    (hnb : z = true ∨ noBits (.list vs) = true) (hd : 2 * depth (.list vs) ≤ D) :
    Emits c.g z bs (encAll (fun e => (encTag c maps num i 2).andThen (rec elem e)) vs) := by
  refine encAll_emits (w := pbPayload c.env N elem) (W := pbRepeated c.env N elem)
    (by simp [pbRepeated]) (fun _ _ => by simp [pbRepeated]) vs bs h hl ?_
  intro v hv b hb hbl
  obtain ⟨p, hp, rfl⟩ := pbPayload_wire hel hb
  simp only [List.length_append] at hbl
  refine (encTag_emits hg z hN hlt (by omega)).andThen (hrec _ _ _ gel (by rw [hc.fmt]; exact hp) (by omega) ?_ ?_)
  · rcases hnb with h | h
    · exact Or.inl h
    · exact Or.inr (noBits_mem hv h)
  · have := depth_mem hv
    simp only [depth] at hd
    split <;> omega

theorem repeated_class {env : Nat → Ty} {t : Ty} (h : isMsg env t = true ∨ isStr t = true) :
    pbElemClass t = .repeated t ∧ isPacked t = false ∧ pbWireType t = 2 := by
  cases t <;> first
    | exact ⟨rfl, rfl, rfl⟩
    | (rcases h with h | h <;> simp [isMsg, isStr] at h)

/-- Repeated members: sequences and sets. -/
theorem pbSeq_emits {c : Cfg} (hg : GrowthOk c.g) (hc : InPb c) (ha : AbiOk c.sizeof) (z : Bool)
    {rec : Ty → Val → OutM} {D : Nat} (hrec : EncOk c rec z D)
    {maps num i} (hN : pbNumber maps num i = fieldNumber maps num i)
    (hN0 : pbNumber maps none i = fieldNumber maps none i)
    (hlt : fieldNumber maps num i < 2 ^ 29) {t elem : Ty} (hcl : pbOutClass t = pbElemClass elem)
    (hel : pbElemOk c.env elem = true)
    (hex : (isPacked elem || fieldNumber maps num i == fieldNumber maps none i) = true)
    (gel : Good c elem = true)
    (gseq : ∀ k s t', t = .seq k s t' → Good c (.seq k (some .none) elem) = true)
    (vs : List Val) (bs : List UInt8)
    (h : (if isPacked elem then pbPackedField c.env (fieldNumber maps num i) elem vs
      else pbRepeated c.env (fieldNumber maps num i) elem vs) = some bs) (hl : bs.length < 2 ^ 63)
    (hnb : z = true ∨ noBits (.list vs) = true) (hd : 2 * depth (.list vs) ≤ D) :
    Emits c.g z bs (pbEncField c rec maps num i t (.list vs)) := by
  unfold pbEncField
  rw [hcl]
  by_cases hrep : isMsg c.env elem = true ∨ isStr elem = true
  · obtain ⟨r1, r2, r3⟩ := repeated_class hrep
    rw [r1]
    simp only [r3]
    rw [r2] at h hex
    simp only [Bool.false_eq_true, if_false] at h
    simp only [Bool.false_or, beq_iff_eq] at hex
    exact repeated_emits hg hc z hrec (hN0.trans hex.symm) hlt hrep gel vs bs h hl hnb hd
  · have hnum : numTy (packedElem elem) = true := by
      simp only [pbElemOk, Bool.or_eq_true] at hel
      rcases hel with (h | h) | h
      · exact h
      · exact absurd (Or.inl h) hrep
      · exact absurd (Or.inr h) hrep
    cases elem with
    | scalar k n =>
      simp only [isPacked, if_true] at h
      unfold pbPackedField at h
      cases k with
      | enum =>
        have hn : IntWidth n := by simpa [numTy, packedElem, intWidth_iff] using hnum
        simp only [pbElemClass]
        exact packedVar_emits hg z hN hlt hn false vs bs h hl
      | _ =>
        have hn : 0 < n := by
          simp only [numTy, packedElem, scalarOk, beq_iff_eq, decide_eq_true_eq] at hnum
          omega
        simp only [pbElemClass]
        exact packedFix_emits hg hc ha z hrec hN hlt (sz := n) (by simp) hn gel gseq vs bs h hl hnb hd
    | bool =>
      simp only [isPacked, if_true] at h
      unfold pbPackedField at h
      simp only [pbElemClass]
      exact packedFix_emits hg hc ha z hrec hN hlt (sz := 1) (by simp) (by omega) gel gseq vs bs h hl hnb hd
    | varint n zz =>
      simp only [isPacked, if_true] at h
      unfold pbPackedField at h
      have hn : IntWidth n := by simpa [numTy, packedElem, intWidth_iff] using hnum
      simp only [pbElemClass]
      exact packedVar_emits hg z hN hlt hn zz vs bs h hl
    | _ => simp [numTy, packedElem] at hnum

/-- One member of a protobuf message. -/
theorem pbEncField_emits {c : Cfg} (hg : GrowthOk c.g) (hc : InPb c) (ha : AbiOk c.sizeof) (z : Bool)
    {rec : Ty → Val → OutM} {D : Nat} (hrec : EncOk c rec z D)
    {maps num i t} (hok : pbFieldOk c.env maps num i t = true)
    (hN : pbNumber maps num i = fieldNumber maps num i)
    (hN0 : pbNumber maps none i = fieldNumber maps none i)
    (hlt : fieldNumber maps num i < 2 ^ 29) (gt : Good c t = true) (v : Val) (bs : List UInt8)
    (h : pbField c.env (fieldNumber maps num i) t v = some bs) (hl : bs.length < 2 ^ 63)
    (hnb : z = true ∨ noBits v = true) (hd : 2 * depth v ≤ D) :
    Emits c.g z bs (pbEncField c rec maps num i t v) := by
  have single : ∀ p, pbOutClass t = .single → pbWireType t < 8 → wire (pbFmt c.env) t v = some p →
      bs = leb (fieldNumber maps num i * 8 + pbWireType t) ++ p →
      Emits c.g z bs (pbEncField c rec maps num i t v) := by
    intro p h1 h2 h3 h4
    unfold pbEncField
    rw [h1]
    simp only
    subst h4
    simp only [List.length_append] at hl
    exact (encTag_emits hg z hN hlt h2).andThen (hrec _ _ _ gt (by rw [hc.fmt]; exact h3) (by omega) hnb
      (by split <;> omega))
  cases t with
  | empty =>
    cases v <;> simp [pbField, pbScalar] at h
    subst h
    exact Emits.skip _ _
  | scalar k n =>
    cases v <;> simp only [pbField] at h <;> first | cases h | skip
    rename_i x
    cases k with
    | enum =>
      have hn : intWidth n = true := by simpa [pbFieldOk, pbScalarOk, isMsg] using hok
      simp only [pbScalar] at h
      split at h
      · rename_i hx
        cases h
        unfold pbEncField
        simp only [pbOutClass, pbRecord]
        refine (encTag_emits hg z hN hlt (by omega)).andThen ?_
        exact encVarintVal_emits hg z false (intWidth_iff.mp hn) hx
      · cases h
    | int =>
      have hn : n = 4 ∨ n = 8 := by simpa [pbFieldOk, pbScalarOk, isMsg] using hok
      rcases hn with rfl | rfl
      · simp only [pbScalar] at h
        split at h
        · rename_i hx
          cases h
          refine single (digits .little 4 x) rfl (by simp [pbWireType]) ?_ (by simp [pbWireType, pbRecord])
          simp only [wire, wireNum, pbFmt]
          rw [if_pos (by omega)]
        · cases h
      · simp only [pbScalar] at h
        split at h
        · rename_i hx
          cases h
          refine single (digits .little 8 x) rfl (by simp [pbWireType]) ?_ (by simp [pbWireType, pbRecord])
          simp only [wire, wireNum, pbFmt]
          rw [if_pos (by omega)]
        · cases h
    | byte => simp [pbFieldOk, pbScalarOk, isMsg] at hok
    | chr => simp [pbFieldOk, pbScalarOk, isMsg] at hok
  | bool =>
    cases v <;> simp only [pbField] at h <;> first | cases h | skip
    rename_i x
    simp only [pbScalar] at h
    split at h
    · rename_i hx
      cases h
      refine single [UInt8.ofNat x] rfl (by simp [pbWireType]) ?_ ?_
      · simp [wire, wireNum, hx]
      · simp only [pbRecord, pbWireType]
        rw [leb_eq x (by omega), varintBytes_small (by omega)]
    · cases h
  | varint n zz =>
    cases v <;> simp only [pbField] at h <;> first | cases h | skip
    rename_i x
    simp only [pbScalar] at h
    split at h
    · rename_i hx
      cases h
      exact single (leb (varintValue n zz x)) rfl (by simp [pbWireType]) (by simp [wire, wireNum, hx])
        (by simp [pbRecord, pbWireType])
    · cases h
  | msg sz ok maps' nums fs =>
    have hsz : sz = none := by simpa [pbFieldOk, pbScalarOk, isMsg] using hok
    cases v <;> simp only [pbField, pbScalar] at h <;> first | cases h | skip
    obtain ⟨p, hp, e⟩ := pbLen_msg (ok := ok) hsz h
    exact single p rfl (by simp [pbWireType]) hp e
  | ref j =>
    have hm : isMsg c.env (.ref j) = true := by simpa [pbFieldOk, pbScalarOk] using hok
    cases v <;> simp only [pbField, pbScalar] at h <;> first | cases h | skip
    obtain ⟨p, hp, e⟩ := pbPayload_wire (env := c.env) (N := fieldNumber maps num i) (t := .ref j)
      (v := .list _) (bs := bs) (Or.inl hm) (by simp only [pbPayload]; exact h)
    exact single p rfl (by simp [pbWireType]) hp e
  | seq k sz t' =>
    cases v <;> simp only [pbField, pbScalar] at h <;> first | cases h | skip
    simp only [pbFieldOk, Bool.and_eq_true] at hok
    obtain ⟨⟨⟨o1, o2⟩, o3⟩, o4⟩ := hok
    have g2 : Good c t' = true := by simp only [Good, Bool.and_eq_true] at gt; exact gt.2
    refine pbSeq_emits hg hc ha z hrec hN hN0 hlt rfl o3 o4 g2 ?_ _ _ h hl hnb hd
    intro k' s t'' e
    cases e
    simp only [Good, Bool.and_eq_true] at gt ⊢
    exact ⟨by simpa [nodeOk] using gt.1, gt.2⟩
  | assoc multi hashed sz key mapped =>
    cases mapped with
    | none =>
      cases v <;> simp only [pbField, pbScalar] at h <;> first | cases h | skip
      simp only [pbFieldOk, Bool.and_eq_true] at hok
      obtain ⟨⟨o1, o3⟩, o4⟩ := hok
      have g2 : Good c key = true := by simpa only [Good] using gt
      exact pbSeq_emits hg hc ha z hrec hN hN0 hlt rfl o3 o4 g2 (fun _ _ _ e => by cases e) _ _ h hl hnb hd
    | some m =>
      cases v <;> simp only [pbField, pbScalar] at h <;> first | cases h | skip
      rename_i vs
      simp only [pbFieldOk, Bool.and_eq_true] at hok
      obtain ⟨⟨o1, o3⟩, o4⟩ := hok
      simp only [Good, Bool.and_eq_true] at gt
      have ge := good_entry hc o3 o4 gt.1 gt.2
      unfold pbEncField
      simp only [pbOutClass]
      have hrep : pbRepeated c.env (fieldNumber maps num i) (pbEntry key m) vs = some bs := by
        rw [← h]
        clear h single
        induction vs with
        | nil => simp [pbRepeated]
        | cons v vs ih =>
          have hd' : 2 * depth (.list vs) ≤ D := by simp only [depth, depthL] at hd ⊢; omega
          have hn' : z = true ∨ noBits (.list vs) = true := by
            rcases hnb with h | h
            · exact Or.inl h
            · right; simp only [noBits, noBitsL, Bool.and_eq_true] at h ⊢; exact h.2
          simp only [pbRepeated]
          rw [ih hn' hd']
          congr 1
          cases v <;> simp only [pbEntry, pbPayload]
          rw [pbFields_entry]
      exact repeated_emits hg hc z hrec hN hlt (Or.inl (by simp [pbEntry, isMsg])) ge vs bs hrep hl hnb hd
  | _ => simp [pbFieldOk, pbScalarOk, isMsg] at hok

theorem pbEncFields_emits {c : Cfg} (hg : GrowthOk c.g) (hc : InPb c) (ha : AbiOk c.sizeof) (z : Bool)
    {rec : Ty → Val → OutM} {D : Nat} (hrec : EncOk c rec z D) {maps} :
    ∀ (nums : List (Option Nat)) (i : Nat) (ts : List Ty) (vs : List Val) (bs : List UInt8),
      pbFieldsOk c.env maps i nums ts = true → GoodL c ts = true →
      pbFields c.env maps i nums ts vs = some bs → bs.length < 2 ^ 63 →
      (z = true ∨ noBitsL vs = true) → 2 * depthL vs ≤ D →
      Emits c.g z bs (pbEncFields c rec maps i nums ts vs) := by
  intro nums
  induction nums with
  | nil =>
    intro i ts vs bs hok hgd h hl hnb hd
    cases ts <;> cases vs <;> simp [pbFields] at h
    subst h; exact Emits.skip _ _
  | cons n ns ih =>
    intro i ts vs bs hok hgd h hl hnb hd
    cases ts <;> cases vs <;> simp only [pbFields] at h <;> first | cases h | skip
    rename_i t ts v vs
    obtain ⟨o1, o2, o3, o4, o5, o6, o7⟩ := fieldOk_of hok
    simp only [GoodL, Bool.and_eq_true] at hgd
    rw [cat_eq_some] at h
    obtain ⟨x, y, hx, hy, rfl⟩ := h
    simp only [List.length_append] at hl
    simp only [depthL] at hd
    have hnb1 : z = true ∨ noBits v = true := by
      rcases hnb with h | h
      · exact Or.inl h
      · right; simp only [noBitsL, Bool.and_eq_true] at h; exact h.1
    have hnb2 : z = true ∨ noBitsL vs = true := by
      rcases hnb with h | h
      · exact Or.inl h
      · right; simp only [noBitsL, Bool.and_eq_true] at h; exact h.2
    exact (pbEncField_emits hg hc ha z hrec o1 o4 o5 o3 hgd.1 v x hx (by omega) hnb1 (by omega)).andThen
      (ih (i + 1) ts vs y o7 hgd.2 hy (by omega) hnb2 (by omega))

theorem pbOutCfg_good {c : Cfg} {sz ok maps nums fs} (h : Good c (.msg sz ok maps nums fs) = true) :
    pbOutCfg c = pbCfg c := by
  simp only [Good, nodeOk, Bool.and_eq_true] at h
  have h := h.1.2
  unfold pbOutCfg
  split
  · rfl
  · rename_i hn
    simp only [not_or, not_and, Decidable.not_not, Bool.not_eq_false] at hn
    obtain ⟨h1, h2⟩ := hn
    unfold pbCfg
    cases hh : c.host with
    | little =>
      have : c.aware = false := by
        cases ha : c.aware
        · rfl
        · simp [h1, hh, ha] at h
      cases c; simp_all
    | big =>
      have := h2 hh
      cases c; simp_all

theorem wireId_wire {f : Fmt} {t : Ty} (ht : idTyOk t = true) {v : Val} {bs : List UInt8}
    (h : wireId f t v = some bs) : wire f t v = some bs ∧ depth v ≤ 2 ∧ noBits v = true ∧ t.isRef = false := by
  have hnums : ∀ t' vs b, wireNums f t' vs = some b → depthL vs ≤ 1 ∧ noBitsL vs = true := by
    intro t' vs
    induction vs with
    | nil => intro b _; simp [depthL, noBitsL]
    | cons v vs ih =>
      intro b hb
      cases v <;> simp only [wireNums] at hb <;> first | cases hb | skip
      rw [cat_eq_some] at hb
      obtain ⟨_, y, _, hy, _⟩ := hb
      have := ih y hy
      simp [depthL, depth, noBitsL, noBits, this]
  cases t with
  | array n t' =>
    cases v <;> simp only [wireId, wireNum] at h <;> first | cases h | skip
    rename_i vs
    split at h
    · rename_i hn
      have ht' : numTy t' = true := by simp [idTyOk] at ht; exact ht.2
      have := hnums _ _ _ h
      rw [wireNums_eq_wireAll _ _ ht'] at h
      simp only [wire, hn, if_true, depth, noBits, Ty.isRef]
      exact ⟨h, by omega, this.2, trivial⟩
    · cases h
  | scalar k n =>
    cases v <;> simp only [wireId] at h <;> first | cases h | skip
    simp [wire, h, depth, noBits, Ty.isRef]
  | bool =>
    cases v <;> simp only [wireId] at h <;> first | cases h | skip
    simp [wire, h, depth, noBits, Ty.isRef]
  | varint n zz =>
    cases v <;> simp only [wireId] at h <;> first | cases h | skip
    simp [wire, h, depth, noBits, Ty.isRef]
  | _ => simp [idTyOk, numTy] at ht

/-- Main theorem: serialization emits the documented encoding. -/
theorem encode_ok (z : Bool) (d : Nat) : ∀ (c : Cfg), GrowthOk c.g → AbiOk c.sizeof → EnvGood c →
    EncOk c (encode d c) z d := by
  induction d with
  | zero =>
    intro c _ _ _ t v bs _ _ _ _ hd
    have := depth_pos v
    split at hd <;> omega
  | succ d ih =>
    intro c hg ha he t v bs gt hw hl hnb hd
    have hrec := ih c hg ha he
    unfold encode
    cases t with
    | scalar k n =>
      cases v <;> simp only [wire, wireNum] at hw <;> first | cases hw | skip
      split at hw
      · cases hw
        simp only
        rw [ioBytes_eq]
        exact put_emits hg z _ hl
      · cases hw
    | bool =>
      cases v <;> simp only [wire, wireNum] at hw <;> first | cases hw | skip
      split at hw
      · cases hw; exact put_emits hg z _ hl
      · cases hw
    | varint n zz =>
      cases v <;> simp only [wire, wireNum] at hw <;> first | cases hw | skip
      split at hw
      · rename_i hx
        cases hw
        exact encVarintVal_emits hg z zz (intWidth_iff.mp (by simpa [Good, nodeOk] using gt)) hx
      · cases hw
    | empty =>
      cases v <;> simp [wire, wireNum] at hw
      subst hw; exact Emits.skip _ _
    | struct ok fs =>
      cases v <;> simp only [wire, wireNum] at hw <;> first | cases hw | skip
      rename_i vs
      simp only
      split
      · rename_i hab
        rw [rep_of_asBytes hab (by simp [Good, nodeOk] at gt; exact gt.1) gt (v := .list vs) (bs := bs)
          (by simp only [wire]; exact hw)]
        exact putBytes_emits hg z bs hl
      · refine encFields_emits fs vs bs hw hl ?_
        intro t ht v hv b hb hbl
        have gl : GoodL c fs = true := by simp only [Good, Bool.and_eq_true] at gt; exact gt.2
        refine hrec t v b (GoodL_mem gl t ht) hb hbl ?_ ?_
        · rcases hnb with h | h
          · exact Or.inl h
          · exact Or.inr (noBits_mem hv h)
        · have := depth_mem hv
          simp only [Ty.isRef, depth, Bool.false_eq_true, if_false] at hd
          split <;> omega
    | array n t' =>
      cases v <;> simp only [wire, wireNum] at hw <;> first | cases hw | skip
      rename_i vs
      split at hw
      · rename_i hn
        have g2 : Good c t' = true := by simp only [Good, Bool.and_eq_true] at gt; exact gt.2
        have cp : copyOk c t' = true := by simp [Good, nodeOk] at gt; exact gt.1.2
        simp only
        rw [if_neg (by simp [hn])]
        split
        · rename_i hab
          rw [repAll_of_asBytes hab cp g2 vs bs hw]
          exact putBytes_emits hg z bs hl
        · refine encAll_emits (w := wire (fmtOf c) t') (W := wireAll (fmtOf c) t') rfl (fun _ _ => rfl) vs bs hw hl ?_
          intro v hv b hb hbl
          refine hrec t' v b g2 hb hbl ?_ ?_
          · rcases hnb with h | h
            · exact Or.inl h
            · exact Or.inr (noBits_mem hv h)
          · have := depth_mem hv
            simp only [Ty.isRef, depth, Bool.false_eq_true, if_false] at hd
            split <;> omega
      · cases hw
    | seq k sz t' =>
      cases v <;> simp only [wire, wireNum] at hw <;> first | cases hw | skip
      rename_i vs
      rw [cat_eq_some] at hw
      obtain ⟨x, y, hx, hy, rfl⟩ := hw
      simp only [List.length_append] at hl
      have g2 : Good c t' = true := by simp only [Good, Bool.and_eq_true] at gt; exact gt.2
      simp only
      refine (encHdr_emits hg z hx (by omega)).andThen ?_
      split
      · rename_i hab
        have cp : copyOk c t' = true := by
          simp only [Good, nodeOk, Bool.and_eq_true, Bool.or_eq_true, beq_iff_eq] at gt
          rcases gt.1.1 with h | h
          · exact absurd h hab.1
          · exact h
        rw [repAll_of_asBytes hab.2 cp g2 vs y hy]
        exact putBytes_emits hg z y (by omega)
      · refine encAll_emits (w := wire (fmtOf c) t') (W := wireAll (fmtOf c) t') rfl (fun _ _ => rfl) vs y hy (by omega) ?_
        intro v hv b hb hbl
        refine hrec t' v b g2 hb hbl ?_ ?_
        · rcases hnb with h | h
          · exact Or.inl h
          · exact Or.inr (noBits_mem hv h)
        · have := depth_mem hv
          simp only [Ty.isRef, depth, Bool.false_eq_true, if_false] at hd
          split <;> omega
    | assoc multi hashed sz key mapped =>
      cases mapped with
      | none =>
        cases v <;> simp only [wire, wireNum] at hw <;> first | cases hw | skip
        rename_i vs
        rw [cat_eq_some] at hw
        obtain ⟨x, y, hx, hy, rfl⟩ := hw
        simp only [List.length_append] at hl
        have g2 : Good c key = true := by simpa only [Good] using gt
        simp only
        refine (encHdr_emits hg z hx (by omega)).andThen ?_
        refine encAll_emits (w := wire (fmtOf c) key) (W := wireAll (fmtOf c) key) rfl (fun _ _ => rfl) vs y hy (by omega) ?_
        intro v hv b hb hbl
        refine hrec key v b g2 hb hbl ?_ ?_
        · rcases hnb with h | h
          · exact Or.inl h
          · exact Or.inr (noBits_mem hv h)
        · have := depth_mem hv
          simp only [Ty.isRef, depth, Bool.false_eq_true, if_false] at hd
          split <;> omega
      | some m =>
        cases v <;> simp only [wire, wireNum] at hw <;> first | cases hw | skip
        rename_i vs
        rw [cat_eq_some] at hw
        obtain ⟨x, y, hx, hy, rfl⟩ := hw
        simp only [List.length_append] at hl
        simp only [Good, Bool.and_eq_true] at gt
        simp only
        refine (encHdr_emits hg z hx (by omega)).andThen ?_
        refine encAll_emits (w := wire (fmtOf c) (.struct false [key, m]))
          (W := wireAll (fmtOf c) (.struct false [key, m])) rfl (fun _ _ => rfl) vs y hy (by omega) ?_
        intro e hv b hb hbl
        cases e <;> simp only [wire, wireNum] at hb <;> first | cases hb | skip
        rename_i es
        simp only
        refine encFields_emits [key, m] es b hb hbl ?_
        intro t ht v' hv' b' hb' hbl'
        have gtt : Good c t = true := by
          simp only [List.mem_cons, List.not_mem_nil, or_false] at ht
          rcases ht with rfl | rfl
          · exact gt.1
          · exact gt.2
        refine hrec t v' b' gtt hb' hbl' ?_ ?_
        · rcases hnb with h | h
          · exact Or.inl h
          · exact Or.inr (noBits_mem hv' (noBits_mem hv h))
        · have h1 := depth_mem hv
          have h2 := depth_mem hv'
          simp only [depth] at h1
          simp only [Ty.isRef, depth, Bool.false_eq_true, if_false] at hd
          split <;> omega
    | optional dc t' =>
      cases v <;> simp only [wire, wireNum] at hw <;> first | cases hw | skip
      · exact put_emits hg z _ (by simp)
      · rename_i v'
        rw [cat_eq_some] at hw
        obtain ⟨x, y, hx, hy, rfl⟩ := hw
        cases hx
        simp only [List.length_append] at hl
        refine (put_emits hg z [1] (by simp)).andThen (hrec t' v' y ?_ hy (by omega) hnb ?_)
        · simpa only [Good] using gt
        · simp only [Ty.isRef, depth, Bool.false_eq_true, if_false] at hd
          split <;> omega
    | optPtr t' =>
      cases v <;> simp only [wire, wireNum] at hw <;> first | cases hw | skip
      · exact put_emits hg z _ (by simp)
      · rename_i v'
        rw [cat_eq_some] at hw
        obtain ⟨x, y, hx, hy, rfl⟩ := hw
        cases hx
        simp only [List.length_append] at hl
        refine (put_emits hg z [1] (by simp)).andThen (hrec t' v' y ?_ hy (by omega) hnb ?_)
        · simpa only [Good] using gt
        · simp only [Ty.isRef, depth, Bool.false_eq_true, if_false] at hd
          split <;> omega
    | uptr t' =>
      cases v <;> simp only [wire, wireNum] at hw <;> first | cases hw | skip
      refine hrec t' _ bs (by simpa only [Good] using gt) hw hl hnb ?_
      simp only [Ty.isRef, depth, Bool.false_eq_true, if_false] at hd
      split <;> omega
    | variant idTy ids dcs alts =>
      cases v <;> simp only [wire, wireNum] at hw <;> first | cases hw | skip
      rename_i i v'
      simp only [encVariant]
      simp only [Good, Bool.and_eq_true, nodeOk] at gt
      obtain ⟨⟨⟨⟨⟨g1, g2⟩, g3⟩, g4⟩, g5⟩, g6⟩ := gt
      simp only [Ty.isRef, depth, Bool.false_eq_true, if_false] at hd
      split at hw
      · rename_i id t hid halt
        rw [cat_eq_some] at hw
        obtain ⟨x, y, hx, hy, rfl⟩ := hw
        simp only [List.length_append] at hl
        obtain ⟨w1, w2, w3, w4⟩ := wireId_wire g1 hx
        simp only [hid, halt]
        refine (hrec idTy id x g5 w1 (by omega) (Or.inr w3) ?_).andThen
          (hrec t v' y (GoodL_mem g6 t (List.mem_of_getElem? halt)) hy (by omega) hnb ?_)
        · rw [w4]; simp only [Bool.false_eq_true, if_false]; omega
        · split <;> omega
      · cases hw
    | bitset n =>
      cases v <;> simp only [wire, wireNum] at hw <;> first | cases hw | skip
      have hz : z = true := by simpa [noBits] using hnb
      subst hz
      split at hw
      · rename_i hn
        cases hw
        exact encBitset_emits hg hn hl
      · cases hw
    | msg sz ok maps nums fs =>
      cases v <;> simp only [wire, wireNum] at hw <;> first | cases hw | skip
      rename_i vs
      simp only [Ty.isRef, depth, Bool.false_eq_true, if_false] at hd
      cases hb : pbFields (fmtOf c).env maps 0 nums fs vs with
      | none => simp [hb] at hw
      | some body =>
        simp only [hb] at hw
        rw [cat_eq_some] at hw
        obtain ⟨x, y, hx, hy, rfl⟩ := hw
        cases hy
        rw [pbOutCfg_good gt]
        have gt' := gt
        simp only [Good, nodeOk, Bool.and_eq_true] at gt
        obtain ⟨⟨⟨⟨g1, g2⟩, g3⟩, g4⟩, g5⟩ := gt
        have hl' := hl
        simp only [List.length_append] at hl'
        refine encByProtocol_emits hg z (sz := effSz c sz) (by simpa [msgSzOk, effSz] using g3) ?_
          (by simpa only [effSz, fmtOf] using hx) hl
        have hip := inPb_pbCfg c
        refine pbEncFields_emits (c := pbCfg c) hg hip ha z (D := d) (ih (pbCfg c) hg ha (EnvGood.pb he)) nums 0 fs vs body
          g1 g5 hb (by omega) hnb (by omega)
    | ref i =>
      cases v <;> simp only [wire, wireNum] at hw <;> first | cases hw | skip
      rename_i vs
      simp only [Ty.isRef, if_true] at hd
      refine hrec (c.env i) (.list vs) bs (he i).1 ?_ hl hnb ?_
      · have : (fmtOf c).env = c.env := rfl
        rw [this] at hw
        cases hc : c.env i <;> simp only [hc] at hw <;> first | cases hw | skip
        · simp only [wire]; exact hw
        · simp only [wire]; exact hw
      · have : (c.env i).isRef = false := by
          have : (fmtOf c).env = c.env := rfl
          rw [this] at hw
          cases hc : c.env i <;> simp only [hc] at hw <;> first | cases hw | rfl
        rw [this]
        simp only [Bool.false_eq_true, if_false]
        exact hd

end Zpp
