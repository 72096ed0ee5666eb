import Verif.Spec.Relay
import Verif.Proof.WireLemmas
/-!
# Messages that are valid objects have encodings
-/

namespace Zpp
open Zpp.Spec

theorem lebGroups_length_le : ∀ (k v : Nat), (lebGroups k v).length ≤ k
  | 0, _ => by simp [lebGroups]
  | k + 1, v => by
    simp only [lebGroups]
    split
    · simp
    · have := lebGroups_length_le k (v / 128)
      simp only [List.length_cons]
      omega

theorem leb_length_ten (v : Nat) : (leb v).length ≤ 10 := lebGroups_length_le 10 v

theorem pow256 (n : Nat) : 256 ^ n = 2 ^ (8 * n) := by
  rw [Nat.pow_mul]

theorem Spec.Roomy.le {g : Growth} {W n m : Nat} (h : Roomy g W n) (hm : m ≤ n) : Roomy g W m := by
  have h1 := Nat.mul_le_mul_left (W + 30) hm
  have h2 := Nat.mul_le_mul_left (W + 1) h1
  exact ⟨by have := h.len; omega, by have := h.mem; omega, h.limit⟩

theorem length_le_cellsL : ∀ vs : List Val, vs.length ≤ cellsL vs
  | [] => by simp [cellsL]
  | v :: vs => by
    have := length_le_cellsL vs
    have h : 1 ≤ cells v := by cases v <;> simp [cells]
    simp only [List.length_cons, cellsL]
    omega

/-- A number of an element or id type that is a valid object has an encoding. -/
theorem wireNum_exists {f : Fmt} {c : Cfg} {W : Nat} (habi : AbiOk c.sizeof) {t : Ty} {v : Val} (hp : isPacked t = true)
    (hn : numTy (packedElem t) = true) (ho : Object c.env c.keyLt t v) (hb : Bools c.env t v) (hW : c.sizeof (packedElem t) ≤ W) :
    ∃ x bs, v = .num x ∧ wireNum f (packedElem t) x = some bs ∧ bs.length ≤ W + 10 := by
  cases t <;> simp [isPacked] at hp
  case scalar k n =>
    cases ho with
    | scalar h =>
      rename_i x
      refine ⟨x, ?_⟩
      cases k
      case enum =>
        simp only [packedElem, wireNum]
        rw [if_pos (show x < 2 ^ (8 * n) by rw [← pow256]; exact h)]
        exact ⟨_, trivial, rfl, by have := leb_length_ten (varintValue n false x); omega⟩
      all_goals
        simp only [packedElem, wireNum, numTy] at hn hW ⊢
        rw [if_pos h]
        refine ⟨_, trivial, rfl, ?_⟩
        rw [digits_length]
        have h0 : 0 < n := by
          simp only [scalarOk] at hn
          simp at hn
          omega
        rw [habi.scalar _ n h0] at hW
        omega
  case bool =>
    cases ho with
    | bool h =>
      simp only [Bools] at hb
      rename_i x
      refine ⟨x, [UInt8.ofNat x], rfl, ?_, by simp⟩
      simp only [packedElem, wireNum]
      rw [if_pos hb]
  case varint n zz =>
    cases ho with
    | varint h =>
      rename_i x
      refine ⟨x, ?_⟩
      simp only [packedElem, wireNum]
      rw [if_pos (show x < 2 ^ (8 * n) by rw [← pow256]; exact h)]
      exact ⟨_, trivial, rfl, by have := leb_length_ten (varintValue n zz x); omega⟩

theorem wireNums_exists {f : Fmt} {c : Cfg} {W : Nat} (habi : AbiOk c.sizeof) {t : Ty} (hp : isPacked t = true)
    (hn : numTy (packedElem t) = true) (hW : c.sizeof (packedElem t) ≤ W) :
    ∀ vs : List Val, (∀ v ∈ vs, Object c.env c.keyLt t v) → BoolsL c.env t vs →
    ∃ bs, wireNums f (packedElem t) vs = some bs ∧ bs.length ≤ (W + 10) * vs.length
  | [], _, _ => ⟨[], rfl, by simp⟩
  | v :: vs, ho, hb => by
    simp only [BoolsL] at hb
    obtain ⟨x, a, rfl, ha, hal⟩ := wireNum_exists (f := f) habi hp hn (ho v (by simp)) hb.1 hW
    obtain ⟨b, hb, hbl⟩ := wireNums_exists (f := f) habi hp hn hW vs (fun w hw => ho w (by simp [hw])) hb.2
    refine ⟨a ++ b, ?_, ?_⟩
    · simp only [wireNums, ha, hb, cat]
    · simp only [List.length_append, List.length_cons, Nat.mul_add, Nat.mul_one]
      omega

/-- A packed member has an encoding and can be read back. -/
theorem packed_exists {c : Cfg} {W : Nat} (habi : AbiOk c.sizeof) (num : Nat) {t : Ty} (hp : isPacked t = true)
    (hn : numTy (packedElem t) = true) (hW : c.sizeof (packedElem t) ≤ W) (vs : List Val)
    (ho : ∀ v ∈ vs, Object c.env c.keyLt t v) (hb : BoolsL c.env t vs) (hr : Roomy c.g W (1 + cellsL vs)) (resize reserve : Bool) :
    (∃ bs, pbPackedField c.env num t vs = some bs ∧ bs.length ≤ (W + 30) * (1 + cellsL vs)) ∧
    PackedFits c resize reserve t vs := by
  obtain ⟨bs, h1, h2⟩ := wireNums_exists (f := pbFmt c.env) habi hp hn hW vs ho hb
  have h3 := length_le_cellsL vs
  have h4 : bs.length + 20 ≤ (W + 30) * (1 + cellsL vs) := by
    have := Nat.mul_le_mul_left (W + 10) h3
    have e : (W + 30) * (1 + cellsL vs) = (W + 10) * cellsL vs + 20 * cellsL vs + W + 30 := by
      rw [show W + 30 = (W + 10) + 20 from rfl, Nat.add_mul, Nat.mul_add, Nat.mul_add]; omega
    omega
  have hl := hr.len
  have hm := hr.mem
  have hm1 : (W + 1) * bs.length ≤ c.g.maxMem := Nat.le_trans (Nat.mul_le_mul_left _ (by omega)) hm
  have hm2 : bs.length * W ≤ c.g.maxMem ∧ bs.length ≤ c.g.maxMem := by
    rw [Nat.add_mul, Nat.one_mul, Nat.mul_comm W] at hm1
    omega
  constructor
  · unfold pbPackedField
    split
    · exact ⟨[], rfl, by simp⟩
    · rw [h1]
      simp only
      rw [if_pos (by omega)]
      refine ⟨_, rfl, ?_⟩
      simp only [pbRecord, List.length_append]
      have := leb_length_ten (num * 8 + 2)
      have := leb_length_ten bs.length
      omega
  · intro body hbody
    rw [h1] at hbody
    cases hbody
    have hz : bs.length * c.sizeof (packedElem t) ≤ c.g.maxMem := Nat.le_trans (Nat.mul_le_mul_left _ hW) hm2.1
    split
    · next e => rw [e] at hz; exact fun _ => hz
    · exact ⟨Or.inl hr.limit, hm2.2⟩
    · exact fun _ => hz

/-- The body of a message of at most `n` values. -/
def BodyOk (c : Cfg) (W n : Nat) : Prop :=
  ∀ (maps : List (Nat × Nat)) (i : Nat) (nums : List (Option Nat)) (fs : List Ty) (vs : List Val), cellsL vs ≤ n →
    Objects c.env c.keyLt fs vs → BoolsF c.env fs vs → narrowL c.sizeof W fs = true → pbFieldsOk c.env maps i nums fs = true →
    GoodL c fs = true → Roomy c.g W (cellsL vs) →
    ∃ bs, pbFields c.env maps i nums fs vs = some bs ∧ bs.length ≤ (W + 30) * cellsL vs ∧ LoadablePb c fs vs

theorem pbLen_exists {W n num : Nat} {g : Growth} {bs : List UInt8} (hr : Roomy g W (1 + n)) (hb : bs.length ≤ (W + 30) * n) :
    ∃ r, pbLen num (some bs) = some r ∧ r.length ≤ (W + 30) * (1 + n) := by
  have hl := hr.len
  have e : (W + 30) * (1 + n) = (W + 30) * n + W + 30 := by rw [Nat.mul_add]; omega
  simp only [pbLen]
  rw [if_pos (by omega)]
  refine ⟨_, rfl, ?_⟩
  simp only [pbRecord, List.length_append]
  have := leb_length_ten (num * 8 + 2)
  have := leb_length_ten bs.length
  omega

/-- A message inside a message. -/
theorem msg_exists {c : Cfg} {W n : Nat} (ih : ∀ m < n, BodyOk c W m) (num : Nat)
    {maps : List (Nat × Nat)} {nums : List (Option Nat)} {fs : List Ty} {vs : List Val} (hn : cells (.list vs) ≤ n)
    (ho : Objects c.env c.keyLt fs vs) (hb : BoolsF c.env fs vs) (hw : narrowL c.sizeof W fs = true)
    (hf : pbFieldsOk c.env maps 0 nums fs = true) (hg : GoodL c fs = true) (hr : Roomy c.g W (cells (.list vs))) :
    ∃ r, pbLen num (pbFields c.env maps 0 nums fs vs) = some r ∧ r.length ≤ (W + 30) * cells (.list vs) ∧ LoadablePb c fs vs := by
  simp only [cells] at hn hr ⊢
  obtain ⟨bs, h1, h2, h3⟩ := ih (cellsL vs) (by omega) maps 0 nums fs vs (Nat.le_refl _) ho hb hw hf hg (hr.le (by omega))
  rw [h1]
  obtain ⟨r, h4, h5⟩ := pbLen_exists (num := num) hr h2
  exact ⟨r, h4, h5, h3⟩

theorem fits_one {c : Cfg} {W : Nat} (habi : AbiOk c.sizeof) {sk : SKind} {vs : List Val} (hr : Roomy c.g W (1 + cellsL vs)) :
    Fits c.g (c.sizeof (.scalar sk 1)) vs.length := by
  have h1 := length_le_cellsL vs
  have h2 := hr.mem
  refine ⟨Or.inl hr.limit, ?_⟩
  rw [habi.scalar sk 1 (by omega), Nat.mul_one]
  have h3 : (W + 30) * (1 + cellsL vs) ≤ (W + 1) * ((W + 30) * (1 + cellsL vs)) := Nat.le_mul_of_pos_left _ (by omega)
  have h4 : 1 + cellsL vs ≤ (W + 30) * (1 + cellsL vs) := Nat.le_mul_of_pos_left _ (by omega)
  omega

theorem loadableL_scalar (c : Cfg) (sk : SKind) (n : Nat) : ∀ vs : List Val, LoadableL c (.scalar sk n) vs
  | [] => by simp only [LoadableL]
  | v :: vs => by
    simp only [LoadableL]
    exact ⟨by cases v <;> simp only [Loadable], loadableL_scalar c sk n vs⟩

/-- An element of a repeated member: a message or a string. -/
theorem elem_exists {c : Cfg} {W n : Nat} (hc : insideMsg c = c) (habi : AbiOk c.sizeof) (henv : ∀ i, Good c (c.env i) = true)
    (hnar : ∀ i, narrow c.sizeof W (c.env i) = true) (hW : 1 ≤ W)
    (ih : ∀ m < n, BodyOk c W m) (num : Nat) {t : Ty} {v : Val} (hn : cells v ≤ n)
    (ht : isMsg c.env t = true ∨ isStr t = true)
    (ho : Object c.env c.keyLt t v) (hb : Bools c.env t v) (hw : narrow c.sizeof W t = true) (hg : Good c t = true)
    (hr : Roomy c.g W (cells v)) :
    ∃ r, pbPayload c.env num t v = some r ∧ r.length ≤ (W + 30) * cells v ∧ Loadable c t v := by
  have hd : (none : Option SizeTy).getD c.dsz ≠ .none := by
    rw [← hc]; simp [insideMsg]
  cases t <;> simp [isMsg, isStr] at ht
  case seq k sz t' =>
    cases t' <;> simp at ht
    case scalar sk w =>
      obtain ⟨⟨⟨rfl, rfl⟩, hk⟩, rfl⟩ := ht
      cases ho with
      | seq h =>
        rename_i vs
        simp only [Bools] at hb
        obtain ⟨bs, h1, h2⟩ := wireNums_exists (f := pbFmt c.env) (t := .scalar sk 1) (W := W) habi rfl
          (by rcases hk with rfl | rfl <;> rfl) (by
            rcases hk with rfl | rfl
            all_goals
              simp only [packedElem]
              rw [habi.scalar _ 1 (by omega)]
              exact hW) vs h hb
        have e : packedElem (.scalar sk 1) = .scalar sk 1 := by rcases hk with rfl | rfl <;> rfl
        rw [e] at h1
        simp only [cells] at hr ⊢
        have h3 := Nat.mul_le_mul (show W + 10 ≤ W + 30 by omega) (length_le_cellsL vs)
        obtain ⟨r, h4, h5⟩ := pbLen_exists (num := num) hr (Nat.le_trans h2 h3)
        refine ⟨r, ?_, h5, ?_⟩
        · simp only [pbPayload, h1, h4]
        · simp only [Loadable]
          exact ⟨by simp, hd, fun _ => fits_one habi hr, loadableL_scalar c sk 1 vs⟩
  case msg sz ok maps nums fs =>
    subst ht
    cases ho with
    | msg h =>
      simp only [Bools] at hb
      simp only [Good, nodeOk, Bool.and_eq_true, hc] at hg
      simp only [narrow] at hw
      obtain ⟨r, h1, h2, h3⟩ := msg_exists ih num (maps := maps) (nums := nums) hn h hb hw hg.1.1.1.1 hg.2 hr
      refine ⟨r, ?_, h2, ?_⟩
      · simp only [pbPayload, h1]
      · simp only [Loadable, hc]
        exact ⟨hd, h3⟩
  case ref i =>
    cases ho with
    | ref h =>
      have hgi := henv i
      have hwi := hnar i
      generalize hi : c.env i = ti at *
      cases ti <;> simp at ht
      case msg sz ok maps nums fs =>
        subst ht
        cases h with
        | msg h =>
          simp only [Bools, hi] at hb
          simp only [Good, nodeOk, Bool.and_eq_true, hc] at hgi
          simp only [narrow] at hwi
          obtain ⟨r, h1, h2, h3⟩ := msg_exists ih num (maps := maps) (nums := nums) hn h hb hwi hgi.1.1.1.1 hgi.2 hr
          refine ⟨r, ?_, h2, ?_⟩
          · simp only [pbPayload, hi, h1]
          · simp only [Loadable, hi, hc]
            exact ⟨hd, h3⟩

/-- The elements of a repeated member. -/
theorem repeated_exists {c : Cfg} {W : Nat} (t : Ty) (num : Nat) :
    ∀ vs : List Val, (∀ v ∈ vs, ∃ r, pbPayload c.env num t v = some r ∧ r.length ≤ (W + 30) * cells v ∧ Loadable c t v) →
    ∃ r, pbRepeated c.env num t vs = some r ∧ r.length ≤ (W + 30) * cellsL vs ∧ LoadableL c t vs
  | [], _ => ⟨[], by simp [pbRepeated], by simp, by simp only [LoadableL]⟩
  | v :: vs, h => by
    obtain ⟨a, h1, h2, h3⟩ := h v (by simp)
    obtain ⟨b, h4, h5, h6⟩ := repeated_exists t num vs fun w hw => h w (by simp [hw])
    refine ⟨a ++ b, ?_, ?_, ?_⟩
    · simp only [pbRepeated, h1, h4, cat]
    · simp only [List.length_append, cellsL, Nat.mul_add]
      omega
    · simp only [LoadableL]
      exact ⟨h3, h6⟩

theorem BoolsL.mem {env : Nat → Ty} {t : Ty} : ∀ {vs : List Val}, BoolsL env t vs → ∀ v ∈ vs, Bools env t v
  | [], _, _, hv => by simp at hv
  | w :: ws, h, v, hv => by
    simp only [BoolsL] at h
    rcases List.mem_cons.mp hv with rfl | hv
    · exact h.1
    · exact BoolsL.mem h.2 v hv

theorem cells_le_cellsL {v : Val} : ∀ {vs : List Val}, v ∈ vs → cells v ≤ cellsL vs
  | w :: ws, hv => by
    simp only [cellsL]
    rcases List.mem_cons.mp hv with rfl | hv
    · omega
    · have := cells_le_cellsL hv
      omega

/-- A number as a member. -/
theorem scalar_exists {c : Cfg} {W : Nat} (num : Nat) {t : Ty} {v : Val} (ht : pbScalarOk t = true)
    (ho : Object c.env c.keyLt t v) (hb : Bools c.env t v) :
    ∃ r, pbField c.env num t v = some r ∧ r.length ≤ (W + 30) * cells v ∧ LoadablePbField c t v := by
  have hl : ∀ n, (leb n).length ≤ 10 := leb_length_ten
  cases t <;> simp [pbScalarOk] at ht
  case scalar k n =>
    cases ho with
    | scalar h =>
      rename_i x
      have hx : x < 2 ^ (8 * n) := by rw [← pow256]; exact h
      cases k <;> simp at ht
      case enum =>
        refine ⟨pbRecord num (.varint x), ?_, ?_, by simp only [LoadablePbField]⟩
        · simp only [pbField, pbScalar]; rw [if_pos hx]
        · simp only [pbRecord, List.length_append, cells]
          have := hl (num * 8 + 0); have := hl x; omega
      case int =>
        rcases ht with rfl | rfl
        · refine ⟨pbRecord num (.fixed32 x), ?_, ?_, by simp only [LoadablePbField]⟩
          · simp only [pbField, pbScalar]; rw [if_pos hx]
          · simp only [pbRecord, List.length_append, cells, digits_length]
            have := hl (num * 8 + 5); omega
        · refine ⟨pbRecord num (.fixed64 x), ?_, ?_, by simp only [LoadablePbField]⟩
          · simp only [pbField, pbScalar]; rw [if_pos hx]
          · simp only [pbRecord, List.length_append, cells, digits_length]
            have := hl (num * 8 + 1); omega
  case bool =>
    cases ho with
    | bool h =>
      rename_i x
      simp only [Bools] at hb
      refine ⟨pbRecord num (.varint x), ?_, ?_, by simp only [LoadablePbField]⟩
      · simp only [pbField, pbScalar]; rw [if_pos hb]
      · simp only [pbRecord, List.length_append, cells]
        have := hl (num * 8 + 0); have := hl x; omega
  case varint n zz =>
    cases ho with
    | varint h =>
      rename_i x
      have hx : x < 2 ^ (8 * n) := by rw [← pow256]; exact h
      refine ⟨pbRecord num (.varint (varintValue n zz x)), ?_, ?_, by simp only [LoadablePbField]⟩
      · simp only [pbField, pbScalar]; rw [if_pos hx]
      · simp only [pbRecord, List.length_append, cells]
        have := hl (num * 8 + 0); have := hl (varintValue n zz x); omega

theorem isPacked_numTy {env : Nat → Ty} {t : Ty} (h : pbElemOk env t = true) :
    (isPacked t = true ∧ numTy (packedElem t) = true) ∨ (isPacked t = false ∧ (isMsg env t = true ∨ isStr t = true)) := by
  cases t <;> simp_all [pbElemOk, isPacked, isMsg, isStr, packedElem, numTy]

theorem strOk {env : Nat → Ty} {k : Nat} {t : Ty} (h : isStr t = true) : pbFieldOk env [] none k t = true := by
  cases t with
  | seq sk sz' t' =>
    cases t' <;> simp [isStr] at h
    obtain ⟨⟨⟨rfl, rfl⟩, hk⟩, rfl⟩ := h
    rcases hk with rfl | rfl <;> rfl
  | _ => simp [isStr] at h

theorem scalarFieldOk {env : Nat → Ty} {k : Nat} {t : Ty} (h : pbScalarOk t = true) : pbFieldOk env [] none k t = true := by
  cases t with
  | scalar sk n => simp only [pbFieldOk, h, Bool.true_or]
  | bool => rfl
  | varint n zz => simp only [pbFieldOk, h, Bool.true_or]
  | _ => simp [pbScalarOk] at h

theorem msgFieldOk {env : Nat → Ty} {k : Nat} {t : Ty} (h : isMsg env t = true) : pbFieldOk env [] none k t = true := by
  cases t with
  | msg sz ok maps nums fs => simp only [pbFieldOk, h, Bool.or_true]
  | ref i => simp only [pbFieldOk, h, Bool.or_true]
  | _ => simp [isMsg] at h

theorem entry_fieldsOk {env : Nat → Ty} {key m : Ty} (hk : (pbScalarOk key || isStr key) = true)
    (hm : (pbScalarOk m || isStr m || isMsg env m) = true) : pbFieldsOk env [] 0 [none, none] [key, m] = true := by
  have h1 : pbFieldOk env [] none 0 key = true := by
    rcases (Bool.or_eq_true _ _).mp hk with h | h
    · exact scalarFieldOk h
    · exact strOk h
  have h2 : pbFieldOk env [] none 1 m = true := by
    rcases (Bool.or_eq_true _ _).mp hm with h | h
    · rcases (Bool.or_eq_true _ _).mp h with h | h
      · exact scalarFieldOk h
      · exact strOk h
    · exact msgFieldOk h
  simp only [pbFieldsOk, h1, h2]
  rfl

/-- A member of a message. -/
theorem field_exists {c : Cfg} {W n : Nat} (hc : insideMsg c = c) (habi : AbiOk c.sizeof) (henv : ∀ i, Good c (c.env i) = true)
    (hnar : ∀ i, narrow c.sizeof W (c.env i) = true) (hW : 1 ≤ W)
    (ih : ∀ m < n, BodyOk c W m) (maps : List (Nat × Nat)) (no : Option Nat) (i num : Nat) {t : Ty} {v : Val} (hn : cells v ≤ n)
    (ht : pbFieldOk c.env maps no i t = true)
    (ho : Object c.env c.keyLt t v) (hb : Bools c.env t v) (hw : narrow c.sizeof W t = true) (hg : Good c t = true)
    (hr : Roomy c.g W (cells v)) :
    ∃ r, pbField c.env num t v = some r ∧ r.length ≤ (W + 30) * cells v ∧ LoadablePbField c t v := by
  cases t with
  | empty =>
    cases ho
    exact ⟨[], by simp [pbField], by simp, by simp only [LoadablePbField]⟩
  | scalar k w =>
    simp only [pbFieldOk, isMsg, Bool.or_false] at ht
    exact scalar_exists num ht ho hb
  | bool => exact scalar_exists num rfl ho hb
  | varint w zz =>
    simp only [pbFieldOk, isMsg, Bool.or_false] at ht
    exact scalar_exists num ht ho hb
  | seq k sz t' =>
    simp only [pbFieldOk, Bool.and_eq_true] at ht
    cases ho with
    | seq h =>
      rename_i vs
      simp only [Bools] at hb
      simp only [narrow, Bool.and_eq_true] at hw
      simp only [Good, Bool.and_eq_true] at hg
      simp only [cells] at hn hr
      rcases isPacked_numTy ht.1.2 with ⟨hp, hnum⟩ | ⟨hp, he⟩
      · simp [hp] at hw
        obtain ⟨⟨r, h1, h2⟩, h3⟩ := packed_exists habi num hp hnum hw.1 vs h hb hr true (k == .vector)
        refine ⟨r, ?_, h2, ?_⟩
        · simp only [pbField, hp, if_true, h1]
        · simp only [LoadablePbField, hp, if_true]; exact h3
      · obtain ⟨r, h1, h2, h3⟩ := repeated_exists (c := c) (W := W) t' num vs fun v hv => by
          have := cells_le_cellsL hv
          exact elem_exists hc habi henv hnar hW ih num (by omega) he (h v hv) (BoolsL.mem hb v hv) hw.2 hg.2 (hr.le (by omega))
        refine ⟨r, ?_, ?_, ?_⟩
        · simp only [pbField, hp, h1]; simp
        · simp only [cells, Nat.mul_add]; omega
        · simp only [LoadablePbField, hp]; simpa using h3
  | assoc multi hashed sz key mapped =>
    cases mapped with
    | none =>
      simp only [pbFieldOk, Bool.and_eq_true] at ht
      cases ho with
      | set h ho' =>
        rename_i vs
        simp only [Bools] at hb
        simp only [narrow, Bool.and_eq_true] at hw
        simp only [Good] at hg
        simp only [cells] at hn hr
        rcases isPacked_numTy ht.1.2 with ⟨hp, hnum⟩ | ⟨hp, he⟩
        · simp [hp] at hw
          obtain ⟨⟨r, h1, h2⟩, h3⟩ := packed_exists habi num hp hnum hw.1 vs h hb hr false hashed
          refine ⟨r, ?_, h2, ?_⟩
          · simp only [pbField, hp, if_true, h1]
          · simp only [LoadablePbField, hp, if_true]; exact ⟨ho', h3⟩
        · obtain ⟨r, h1, h2, h3⟩ := repeated_exists (c := c) (W := W) key num vs fun v hv => by
            have := cells_le_cellsL hv
            exact elem_exists hc habi henv hnar hW ih num (by omega) he (h v hv) (BoolsL.mem hb v hv) hw.2 hg (hr.le (by omega))
          refine ⟨r, ?_, ?_, ?_⟩
          · simp only [pbField, hp, h1]; simp
          · simp only [cells, Nat.mul_add]; omega
          · simp only [LoadablePbField, hp]; exact ⟨ho', by simpa using h3⟩
    | some m =>
      simp only [pbFieldOk, Bool.and_eq_true] at ht
      cases ho with
      | map h ho' =>
        rename_i vs
        simp only [Bools] at hb
        simp only [narrow, Bool.and_eq_true] at hw
        simp only [Good, Bool.and_eq_true] at hg
        simp only [cells] at hn hr
        have hd : (none : Option SizeTy).getD c.dsz ≠ .none := by
          rw [← hc]; simp [insideMsg]
        have hok := entry_fieldsOk ht.1.2 ht.2
        obtain ⟨r, h1, h2, h3⟩ := repeated_exists (c := c) (W := W) (.msg none false [] [none, none] [key, m]) num vs fun v hv => by
          have hcl := cells_le_cellsL hv
          have hbv := BoolsL.mem hb v hv
          have hov := h v hv
          cases hov with
          | struct hov =>
            rename_i ws
            simp only [Bools] at hbv
            obtain ⟨r, h1, h2, h3⟩ := msg_exists (W := W) ih num (maps := []) (nums := [none, none]) (by omega) hov hbv
              (by simp [narrowL, hw]) hok (by simp [GoodL, hg]) (hr.le (by omega))
            refine ⟨r, ?_, h2, ?_⟩
            · simp only [pbPayload, h1]
            · simp only [Loadable, hc]
              exact ⟨hd, h3⟩
        refine ⟨r, ?_, ?_, ?_⟩
        · simp only [pbField, h1]
        · simp only [cells, Nat.mul_add]; omega
        · simp only [LoadablePbField]; exact ⟨ho', h3⟩
  | msg sz ok maps' nums fs =>
    cases ho with
    | msg h =>
      simp only [Bools] at hb
      simp only [Good, nodeOk, Bool.and_eq_true, hc] at hg
      simp only [narrow] at hw
      obtain ⟨r, h1, h2, h3⟩ := msg_exists ih num (maps := maps') (nums := nums) hn h hb hw hg.1.1.1.1 hg.2 hr
      refine ⟨r, ?_, h2, ?_⟩
      · simp only [pbField, h1]
      · simp only [LoadablePbField]; exact h3
  | ref j =>
    simp only [pbFieldOk, pbScalarOk, Bool.false_or] at ht
    cases ho with
    | ref h =>
      have hgi := henv j
      have hwi := hnar j
      generalize hi : c.env j = ti at *
      cases ti <;> simp [isMsg, hi] at ht
      case msg sz ok maps' nums fs =>
        cases h with
        | msg h =>
          simp only [Bools, hi] at hb
          simp only [Good, nodeOk, Bool.and_eq_true, hc] at hgi
          simp only [narrow] at hwi
          obtain ⟨r, h1, h2, h3⟩ := msg_exists ih num (maps := maps') (nums := nums) hn h hb hwi hgi.1.1.1.1 hgi.2 hr
          refine ⟨r, ?_, h2, ?_⟩
          · simp only [pbField, hi, h1]
          · simp only [LoadablePbField, hi]; exact h3
  | _ => simp [pbFieldOk, pbScalarOk, isMsg] at ht

/-- The body of every message that is a valid object has an encoding and can be read back. -/
theorem body_exists {c : Cfg} {W : Nat} (hc : insideMsg c = c) (habi : AbiOk c.sizeof) (henv : ∀ i, Good c (c.env i) = true)
    (hnar : ∀ i, narrow c.sizeof W (c.env i) = true) (hW : 1 ≤ W) (n : Nat) : BodyOk c W n := by
  induction n using Nat.strongRecOn with
  | _ n ih =>
    intro maps i nums fs
    induction fs generalizing i nums with
    | nil =>
      intro vs hn ho hb hw hf hg hr
      cases ho
      cases nums with
      | nil => exact ⟨[], by simp [pbFields], by simp, by simp only [LoadablePb]⟩
      | cons a as => simp [pbFieldsOk] at hf
    | cons t ts iht =>
      intro vs hn ho hb hw hf hg hr
      cases ho with
      | cons h hs =>
        rename_i v vs
        cases nums with
        | nil => simp [pbFieldsOk] at hf
        | cons no nums =>
          simp only [pbFieldsOk, Bool.and_eq_true] at hf
          simp only [BoolsF] at hb
          simp only [narrowL, Bool.and_eq_true] at hw
          simp only [GoodL, Bool.and_eq_true] at hg
          simp only [cellsL] at hn hr ⊢
          obtain ⟨a, h1, h2, h3⟩ := field_exists hc habi henv hnar hW ih maps no i (fieldNumber maps no i) (by omega) hf.1.1.1.1 h
            hb.1 hw.1 hg.1 (hr.le (by omega))
          obtain ⟨b, h4, h5, h6⟩ := iht (i + 1) nums vs (by omega) hs hb.2 hw.2 hf.2 hg.2 (hr.le (by omega))
          refine ⟨a ++ b, ?_, ?_, ?_⟩
          · simp only [pbFields, h1, h4, cat]
          · simp only [List.length_append, Nat.mul_add]; omega
          · simp only [LoadablePb]; exact ⟨h3, h6⟩

end Zpp
