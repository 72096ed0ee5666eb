import Verif.Model.Static
import Verif.Spec.Static
import Verif.Proof.InRecords
import Verif.Proof.OutWire
/-!
# Lemmas about the checks done by the compiler
-/

namespace Zpp
open Zpp.Spec

theorem getId_spec (alts : List DeclaredId) (i : Nat) : ∀ (k : Nat), k ≤ i → ∀ (t : Ty) (v : Val),
    (getId i k (alts.drop k) = some (t, v) ↔ HasId alts i t v) := by
  intro k hk
  induction hn : alts.length - k generalizing k with
  | zero =>
    intro t v
    rw [List.drop_eq_nil_of_le (by omega)]
    constructor
    · intro h; simp [getId] at h
    · intro h
      have : alts[i]? = none := List.getElem?_eq_none (by omega)
      cases h with
      | declared h => rw [this] at h; cases h
      | byIndex h _ => rw [this] at h; cases h
  | succ n ih =>
    intro t v
    have hlt : k < alts.length := by omega
    rw [List.drop_eq_getElem_cons hlt, getId.eq_def]
    dsimp only
    split
    · subst_vars
      have hg : alts[k]? = some alts[k] := List.getElem?_eq_getElem hlt
      cases ha : alts[k] with
      | some x =>
        rw [ha] at hg
        constructor
        · intro h
          simp only [Option.some.injEq] at h
          subst h
          exact .declared hg
        · intro h
          cases h with
          | declared h => rw [hg] at h; simpa using h
          | byIndex h _ => rw [hg] at h; cases h
      | none =>
        rw [ha] at hg
        constructor
        · intro h
          by_cases h256 : k < 256
          · simp only [h256, if_true, Option.some.injEq, Prod.mk.injEq] at h
            obtain ⟨rfl, rfl⟩ := h
            exact .byIndex hg h256
          · simp [h256] at h
        · intro h
          cases h with
          | declared h => rw [hg] at h; cases h
          | byIndex _ h256 => simp [h256]
    · exact ih (k + 1) (by omega) (by omega) t v

theorem getId_iff (alts : List DeclaredId) (i : Nat) (t : Ty) (v : Val) :
    getId i 0 alts = some (t, v) ↔ HasId alts i t v := by simpa using getId_spec alts i 0 (by omega) t v

theorem allIds_iff (alts : List DeclaredId) : ∀ (is : List Nat) (xs : List (Ty × Val)),
    allIds alts is = some xs ↔
      xs.length = is.length ∧ ∀ (k i : Nat), is[k]? = some i → ∃ t v, xs[k]? = some (t, v) ∧ HasId alts i t v := by
  intro is
  induction is with
  | nil =>
    intro xs
    simp only [allIds, Option.some.injEq, List.length_nil]
    constructor
    · rintro rfl; simp
    · rintro ⟨h, _⟩; exact (List.eq_nil_of_length_eq_zero h).symm
  | cons i is ih =>
    intro xs
    constructor
    · intro h
      rw [allIds] at h
      split at h
      · rename_i x ys hx hys
        cases h
        obtain ⟨h1, h2⟩ := (ih ys).mp hys
        refine ⟨by simp [h1], fun k j hk => ?_⟩
        cases k with
        | zero =>
          simp only [List.getElem?_cons_zero, Option.some.injEq] at hk
          subst hk
          exact ⟨x.1, x.2, by simp, (getId_iff _ _ _ _).mp hx⟩
        | succ k => exact h2 k j (by simpa using hk)
      · cases h
    · rintro ⟨h1, h2⟩
      cases xs with
      | nil => simp at h1
      | cons x xs =>
        obtain ⟨t, v, h3, h4⟩ := h2 0 i (by simp)
        simp only [List.getElem?_cons_zero, Option.some.injEq] at h3
        subst h3
        have h5 : allIds alts is = some xs :=
          (ih xs).mpr ⟨by simpa using h1, fun k j hk => h2 (k + 1) j (by simpa using hk)⟩
        rw [allIds, (getId_iff _ _ _ _).mpr h4, h5]

theorem uniqueIds_iff (ids : List Val) :
    uniqueIds ids = true ↔ ∀ i j, i < ids.length → j < ids.length → ids[i]? = ids[j]? → i = j := by
  simp only [uniqueIds, List.all_eq_true, List.mem_range, Bool.or_eq_true, beq_iff_eq, decide_eq_true_eq]
  constructor
  · intro h i j hi hj he
    rcases h i hi j hj with h | h
    · exact h
    · exact absurd he h
  · intro h i hi j hj
    by_cases he : ids[i]? = ids[j]?
    · exact .inl (h i j hi hj he)
    · exact .inr he

theorem uniqueValues_iff (vs : List Nat) :
    uniqueValues vs = true ↔ ∀ i j, i < vs.length → j < vs.length → vs[i]? = vs[j]? → i = j := by
  simp only [uniqueValues, List.all_eq_true, List.mem_range, Bool.or_eq_true, beq_iff_eq, decide_eq_true_eq]
  constructor
  · intro h i j hi hj he
    rcases h i hi j hj with h | h
    · exact h
    · exact absurd he h
  · intro h i hi j hj
    by_cases he : vs[i]? = vs[j]?
    · exact .inl (h i j hi hj he)
    · exact .inr he

theorem nodup_iff_index {α : Type} [DecidableEq α] : ∀ (xs : List α),
    nodup xs = true ↔ ∀ i j, i < xs.length → j < xs.length → xs[i]? = xs[j]? → i = j := by
  intro xs
  induction xs with
  | nil => simp [nodup]
  | cons x xs ih =>
    simp only [nodup, Bool.and_eq_true, Bool.not_eq_true', ih]
    constructor
    · rintro ⟨h1, h2⟩ i j hi hj he
      have hx : x ∉ xs := by simpa using h1
      cases i with
      | zero =>
        cases j with
        | zero => rfl
        | succ j =>
          simp only [List.getElem?_cons_zero, List.getElem?_cons_succ] at he
          exact absurd (List.mem_of_getElem? he.symm) hx
      | succ i =>
        cases j with
        | zero =>
          simp only [List.getElem?_cons_zero, List.getElem?_cons_succ] at he
          exact absurd (List.mem_of_getElem? he) hx
        | succ j =>
          simp only [List.getElem?_cons_succ] at he
          simp only [List.length_cons] at hi hj
          have := h2 i j (by omega) (by omega) he
          omega
    · intro h
      refine ⟨?_, fun i j hi hj he => ?_⟩
      · by_cases hx : x ∈ xs
        · obtain ⟨k, hk⟩ := List.getElem?_of_mem hx
          have hlt := (List.getElem?_eq_some_iff.mp hk).1
          have := h 0 (k + 1) (by simp) (by simp only [List.length_cons]; omega) (by simp [hk])
          omega
        · simpa using hx
      · have := h (i + 1) (j + 1) (by simp only [List.length_cons]; omega) (by simp only [List.length_cons]; omega) (by simpa using he)
        omega

/-- Inverse of `idTypeName`. -/
def idTypeOf : Nat × Nat × Nat → Ty
  | (0, n, _) => .scalar .int n
  | (1, n, _) => .scalar .chr n
  | (2, n, _) => .scalar .byte n
  | (3, n, _) => .scalar .enum n
  | (4, _, _) => .bool
  | (5, n, m) => .array m (.scalar .byte n)
  | (6, n, m) => .array m (.scalar .int n)
  | (_, n, m) => .array m (.scalar .chr n)

theorem index_of_Nodup {α : Type} {xs : List α} (h : xs.Nodup) (i j : Nat) (hi : i < xs.length) (hj : j < xs.length)
    (he : xs[i]? = xs[j]?) : i = j := by
  rw [List.nodup_iff_pairwise_ne, List.pairwise_iff_getElem] at h
  rw [List.getElem?_eq_getElem hi, List.getElem?_eq_getElem hj, Option.some.injEq] at he
  rcases Nat.lt_trichotomy i j with h1 | h1 | h1
  · exact absurd he (h i j hi hj h1)
  · exact h1
  · exact absurd he.symm (h j i hj hi h1)

theorem idTypeOf_name {t : Ty} {x : Nat × Nat × Nat} (h : idTypeName t = some x) : idTypeOf x = t := by
  unfold idTypeName at h
  split at h <;> first | (cases h; rfl) | cases h

theorem idTypeName_inj {a b : Ty} (ha : (idTypeName a).isSome = true) (h : idTypeName a = idTypeName b) : a = b := by
  obtain ⟨x, hx⟩ := Option.isSome_iff_exists.mp ha
  rw [← idTypeOf_name hx, idTypeOf_name (h ▸ hx)]

theorem idTypeName_isSome (t : Ty) : (idTypeName t).isSome = idType t := by
  cases t with
  | scalar k n => cases k <;> rfl
  | array m t =>
    cases t with
    | scalar k n => cases k <;> rfl
    | _ => rfl
  | _ => rfl

theorem sameIdTypes_iff (tys : List Ty) :
    sameIdTypes tys = true ↔ ∀ (i j : Nat) (a b : Ty), tys[i]? = some a → tys[j]? = some b → a = b ∧ idType a = true := by
  simp only [sameIdTypes, List.all_eq_true, List.mem_range, Bool.and_eq_true, decide_eq_true_eq]
  constructor
  · intro h i j a b ha hb
    have hi := (List.getElem?_eq_some_iff.mp ha).1
    have hj := (List.getElem?_eq_some_iff.mp hb).1
    have := h i hi j hj
    rw [ha, hb] at this
    simp only [Option.bind_some] at this
    exact ⟨idTypeName_inj this.2 this.1, by rw [← idTypeName_isSome]; exact this.2⟩
  · intro h i hi j hj
    have := h i j _ _ (List.getElem?_eq_getElem hi) (List.getElem?_eq_getElem hj)
    rw [List.getElem?_eq_getElem hi, List.getElem?_eq_getElem hj]
    simp only [Option.bind_some]
    exact ⟨by rw [this.1], by rw [idTypeName_isSome]; exact this.2⟩

theorem indexAt_of_nodup {ids : List Val} (h : nodup ids = true) : ∀ {i : Nat} {id : Val} (k : Nat), ids[i]? = some id →
    indexAt id k ids = i + k := by
  induction ids with
  | nil => intro i id k hi; simp at hi
  | cons x xs ih =>
    intro i id k hi
    simp only [nodup, Bool.and_eq_true, Bool.not_eq_true'] at h
    cases i with
    | zero => simp at hi; subst hi; simp [indexAt]
    | succ i =>
      simp only [List.getElem?_cons_succ] at hi
      have hne : x ≠ id := by
        intro he; subst he
        have := List.mem_of_getElem? hi
        simp [this] at h
      simp only [indexAt, if_neg hne, ih h.2 (k + 1) hi]
      omega

theorem indexAt_of_not_mem {id : Val} : ∀ {ids : List Val} (k : Nat), id ∉ ids → indexAt id k ids = sizeMax := by
  intro ids
  induction ids with
  | nil => intro k _; rfl
  | cons x xs ih =>
    intro k h
    simp only [List.mem_cons, not_or] at h
    rw [indexAt, if_neg (fun e => h.1 e.symm), ih _ h.2]

theorem indexStatic_eq_findId (id : Val) : ∀ (ids : List Val) (k : Nat), indexStatic id k ids = findId id ids k := by
  intro ids
  induction ids with
  | nil => intro k; rfl
  | cons x xs ih => intro k; rw [indexStatic, findId, ih]

theorem idAt_spec : ∀ (ids : List Val) (i k : Nat), k ≤ i → i - k < ids.length → idAt i k ids = ids[i - k]? := by
  intro ids
  induction ids with
  | nil => intro i k _ h; simp at h
  | cons x xs ih =>
    intro i k hk h
    cases xs with
    | nil =>
      simp only [List.length_cons, List.length_nil] at h
      have : i - k = 0 := by omega
      simp [idAt, this]
    | cons y ys =>
      rw [idAt]
      split
      · subst_vars; simp
      · rw [ih i (k + 1) (by omega) (by simp only [List.length_cons] at h ⊢; omega)]
        rw [show i - k = (i - (k + 1)) + 1 by omega, List.getElem?_cons_succ]

theorem tupleVisit_spec {β : Type} : ∀ (xs : List β) (i k : Nat), k ≤ i → i - k < xs.length →
    tupleVisit i k xs = xs[i - k]? := by
  intro xs
  induction xs with
  | nil => intro i k _ h; simp at h
  | cons x xs ih =>
    intro i k hk h
    cases xs with
    | nil =>
      simp only [List.length_cons, List.length_nil] at h
      have : i - k = 0 := by omega
      simp [tupleVisit, this]
    | cons y ys =>
      rw [tupleVisit]
      split
      · subst_vars; simp
      · rw [ih i (k + 1) (by omega) (by simp only [List.length_cons] at h ⊢; omega)]
        rw [show i - k = (i - (k + 1)) + 1 by omega, List.getElem?_cons_succ]

theorem sum_single : ∀ (n i : Nat) (f : Nat → Nat), i < n → (∀ j, j < n → j ≠ i → f j = 0) →
    ((List.range n).map f).sum = f i := by
  intro n
  induction n with
  | zero => intro i f h; omega
  | succ n ih =>
    intro i f h hz
    rw [List.range_succ, List.map_append, List.sum_append]
    simp only [List.map_cons, List.map_nil, List.sum_cons, List.sum_nil, Nat.add_zero]
    by_cases hin : i = n
    · subst hin
      have : ((List.range i).map f).sum = 0 := by
        have hz' : (List.range i).map f = List.replicate i 0 := by
          apply List.ext_getElem (by simp)
          intro j h1 h2
          simp only [List.length_replicate] at h2
          simp only [List.getElem_map, List.getElem_range, List.getElem_replicate]
          exact hz j (by omega) (by omega)
        rw [hz', List.sum_replicate_nat]
        omega
      omega
    · rw [ih i f (by omega) (fun j hj hne => hz j (by omega) hne), hz n (by omega) (fun e => hin e.symm)]
      omega

theorem indexByType_spec {α : Type} [DecidableEq α] {types : List α} (h : nodup types = true) {i : Nat} {t : α}
    (hi : types[i]? = some t) : indexByType types t = i := by
  have hlt := (List.getElem?_eq_some_iff.mp hi).1
  have hn := (nodup_iff_index types).mp h
  rw [indexByType, sum_single types.length i _ hlt]
  · simp only [hi, if_true, Nat.one_mul]
  · intro j hj hne
    rw [if_neg (fun he => hne (hn j i hj hlt (by rw [he, hi]))), Nat.zero_mul]

/-! ## Protobuf -/

theorem uniqueValues_eq_nodup (vs : List Nat) : uniqueValues vs = nodup vs := by
  rw [Bool.eq_iff_iff, uniqueValues_iff, nodup_iff_index]

theorem uniqueIds_eq_nodup (vs : List Val) : uniqueIds vs = nodup vs := by
  rw [Bool.eq_iff_iff, uniqueIds_iff, nodup_iff_index]

theorem pbFieldsOk_iff (env : Nat → Ty) (maps : List (Nat × Nat)) : ∀ (nums : List (Option Nat)) (fs : List Ty) (k : Nat),
    pbFieldsOk env maps k nums fs = true ↔
      nums.length = fs.length ∧ ∀ (j : Nat) (n : Option Nat) (t : Ty), nums[j]? = some n → fs[j]? = some t →
        pbFieldOk env maps n (j + k) t = true ∧ 0 < fieldNumber maps n (j + k) ∧ fieldNumber maps n (j + k) < 2 ^ 29 ∧
          mapOnce maps (j + k) = true ∧ fieldNumber maps none (j + k) < 2 ^ 29 := by
  intro nums
  induction nums with
  | nil =>
    intro fs k
    cases fs with
    | nil => simp [pbFieldsOk]
    | cons t ts => simp [pbFieldsOk]
  | cons n ns ih =>
    intro fs k
    cases fs with
    | nil => simp [pbFieldsOk]
    | cons t ts =>
      simp only [pbFieldsOk, Bool.and_eq_true, decide_eq_true_eq, ih ts (k + 1), List.length_cons]
      constructor
      · rintro ⟨⟨⟨⟨h1, h2, h3⟩, h4⟩, h5⟩, h6, h7⟩
        refine ⟨by omega, fun j n' t' hn ht => ?_⟩
        cases j with
        | zero =>
          simp only [List.getElem?_cons_zero, Option.some.injEq] at hn ht
          subst hn ht
          rw [Nat.zero_add]
          exact ⟨h1, h2, h3, h4, h5⟩
        | succ j =>
          rw [show j + 1 + k = j + (k + 1) by omega]
          exact h7 j n' t' (by simpa using hn) (by simpa using ht)
      · rintro ⟨h1, h2⟩
        have h0 := h2 0 n t (by simp) (by simp)
        rw [Nat.zero_add] at h0
        obtain ⟨a, b, c, d, e⟩ := h0
        refine ⟨⟨⟨⟨a, b, c⟩, d⟩, e⟩, by omega, fun j n' t' hn ht => ?_⟩
        rw [show j + (k + 1) = j + 1 + k by omega]
        exact h2 (j + 1) n' t' (by simpa using hn) (by simpa using ht)

theorem fieldNumbers_getElem (maps : List (Nat × Nat)) : ∀ (nums : List (Option Nat)) (k j : Nat),
    (fieldNumbers maps k nums)[j]? = nums[j]?.map fun n => fieldNumber maps n (j + k) := by
  intro nums
  induction nums with
  | nil => intro k j; simp [fieldNumbers]
  | cons n ns ih =>
    intro k j
    cases j with
    | zero => simp [fieldNumbers]
    | succ j =>
      simp only [fieldNumbers, List.getElem?_cons_succ, ih]
      rw [show j + (k + 1) = j + 1 + k by omega]

theorem numbersOk_iff (maps : List (Nat × Nat)) (nums : List (Option Nat)) :
    numbersOk maps nums = true ↔
      (∀ m ∈ maps, m.1 ≠ 0 ∧ m.2 ≠ 0) ∧ ∀ (i : Nat) (n : Option Nat), nums[i]? = some n →
        match n with
        | some x => x ≠ 0
        | none => (maps.filter fun m => (if i + 1 = m.1 then m.2 else 0) != 0).length ≤ 1 := by
  simp only [numbersOk, Bool.and_eq_true, List.all_eq_true, bne_iff_ne, List.mem_range]
  constructor
  · rintro ⟨h1, h2⟩
    refine ⟨h1, fun i n hn => ?_⟩
    have := h2 i (List.getElem?_eq_some_iff.mp hn).1
    rw [hn] at this
    cases n with
    | some x => simpa using this
    | none => simpa using this
  · rintro ⟨h1, h2⟩
    refine ⟨h1, fun i hi => ?_⟩
    have := h2 i _ (List.getElem?_eq_getElem hi)
    rw [List.getElem?_eq_getElem hi]
    generalize nums[i] = n at this
    cases n with
    | some x => simpa using this
    | none => simpa using this

theorem filter_maps (maps : List (Nat × Nat)) (i : Nat) (h : ∀ m ∈ maps, m.1 ≠ 0 ∧ m.2 ≠ 0) :
    (maps.filter fun m => (if i + 1 = m.1 then m.2 else 0) != 0) = maps.filter fun m => m.1 == i + 1 := by
  apply List.filter_congr
  intro m hm
  have := (h m hm).2
  by_cases he : i + 1 = m.1
  · simp [he, this]
  · simp only [he, if_false]
    simp only [bne_self_eq_false, Bool.false_eq, beq_eq_false_iff_ne]
    exact fun e => he e.symm

theorem fieldNumber_pos {maps : List (Nat × Nat)} (h : ∀ m ∈ maps, m.1 ≠ 0 ∧ m.2 ≠ 0) (i : Nat) :
    0 < fieldNumber maps none i := by
  simp only [fieldNumber]
  split
  · rename_i m hm
    have := (h m (List.mem_of_find?_eq_some hm)).2
    omega
  · omega

theorem structNumbers_eq {maps : List (Nat × Nat)} {nums : List (Option Nat)}
    (h : ∀ (i : Nat) (n : Option Nat), nums[i]? = some n → pbNumber maps n i = fieldNumber maps n i) :
    structNumbers maps nums = fieldNumbers maps 0 nums := by
  apply List.ext_getElem?
  intro i
  rw [fieldNumbers_getElem, structNumbers, List.getElem?_map]
  by_cases hi : i < nums.length
  · rw [List.getElem?_range hi, List.getElem?_eq_getElem hi]
    simp only [Option.map_some, Nat.add_zero, Option.some.injEq]
    rw [List.getElem?_eq_getElem hi]
    exact h i _ (List.getElem?_eq_getElem hi)
  · rw [List.getElem?_eq_none (by simpa using hi), List.getElem?_eq_none (by omega)]
    simp

theorem msg_of_checkType {env : Nat → Ty} {sz : Option SizeTy} {ok : Bool} {maps : List (Nat × Nat)} {nums : List (Option Nat)}
    {fs : List Ty} (h : checkType env (.msg sz ok maps nums fs) = true) : isMsg env (.msg sz ok maps nums fs) = true := by
  cases sz with
  | none => rfl
  | some s => simp [checkType] at h

theorem ref_of_checkType {env : Nat → Ty} {i : Nat} (h : checkType env (.ref i) = true) : isMsg env (.ref i) = true := by
  simp only [checkType] at h
  split at h
  · rename_i he
    simp [isMsg, he]
  · cases h

theorem elem_covered {env : Nat → Ty} {t : Ty} (hc : checkType env t = true) (hw : cppScalars t = true)
    (ho : oddElem t = false) : pbElemOk env t = true := by
  simp only [pbElemOk, Bool.or_eq_true]
  cases t with
  | scalar k n =>
    simp only [cppScalars, Bool.and_eq_true] at hw
    left; left
    cases k with
    | enum => simpa [packedElem, numTy] using hw.2
    | _ => exact hw.1
  | bool => exact .inl (.inl rfl)
  | varint n zz => exact .inl (.inl hw)
  | msg sz ok maps nums fs => exact .inl (.inr (msg_of_checkType hc))
  | ref i => exact .inl (.inr (ref_of_checkType hc))
  | seq k sz t => simp only [oddElem, Bool.not_eq_false'] at ho; exact .inr ho
  | array n t => simp [oddElem] at ho
  | empty => simp [oddElem] at ho
  | assoc a b c d e => simp [oddElem] at ho
  | _ => simp [checkType] at hc

theorem part_covered {env : Nat → Ty} {t : Ty} {key : Bool} (hc : memberCompiles env t = true) (hw : cppScalars t = true)
    (ho : oddPart key t = false) : (pbScalarOk t || isStr t || (!key && isMsg env t)) = true := by
  cases t with
  | scalar k n =>
    simp only [memberCompiles, checkType, Bool.true_and] at hc
    simp only [cppScalars, Bool.and_eq_true] at hw
    cases k with
    | int => simp only [tagTypeOk] at hc; simp only [pbScalarOk, hc, Bool.true_or]
    | chr =>
      simp only [tagTypeOk, Bool.or_eq_true, beq_iff_eq] at hc
      simp only [scalarOk, beq_iff_eq] at hw
      omega
    | byte => simp [oddPart] at ho
    | enum => simp only [bne_self_eq_false, Bool.false_or] at hw; simp only [pbScalarOk, hw.2, Bool.true_or]
  | bool => rfl
  | varint n zz => simp only [cppScalars] at hw; simp only [pbScalarOk, hw, Bool.true_or]
  | msg sz ok maps nums fs =>
    simp only [oddPart] at ho
    subst ho
    simp only [memberCompiles, Bool.and_eq_true] at hc
    simp only [msg_of_checkType hc.1, Bool.not_false, Bool.and_self, Bool.or_true]
  | ref i =>
    simp only [oddPart] at ho
    subst ho
    simp only [memberCompiles, Bool.and_eq_true] at hc
    simp only [ref_of_checkType hc.1, Bool.not_false, Bool.and_self, Bool.or_true]
  | seq k sz t => simp only [oddPart, Bool.not_eq_false'] at ho; simp only [ho, Bool.or_true, Bool.true_or]
  | array n t => simp [oddPart] at ho
  | empty => simp [oddPart] at ho
  | assoc a b c d e => simp [oddPart] at ho
  | _ => simp [memberCompiles, checkType] at hc

theorem member_covered {env : Nat → Ty} {maps : List (Nat × Nat)} {n : Option Nat} {i : Nat} {t : Ty}
    (hc : memberCompiles env t = true) (hw : cppScalars t = true) (ho : oddMember maps n i t = false) :
    pbFieldOk env maps n i t = true := by
  cases t with
  | scalar k m =>
    have hp : oddPart false (.scalar k m) = false := by cases k <;> first | rfl | simp [oddMember] at ho
    have := part_covered hc hw hp
    simpa [pbFieldOk, isStr] using this
  | bool => rfl
  | varint m zz =>
    have := part_covered (key := false) hc hw rfl
    simpa [pbFieldOk, isStr] using this
  | empty => rfl
  | array m t => simp [oddMember] at ho
  | msg sz ok maps' nums fs =>
    have := part_covered (key := false) hc hw rfl
    simpa [pbFieldOk, isStr, pbScalarOk] using this
  | ref j =>
    have := part_covered (key := false) hc hw rfl
    simpa [pbFieldOk, isStr, pbScalarOk] using this
  | seq k sz t =>
    cases sz with
    | some s => simp [memberCompiles, checkType] at hc
    | none =>
      simp only [memberCompiles, Bool.and_eq_true] at hc
      simp only [oddMember, Bool.or_eq_false_iff] at ho
      simp only [cppScalars] at hw
      have hk : (k == .vector || k == .list) = true ∧ checkType env t = true := by
        cases k <;> first | exact ⟨rfl, hc.1⟩ | simp [checkType] at hc
      have hnum : (isPacked t || fieldNumber maps n i == fieldNumber maps none i) = true := by
        cases hp : isPacked t with
        | true => rfl
        | false => simpa [hp] using ho.2
      simp only [pbFieldOk, hk.1, elem_covered hk.2 hw ho.1, hnum, beq_self_eq_true, Bool.and_self]
  | assoc mu h sz key m =>
    cases sz with
    | some s => cases m <;> simp [memberCompiles, checkType] at hc
    | none =>
      cases m with
      | none =>
        simp only [memberCompiles, Bool.and_eq_true] at hc
        simp only [oddMember, Bool.or_eq_false_iff] at ho
        simp only [cppScalars] at hw
        have hk : checkType env key = true := by simpa [checkType] using hc.1
        have hnum : (isPacked key || fieldNumber maps n i == fieldNumber maps none i) = true := by
          cases hp : isPacked key with
          | true => rfl
          | false => simpa [hp] using ho.2
        simp only [pbFieldOk, elem_covered hk hw ho.1, hnum, beq_self_eq_true, Bool.and_self]
      | some m =>
        simp only [memberCompiles, Bool.and_eq_true] at hc
        simp only [oddMember, Bool.or_eq_false_iff] at ho
        simp only [cppScalars, Bool.and_eq_true] at hw
        have h1 := part_covered hc.1.2 hw.1 ho.1
        have h2 := part_covered hc.2 hw.2 ho.2
        simp only [Bool.not_true, Bool.false_and, Bool.or_false, Bool.not_false, Bool.true_and] at h1 h2
        simp only [pbFieldOk, h1, h2, beq_self_eq_true, Bool.and_self]
  | _ => simp [memberCompiles, checkType] at hc

theorem checkType_str {env : Nat → Ty} {t : Ty} (h : isStr t = true) : checkType env t = true ∧ memberCompiles env t = true := by
  unfold isStr at h
  split at h
  · rename_i k sz sk n
    simp only [Bool.and_eq_true, beq_iff_eq, Bool.or_eq_true] at h
    obtain ⟨⟨⟨rfl, rfl⟩, h1⟩, rfl⟩ := h
    rcases h1 with rfl | rfl <;> exact ⟨rfl, rfl⟩
  · cases h

theorem checkType_scalar {env : Nat → Ty} {t : Ty} (h : pbScalarOk t = true) :
    checkType env t = true ∧ memberCompiles env t = true := by
  unfold pbScalarOk at h
  split at h <;> first | exact ⟨rfl, rfl⟩ | exact ⟨rfl, by simpa [memberCompiles, checkType, tagTypeOk] using h⟩ | cases h

theorem checkType_msg {env : Nat → Ty} (hmsg : ∀ t, isMsg env t = true → checkType env t = true) {t : Ty}
    (h : isMsg env t = true) : checkType env t = true ∧ memberCompiles env t = true := by
  have hc := hmsg t h
  refine ⟨hc, ?_⟩
  unfold isMsg at h
  split at h
  · simp only [memberCompiles, hc, tagTypeOk, Bool.and_self]
  · simp only [memberCompiles, hc, tagTypeOk, Bool.and_self]
  · cases h

theorem checkType_elem {env : Nat → Ty} (hmsg : ∀ t, isMsg env t = true → checkType env t = true) {t : Ty}
    (h : pbElemOk env t = true) : checkType env t = true ∧
      (match pbElemClass t with | .repeated e => tagTypeOk e | _ => true) = true := by
  simp only [pbElemOk, Bool.or_eq_true] at h
  rcases h with (h | h) | h
  · cases t with
    | scalar k n => cases k <;> exact ⟨rfl, rfl⟩
    | bool => exact ⟨rfl, rfl⟩
    | varint n zz => exact ⟨rfl, rfl⟩
    | _ => simp [packedElem, numTy] at h
  · refine ⟨hmsg t h, ?_⟩
    unfold isMsg at h
    split at h
    · rfl
    · rfl
    · cases h
  · refine ⟨(checkType_str h).1, ?_⟩
    unfold isStr at h
    split at h
    · rfl
    · cases h

theorem covered_member {env : Nat → Ty} (hmsg : ∀ t, isMsg env t = true → checkType env t = true) {maps : List (Nat × Nat)}
    {n : Option Nat} {i : Nat} {t : Ty} (h : pbFieldOk env maps n i t = true) : memberCompiles env t = true := by
  unfold pbFieldOk at h
  split at h
  · rfl
  · rename_i k sz t
    simp only [Bool.and_eq_true, beq_iff_eq, Bool.or_eq_true] at h
    obtain ⟨⟨⟨hk, rfl⟩, he⟩, -⟩ := h
    obtain ⟨h1, h2⟩ := checkType_elem hmsg he
    rcases hk with rfl | rfl <;> simp only [memberCompiles, checkType, h1, Bool.true_and] <;> exact h2
  · rename_i sz key
    simp only [Bool.and_eq_true, beq_iff_eq] at h
    obtain ⟨⟨rfl, he⟩, -⟩ := h
    obtain ⟨h1, h2⟩ := checkType_elem hmsg he
    simp only [memberCompiles, checkType, h1, Bool.true_and]
    exact h2
  · rename_i sz key m
    simp only [Bool.and_eq_true, beq_iff_eq, Bool.or_eq_true] at h
    obtain ⟨⟨rfl, hk⟩, hm⟩ := h
    have h1 : checkType env key = true ∧ memberCompiles env key = true := by
      rcases hk with hk | hk
      · exact checkType_scalar hk
      · exact checkType_str hk
    have h2 : checkType env m = true ∧ memberCompiles env m = true := by
      rcases hm with (hm | hm) | hm
      · exact checkType_scalar hm
      · exact checkType_str hm
      · exact checkType_msg hmsg hm
    simp only [memberCompiles, checkType, h1.1, h1.2, h2.1, h2.2, Bool.and_self]
  · simp only [Bool.or_eq_true] at h
    rcases h with h | h
    · exact (checkType_scalar h).2
    · exact (checkType_msg hmsg h).2

end Zpp
