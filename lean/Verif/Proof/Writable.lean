import Verif.Spec.Writable
import Verif.Proof.Relay
import Verif.Proof.ProtoHolds
/-!
# Proofs: which objects have no encoding
-/

namespace Zpp
open Spec

/-! ## Obstacles leave an object without encoding -/

theorem cat_none_left (b : Option (List UInt8)) : cat none b = none := by cases b <;> rfl

theorem cat_none_right (a : Option (List UInt8)) : cat a none = none := by cases a <;> rfl

theorem wireNums_bool_none {f : Fmt} {x : Nat} (hx : 1 < x) : ∀ {vs : List Val}, .num x ∈ vs → wireNums f .bool vs = none
  | v :: vs, h => by
    rcases List.mem_cons.mp h with rfl | h'
    · simp only [wireNums, wireNum]
      rw [if_neg (by omega), cat_none_left]
    · cases v <;> simp only [wireNums]
      rw [wireNums_bool_none hx h', cat_none_right]

theorem pbFields_none {env : Nat → Ty} {maps : List (Nat × Nat)} {u : Ty} {v : Val} (h : ∀ num, pbField env num u v = none) :
    ∀ (fs : List Ty) (vs : List Val) (nums : List (Option Nat)) (k i : Nat), fs[i]? = some u → vs[i]? = some v →
    pbFields env maps k nums fs vs = none
  | [], _, _, _, _, hu, _ => by simp at hu
  | t :: ts, [], _, _, _, _, hv => by simp at hv
  | t :: ts, w :: ws, [], _, _, _, _ => by simp [pbFields]
  | t :: ts, w :: ws, n :: ns, k, 0, hu, hv => by
    simp only [List.getElem?_cons_zero, Option.some.injEq] at hu hv
    subst hu hv
    simp only [pbFields, h, cat_none_left]
  | t :: ts, w :: ws, n :: ns, k, i + 1, hu, hv => by
    simp only [List.getElem?_cons_succ] at hu hv
    simp only [pbFields, pbFields_none h ts ws ns (k + 1) i hu hv, cat_none_right]

theorem pbRepeated_none {env : Nat → Ty} {num : Nat} {t : Ty} {v : Val} (h : pbPayload env num t v = none) :
    ∀ {vs : List Val}, v ∈ vs → pbRepeated env num t vs = none
  | w :: ws, hv => by
    simp only [pbRepeated]
    rcases List.mem_cons.mp hv with rfl | hv
    · rw [h, cat_none_left]
    · rw [pbRepeated_none h hv, cat_none_right]

/-- A nested message is written behind its length, as a member and as an element. -/
theorem msgOf_wire {env : Nat → Ty} {t : Ty} {maps : List (Nat × Nat)} {nums : List (Option Nat)} {fs : List Ty}
    (h : msgOf env t = some (maps, nums, fs)) (num : Nat) (vs : List Val) :
    pbPayload env num t (.list vs) = pbLen num (pbFields env maps 0 nums fs vs) ∧
    pbField env num t (.list vs) = pbLen num (pbFields env maps 0 nums fs vs) := by
  cases t with
  | msg sz ok maps' nums' fs' =>
    cases sz with
    | some s => simp [msgOf] at h
    | none =>
      simp only [msgOf, Option.some.injEq, Prod.mk.injEq] at h
      obtain ⟨rfl, rfl, rfl⟩ := h
      exact ⟨by simp only [pbPayload], by simp only [pbField]⟩
  | ref i =>
    simp only [msgOf] at h
    simp only [pbPayload, pbField]
    split at h
    · next e =>
      simp only [Option.some.injEq, Prod.mk.injEq] at h
      obtain ⟨rfl, rfl, rfl⟩ := h
      simp only [e, and_self]
    · cases h
  | _ => simp [msgOf] at h

theorem repeatedOf_wire {env : Nat → Ty} {t e : Ty} (h : repeatedOf t = some e) (num : Nat) (vs : List Val) :
    pbField env num t (.list vs) = if isPacked e then pbPackedField env num e vs else pbRepeated env num e vs := by
  cases t with
  | seq k sz t' =>
    simp only [repeatedOf, Option.some.injEq] at h
    subst h
    simp only [pbField]
  | assoc mu ha sz key m =>
    cases m <;> simp only [repeatedOf, Option.some.injEq] at h <;> subst h <;> simp only [pbField]
    simp [isPacked]
  | _ => simp [repeatedOf] at h

theorem pbLen_long {num : Nat} {body : List UInt8} (h : 2 ^ 56 ≤ body.length) : pbLen num (some body) = none := by
  simp only [pbLen]
  rw [if_neg (by omega)]

mutual
theorem pbObstacle_none {env : Nat → Ty} : ∀ {t : Ty} {v : Val}, PbObstacle env t v → ∀ num, pbField env num t v = none
  | _, _, .bool h, num => by
    simp only [pbField, pbScalar]
    rw [if_neg (by omega)]
  | t, _, .bools (vs := vs) ht hx h, num => by
    rw [repeatedOf_wire ht, if_pos (by rfl)]
    unfold pbPackedField
    split
    · simp at hx
    · simp only [packedElem, wireNums_bool_none h hx]
  | t, _, .packed (vs := vs) ht he hb h, num => by
    rw [repeatedOf_wire ht, if_pos he]
    unfold pbPackedField
    split
    · simp only [wireNums, Option.some.injEq] at hb
      subst hb
      simp at h
    · rw [hb]
      simp only
      rw [if_neg (by omega)]
  | t, _, .element (vs := vs) ht he hv h, num => by
    rw [repeatedOf_wire ht, if_neg (by simp [he])]
    exact pbRepeated_none (pbItem_none h num).1 hv
  | t, v, .message hr h, num => (pbItem_none h num).2 hr
theorem pbItem_none {env : Nat → Ty} : ∀ {t : Ty} {v : Val}, PbItem env t v → ∀ num,
    pbPayload env num t v = none ∧ (repeatedOf t = none → pbField env num t v = none)
  | _, _, .text hb h, num => by
    refine ⟨?_, fun hr => by simp [repeatedOf] at hr⟩
    simp only [pbPayload, hb]
    exact pbLen_long h
  | t, _, .member (vs := vs) i ht hu hv h, num => by
    obtain ⟨h1, h2⟩ := msgOf_wire ht num vs
    rw [h1, h2, pbFields_none (pbObstacle_none h) _ _ _ _ i hu hv]
    exact ⟨rfl, fun _ => rfl⟩
  | t, _, .long (vs := vs) ht hb h, num => by
    obtain ⟨h1, h2⟩ := msgOf_wire ht num vs
    rw [h1, h2, hb, pbLen_long h]
    exact ⟨rfl, fun _ => rfl⟩
end

theorem wireAll_none {f : Fmt} {t : Ty} {v : Val} (h : wire f t v = none) : ∀ {vs : List Val}, v ∈ vs → wireAll f t vs = none
  | w :: ws, hv => by
    simp only [wireAll]
    rcases List.mem_cons.mp hv with rfl | hv
    · rw [h, cat_none_left]
    · rw [wireAll_none h hv, cat_none_right]

theorem wireFields_none {f : Fmt} {u : Ty} {v : Val} (h : wire f u v = none) :
    ∀ (fs : List Ty) (vs : List Val) (i : Nat), fs[i]? = some u → vs[i]? = some v → wireFields f fs vs = none
  | [], _, _, hu, _ => by simp at hu
  | t :: ts, [], _, _, hv => by simp at hv
  | t :: ts, w :: ws, 0, hu, hv => by
    simp only [List.getElem?_cons_zero, Option.some.injEq] at hu hv
    subst hu hv
    simp only [wireFields, h, cat_none_left]
  | t :: ts, w :: ws, i + 1, hu, hv => by
    simp only [List.getElem?_cons_succ] at hu hv
    simp only [wireFields, wireFields_none h ts ws i hu hv, cat_none_right]

theorem sizePrefix_over {f : Fmt} {sz : Option SizeTy} {n : Nat} (h : overCount f sz n) : sizePrefix f (sz.getD f.dsz) n = none := by
  unfold overCount at h
  unfold sizePrefix
  cases hs : sz.getD f.dsz with
  | fixed k => simp only [hs] at h ⊢; rw [if_neg (by omega)]
  | varint => simp only [hs] at h ⊢; rw [if_neg (by omega)]
  | none => simp only [hs] at h

theorem msgPrefix_over {f : Fmt} {sz : Option SizeTy} {n : Nat} (h : overLength f sz n) : msgPrefix f (sz.getD f.dsz) n = none := by
  unfold overLength at h
  unfold msgPrefix
  cases hs : sz.getD f.dsz with
  | fixed k => simp only [hs, sizePrefix] at h ⊢; rw [if_neg (by omega)]
  | varint => simp only [hs] at h ⊢; rw [if_neg (by omega)]
  | none => simp only [hs] at h

theorem obstacle_none {f : Fmt} : ∀ {t : Ty} {v : Val}, Obstacle f t v → wire f t v = none := by
  intro t v h
  induction h with
  | bool h => simp only [wire, wireNum]; rw [if_neg (by omega)]
  | owner => simp only [wire]
  | seqCount h => simp only [wire, sizePrefix_over h, cat_none_left]
  | @assocCount _ _ _ _ m _ h => cases m <;> simp only [wire, sizePrefix_over h, cat_none_left]
  | length hb h => simp only [wire, hb, msgPrefix_over h, cat_none_left]
  | id hi h =>
    simp only [wire]
    split
    · next e _ => rw [hi] at e; cases e; rw [h, cat_none_left]
    · rfl
  | field i ht hv h => simp only [wire, pbFields_none (pbObstacle_none h) _ _ _ _ i ht hv]
  | member i ht hv _ ih => simp only [wire, wireFields_none ih _ _ i ht hv]
  | array hv _ ih =>
    simp only [wire, wireAll_none ih hv]
    split <;> rfl
  | element hv _ ih => simp only [wire, wireAll_none ih hv, cat_none_right]
  | key hv _ ih => simp only [wire, wireAll_none ih hv, cat_none_right]
  | entry hv _ ih => simp only [wire, wireAll_none ih hv, cat_none_right]
  | optional _ ih => simp only [wire, ih, cat_none_right]
  | optPtr _ ih => simp only [wire, ih, cat_none_right]
  | owned _ ih => simp only [wire, ih]
  | alternative hi _ ih =>
    simp only [wire]
    split
    · next e => rw [hi] at e; cases e; rw [ih, cat_none_right]
    · rfl
  | @ref i v _ ih =>
    cases v with
    | list vs =>
      simp only [wire]
      split
      · next e => rw [e] at ih; simpa only [wire] using ih
      · next e => rw [e] at ih; simpa only [wire] using ih
      · rfl
    | num x => simp only [wire, wireNum]
    | _ => simp only [wire]

/-! ## Valid objects without obstacles have an encoding -/

theorem cat_some {a b : Option (List UInt8)} (ha : ∃ x, a = some x) (hb : ∃ y, b = some y) : ∃ z, cat a b = some z := by
  obtain ⟨x, rfl⟩ := ha
  obtain ⟨y, rfl⟩ := hb
  exact ⟨_, rfl⟩

/-- A number of a supported type is written, unless it is a `bool` that is neither 0 nor 1. -/
theorem wireNum_or {env : Nat → Ty} {lt : Ty → Val → Val → Bool} {f : Fmt} {t : Ty} {v : Val} (hp : isPacked t = true)
    (ho : Object env lt t v) :
    ∃ x, v = .num x ∧ ((∃ bs, wireNum f (packedElem t) x = some bs) ∨ (t = .bool ∧ 1 < x)) := by
  cases t <;> simp [isPacked] at hp
  case scalar k n =>
    cases ho with
    | scalar h =>
      rename_i x
      refine ⟨x, rfl, Or.inl ?_⟩
      cases k
      case enum =>
        simp only [packedElem, wireNum]
        rw [if_pos (show x < 2 ^ (8 * n) by rw [← pow256]; exact h)]
        exact ⟨_, rfl⟩
      all_goals
        simp only [packedElem, wireNum]
        rw [if_pos h]
        exact ⟨_, rfl⟩
  case bool =>
    cases ho with
    | bool h =>
      rename_i x
      refine ⟨x, rfl, ?_⟩
      by_cases hx : x ≤ 1
      · simp only [packedElem, wireNum]
        rw [if_pos hx]
        exact Or.inl ⟨_, rfl⟩
      · exact Or.inr ⟨rfl, by omega⟩
  case varint n zz =>
    cases ho with
    | varint h =>
      rename_i x
      refine ⟨x, rfl, Or.inl ?_⟩
      simp only [packedElem, wireNum]
      rw [if_pos (show x < 2 ^ (8 * n) by rw [← pow256]; exact h)]
      exact ⟨_, rfl⟩

theorem wireNums_or {env : Nat → Ty} {lt : Ty → Val → Val → Bool} {f : Fmt} {t : Ty} (hp : isPacked t = true) :
    ∀ vs : List Val, (∀ v ∈ vs, Object env lt t v) →
    (∃ bs, wireNums f (packedElem t) vs = some bs) ∨ (t = .bool ∧ ∃ x, .num x ∈ vs ∧ 1 < x)
  | [], _ => Or.inl ⟨[], rfl⟩
  | v :: vs, ho => by
    obtain ⟨x, rfl, h | ⟨h1, h2⟩⟩ := wireNum_or (f := f) hp (ho v (by simp))
    · rcases wireNums_or (f := f) hp vs (fun w hw => ho w (by simp [hw])) with h' | ⟨h1, x', h2, h3⟩
      · exact Or.inl (by simp only [wireNums]; exact cat_some h h')
      · exact Or.inr ⟨h1, x', by simp [h2], h3⟩
    · exact Or.inr ⟨h1, x, by simp, h2⟩

theorem pbLen_or {num : Nat} (body : List UInt8) : (∃ r, pbLen num (some body) = some r) ∨ 2 ^ 56 ≤ body.length := by
  by_cases h : body.length < 2 ^ 56
  · simp only [pbLen]
    rw [if_pos h]
    exact Or.inl ⟨_, rfl⟩
  · exact Or.inr (by omega)

/-- A packed member. -/
theorem packed_or {env : Nat → Ty} {lt : Ty → Val → Val → Bool} {t e : Ty} (num : Nat) (ht : repeatedOf t = some e) (hp : isPacked e = true)
    (vs : List Val) (ho : ∀ v ∈ vs, Object env lt e v) :
    (∃ bs, pbField env num t (.list vs) = some bs) ∨ PbObstacle env t (.list vs) := by
  rw [repeatedOf_wire ht, if_pos hp]
  rcases wireNums_or (f := pbFmt env) hp vs ho with ⟨bs, h⟩ | ⟨h1, x, h2, h3⟩
  · by_cases hl : bs.length < 2 ^ 56
    · unfold pbPackedField
      split
      · exact Or.inl ⟨_, rfl⟩
      · rw [h]
        simp only
        rw [if_pos hl]
        exact Or.inl ⟨_, rfl⟩
    · exact Or.inr (.packed ht hp h (by omega))
  · subst h1
    exact Or.inr (.bools ht h2 h3)

/-- The members of a message of at most `n` values are written, or one of them is an obstacle. -/
def BodyOr (c : Cfg) (n : Nat) : Prop :=
  ∀ (maps : List (Nat × Nat)) (k : Nat) (nums : List (Option Nat)) (fs : List Ty) (vs : List Val), cellsL vs ≤ n →
    Objects c.env c.keyLt fs vs → pbFieldsOk c.env maps k nums fs = true → GoodL c fs = true →
    (∃ bs, pbFields c.env maps k nums fs vs = some bs) ∨
      ∃ (i : Nat) (u : Ty) (v : Val), fs[i]? = some u ∧ vs[i]? = some v ∧ PbObstacle c.env u v

/-- A nested message. -/
theorem msg_or {c : Cfg} {n : Nat} (ih : ∀ m < n, BodyOr c m) (num : Nat) {t : Ty} {maps : List (Nat × Nat)} {nums : List (Option Nat)}
    {fs : List Ty} {vs : List Val} (ht : msgOf c.env t = some (maps, nums, fs)) (hn : cells (.list vs) ≤ n)
    (ho : Objects c.env c.keyLt fs vs) (hf : pbFieldsOk c.env maps 0 nums fs = true) (hg : GoodL c fs = true) :
    (∃ r, pbLen num (pbFields c.env maps 0 nums fs vs) = some r) ∨ PbItem c.env t (.list vs) := by
  simp only [cells] at hn
  rcases ih (cellsL vs) (by omega) maps 0 nums fs vs (Nat.le_refl _) ho hf hg with ⟨bs, h⟩ | ⟨i, u, v, h1, h2, h3⟩
  · rw [h]
    rcases pbLen_or (num := num) bs with h' | h'
    · exact Or.inl h'
    · exact Or.inr (.long ht h h')
  · exact Or.inr (.member i ht h1 h2 h3)

/-- What is known of a class that is a message. -/
theorem isMsg_facts {c : Cfg} (hc : insideMsg c = c) (henv : ∀ i, Good c (c.env i) = true) {t : Ty} (hm : isMsg c.env t = true)
    (hg : Good c t = true) {v : Val} (ho : Object c.env c.keyLt t v) :
    ∃ maps nums fs vs, msgOf c.env t = some (maps, nums, fs) ∧ v = .list vs ∧ Objects c.env c.keyLt fs vs ∧
      pbFieldsOk c.env maps 0 nums fs = true ∧ GoodL c fs = true := by
  obtain ⟨maps, nums, fs, h1, h2, _⟩ := good_msg hc henv hm hg
  refine ⟨maps, nums, fs, ?_⟩
  cases t with
  | msg sz ok maps' nums' fs' =>
    cases sz with
    | some s => simp [msgOf] at h1
    | none =>
      simp only [msgOf, Option.some.injEq, Prod.mk.injEq] at h1
      obtain ⟨rfl, rfl, rfl⟩ := h1
      cases ho with
      | msg h => exact ⟨_, rfl, rfl, h, h2.fields, h2.types⟩
  | ref i =>
    cases ho with
    | ref h =>
      cases hi : c.env i with
      | msg sz ok maps' nums' fs' =>
        cases sz with
        | some s => simp [msgOf, hi] at h1
        | none =>
          simp only [msgOf, hi, Option.some.injEq, Prod.mk.injEq] at h1
          obtain ⟨rfl, rfl, rfl⟩ := h1
          rw [hi] at h
          cases h with
          | msg h => exact ⟨_, by simp only [msgOf, hi], rfl, h, h2.fields, h2.types⟩
      | _ => simp [msgOf, hi] at h1
  | _ => simp [msgOf] at h1

/-- An element of a repeated member. -/
theorem item_or {c : Cfg} {n : Nat} (hc : insideMsg c = c) (henv : ∀ i, Good c (c.env i) = true) (ih : ∀ m < n, BodyOr c m) (num : Nat)
    {t : Ty} {v : Val} (hn : cells v ≤ n) (ht : isMsg c.env t = true ∨ isStr t = true) (ho : Object c.env c.keyLt t v)
    (hg : Good c t = true) : (∃ r, pbPayload c.env num t v = some r) ∨ PbItem c.env t v := by
  rcases ht with hm | hs
  · obtain ⟨maps, nums, fs, vs, h1, rfl, h2, h3, h4⟩ := isMsg_facts hc henv hm hg ho
    rw [(msgOf_wire h1 num vs).1]
    exact msg_or ih num h1 hn h2 h3 h4
  · cases t <;> simp [isStr] at hs
    case seq k sz t' =>
      cases t' <;> simp at hs
      case scalar sk w =>
        obtain ⟨⟨⟨rfl, rfl⟩, hk⟩, rfl⟩ := hs
        cases ho with
        | seq h =>
          rename_i vs
          have e : packedElem (.scalar sk 1) = .scalar sk 1 := by rcases hk with rfl | rfl <;> rfl
          rcases wireNums_or (f := pbFmt c.env) (t := .scalar sk 1) rfl vs h with ⟨bs, h⟩ | ⟨h, _⟩
          · rw [e] at h
            simp only [pbPayload, h]
            rcases pbLen_or (num := num) bs with h' | h'
            · exact Or.inl h'
            · exact Or.inr (.text h h')
          · cases h

theorem repeated_or {env : Nat → Ty} {t : Ty} {num : Nat} : ∀ vs : List Val,
    (∀ v ∈ vs, (∃ r, pbPayload env num t v = some r) ∨ PbItem env t v) →
    (∃ r, pbRepeated env num t vs = some r) ∨ ∃ v ∈ vs, PbItem env t v
  | [], _ => Or.inl ⟨[], by simp [pbRepeated]⟩
  | v :: vs, h => by
    rcases h v (by simp) with h1 | h1
    · rcases repeated_or vs (fun w hw => h w (by simp [hw])) with h2 | ⟨w, hw, h2⟩
      · exact Or.inl (by simp only [pbRepeated]; exact cat_some h1 h2)
      · exact Or.inr ⟨w, by simp [hw], h2⟩
    · exact Or.inr ⟨v, by simp, h1⟩

/-- A scalar member. -/
theorem scalar_or {env : Nat → Ty} {lt : Ty → Val → Val → Bool} (num : Nat) {t : Ty} {v : Val} (ht : pbScalarOk t = true)
    (ho : Object env lt t v) : (∃ r, pbField env num t v = some r) ∨ PbObstacle env t v := by
  cases t <;> simp [pbScalarOk] at ht
  case scalar k n =>
    cases ho with
    | scalar h =>
      rename_i x
      have hx : x < 2 ^ (8 * n) := by rw [← pow256]; exact h
      cases k <;> simp at ht
      case enum => exact Or.inl ⟨pbRecord num (.varint x), by simp only [pbField, pbScalar]; rw [if_pos hx]⟩
      case int =>
        rcases ht with rfl | rfl
        · exact Or.inl ⟨pbRecord num (.fixed32 x), by simp only [pbField, pbScalar]; rw [if_pos hx]⟩
        · exact Or.inl ⟨pbRecord num (.fixed64 x), by simp only [pbField, pbScalar]; rw [if_pos hx]⟩
  case bool =>
    cases ho with
    | bool h =>
      rename_i x
      by_cases hx : x ≤ 1
      · exact Or.inl ⟨pbRecord num (.varint x), by simp only [pbField, pbScalar]; rw [if_pos hx]⟩
      · exact Or.inr (.bool (by omega))
  case varint n zz =>
    cases ho with
    | varint h =>
      rename_i x
      have hx : x < 2 ^ (8 * n) := by rw [← pow256]; exact h
      exact Or.inl ⟨pbRecord num (.varint (varintValue n zz x)), by simp only [pbField, pbScalar]; rw [if_pos hx]⟩

/-- A member of a message. -/
theorem field_or {c : Cfg} {n : Nat} (hc : insideMsg c = c) (henv : ∀ i, Good c (c.env i) = true) (ih : ∀ m < n, BodyOr c m)
    (maps : List (Nat × Nat)) (no : Option Nat) (i num : Nat) {t : Ty} {v : Val} (hn : cells v ≤ n)
    (ht : pbFieldOk c.env maps no i t = true) (ho : Object c.env c.keyLt t v) (hg : Good c t = true) :
    (∃ r, pbField c.env num t v = some r) ∨ PbObstacle c.env t v := by
  have nested : isMsg c.env t = true → repeatedOf t = none → (∃ r, pbField c.env num t v = some r) ∨ PbObstacle c.env t v := by
    intro hm hr
    obtain ⟨maps, nums, fs, vs, h1, rfl, h2, h3, h4⟩ := isMsg_facts hc henv hm hg ho
    rw [(msgOf_wire h1 num vs).2]
    rcases msg_or ih num h1 hn h2 h3 h4 with h | h
    · exact Or.inl h
    · exact Or.inr (.message hr h)
  cases t with
  | empty => cases ho; exact Or.inl ⟨[], by simp [pbField]⟩
  | scalar k w =>
    simp only [pbFieldOk, isMsg, Bool.or_false] at ht
    exact scalar_or num ht ho
  | bool => exact scalar_or num rfl ho
  | varint w zz =>
    simp only [pbFieldOk, isMsg, Bool.or_false] at ht
    exact scalar_or num ht ho
  | seq k sz t' =>
    simp only [pbFieldOk, Bool.and_eq_true] at ht
    cases ho with
    | seq h =>
      rename_i vs
      simp only [Good, Bool.and_eq_true] at hg
      simp only [cells] at hn
      rcases isPacked_numTy ht.1.2 with ⟨hp, _⟩ | ⟨hp, he⟩
      · exact packed_or num rfl hp vs h
      · rw [repeatedOf_wire rfl, if_neg (by simp [hp])]
        rcases repeated_or (env := c.env) (t := t') (num := num) vs (fun v hv => by
          have := cells_le_cellsL hv
          exact item_or hc henv ih num (by omega) he (h v hv) hg.2) with h' | ⟨v, hv, h'⟩
        · exact Or.inl h'
        · exact Or.inr (.element rfl hp hv h')
  | assoc multi hashed sz key mapped =>
    cases mapped with
    | none =>
      simp only [pbFieldOk, Bool.and_eq_true] at ht
      cases ho with
      | set h ho' =>
        rename_i vs
        simp only [Good] at hg
        simp only [cells] at hn
        rcases isPacked_numTy ht.1.2 with ⟨hp, _⟩ | ⟨hp, he⟩
        · exact packed_or num rfl hp vs h
        · rw [repeatedOf_wire rfl, if_neg (by simp [hp])]
          rcases repeated_or (env := c.env) (t := key) (num := num) vs (fun v hv => by
            have := cells_le_cellsL hv
            exact item_or hc henv ih num (by omega) he (h v hv) hg) with h' | ⟨v, hv, h'⟩
          · exact Or.inl h'
          · exact Or.inr (.element rfl hp hv h')
    | some m =>
      simp only [pbFieldOk, Bool.and_eq_true] at ht
      cases ho with
      | map h ho' =>
        rename_i vs
        simp only [Good, Bool.and_eq_true] at hg
        simp only [cells] at hn
        have hok := entry_fieldsOk ht.1.2 ht.2
        rw [repeatedOf_wire rfl, if_neg (by simp [isPacked])]
        rcases repeated_or (env := c.env) (t := .msg none false [] [none, none] [key, m]) (num := num) vs (fun v hv => by
          have hcl := cells_le_cellsL hv
          cases h v hv with
          | struct hov =>
            rename_i ws
            rw [(msgOf_wire (t := .msg none false [] [none, none] [key, m]) rfl num ws).1]
            exact msg_or ih num rfl (by omega) hov hok (by simp [GoodL, hg])) with h' | ⟨v, hv, h'⟩
        · exact Or.inl h'
        · exact Or.inr (.element rfl rfl hv h')
  | msg sz ok maps' nums fs =>
    simp only [pbFieldOk, pbScalarOk, Bool.false_or] at ht
    exact nested ht rfl
  | ref j =>
    simp only [pbFieldOk, pbScalarOk, Bool.false_or] at ht
    exact nested ht rfl
  | _ => simp [pbFieldOk, pbScalarOk, isMsg] at ht

theorem body_or {c : Cfg} (hc : insideMsg c = c) (henv : ∀ i, Good c (c.env i) = true) (n : Nat) : BodyOr c n := by
  induction n using Nat.strongRecOn with
  | _ n ih =>
    intro maps k nums fs
    induction fs generalizing k nums with
    | nil =>
      intro vs hn ho hf hg
      cases ho
      cases nums with
      | nil => exact Or.inl ⟨[], by simp [pbFields]⟩
      | cons a as => simp [pbFieldsOk] at hf
    | cons t ts iht =>
      intro vs hn ho hf hg
      cases ho with
      | cons h hs =>
        rename_i v vs
        cases nums with
        | nil => simp [pbFieldsOk] at hf
        | cons no nums =>
          simp only [pbFieldsOk, Bool.and_eq_true] at hf
          simp only [GoodL, Bool.and_eq_true] at hg
          simp only [cellsL] at hn
          rcases field_or hc henv ih maps no k (fieldNumber maps no k) (by omega) hf.1.1.1.1 h hg.1 with h1 | h1
          · rcases iht (k + 1) nums vs (by omega) hs hf.2 hg.2 with h2 | ⟨i, u, w, h2, h3, h4⟩
            · exact Or.inl (by simp only [pbFields]; exact cat_some h1 h2)
            · exact Or.inr ⟨i + 1, u, w, h2, h3, h4⟩
          · exact Or.inr ⟨0, t, v, rfl, rfl, h1⟩

theorem sizePrefix_or (f : Fmt) (sz : Option SizeTy) (n : Nat) : (∃ bs, sizePrefix f (sz.getD f.dsz) n = some bs) ∨ overCount f sz n := by
  unfold overCount sizePrefix
  cases sz.getD f.dsz with
  | fixed k =>
    by_cases h : n < 256 ^ k
    · simp only; rw [if_pos h]; exact Or.inl ⟨_, rfl⟩
    · exact Or.inr (by simp only; omega)
  | varint =>
    by_cases h : n < 2 ^ 64
    · simp only; rw [if_pos h]; exact Or.inl ⟨_, rfl⟩
    · exact Or.inr (by simp only; omega)
  | none => exact Or.inl ⟨_, rfl⟩

theorem msgPrefix_or (f : Fmt) (sz : Option SizeTy) (n : Nat) : (∃ bs, msgPrefix f (sz.getD f.dsz) n = some bs) ∨ overLength f sz n := by
  unfold overLength msgPrefix sizePrefix
  cases sz.getD f.dsz with
  | fixed k =>
    by_cases h : n < 256 ^ k
    · simp only; rw [if_pos h]; exact Or.inl ⟨_, rfl⟩
    · exact Or.inr (by simp only; omega)
  | varint =>
    by_cases h : n < 2 ^ 56
    · simp only; rw [if_pos h]; exact Or.inl ⟨_, rfl⟩
    · exact Or.inr (by simp only; omega)
  | none => exact Or.inl ⟨_, rfl⟩

theorem wireAll_or {f : Fmt} {t : Ty} : ∀ vs : List Val, (∀ v ∈ vs, (∃ bs, wire f t v = some bs) ∨ Obstacle f t v) →
    (∃ bs, wireAll f t vs = some bs) ∨ ∃ v ∈ vs, Obstacle f t v
  | [], _ => Or.inl ⟨[], by simp [wireAll]⟩
  | v :: vs, h => by
    rcases h v (by simp) with h1 | h1
    · rcases wireAll_or vs (fun w hw => h w (by simp [hw])) with h2 | ⟨w, hw, h2⟩
      · exact Or.inl (by simp only [wireAll]; exact cat_some h1 h2)
      · exact Or.inr ⟨w, by simp [hw], h2⟩
    · exact Or.inr ⟨v, by simp, h1⟩

theorem wireFields_or {env : Nat → Ty} {lt : Ty → Val → Val → Bool} {f : Fmt} : ∀ (fs : List Ty) (vs : List Val), Objects env lt fs vs →
    (∀ t ∈ fs, ∀ v ∈ vs, Object env lt t v → (∃ bs, wire f t v = some bs) ∨ Obstacle f t v) →
    (∃ bs, wireFields f fs vs = some bs) ∨ ∃ (i : Nat) (t : Ty) (v : Val), fs[i]? = some t ∧ vs[i]? = some v ∧ Obstacle f t v
  | [], _, .nil, _ => Or.inl ⟨[], by simp [wireFields]⟩
  | t :: ts, v :: vs, .cons ho hos, h => by
    rcases h t (by simp) v (by simp) ho with h1 | h1
    · rcases wireFields_or ts vs hos (fun u hu w hw => h u (by simp [hu]) w (by simp [hw])) with h2 | ⟨i, u, w, h2, h3, h4⟩
      · exact Or.inl (by simp only [wireFields]; exact cat_some h1 h2)
      · exact Or.inr ⟨i + 1, u, w, h2, h3, h4⟩
    · exact Or.inr ⟨0, t, v, rfl, rfl, h1⟩

/-- A valid object of a supported type has an encoding or contains an obstacle. -/
theorem wire_or {c : Cfg} (henv : EnvGood c) : ∀ (n : Nat) (t : Ty) (v : Val), cells v ≤ n → Object c.env c.keyLt t v → Good c t = true →
    (∃ bs, wire (fmtOf c) t v = some bs) ∨ Obstacle (fmtOf c) t v := by
  intro n
  induction n with
  | zero => intro t v hn; cases v <;> simp [cells] at hn
  | succ n ih =>
    have ihL : ∀ (t : Ty) (vs : List Val), cellsL vs ≤ n → (∀ v ∈ vs, Object c.env c.keyLt t v) → Good c t = true →
        (∃ bs, wireAll (fmtOf c) t vs = some bs) ∨ ∃ v ∈ vs, Obstacle (fmtOf c) t v := by
      intro t vs hn ho hg
      exact wireAll_or vs fun v hv => ih t v (by have := cells_le_cellsL hv; omega) (ho v hv) hg
    have ihF : ∀ (fs : List Ty) (vs : List Val), cellsL vs ≤ n → Objects c.env c.keyLt fs vs → GoodL c fs = true →
        (∃ bs, wireFields (fmtOf c) fs vs = some bs) ∨
          ∃ (i : Nat) (t : Ty) (v : Val), fs[i]? = some t ∧ vs[i]? = some v ∧ Obstacle (fmtOf c) t v := by
      intro fs vs hn ho hg
      refine wireFields_or fs vs ho fun t ht v hv hov => ih t v (by have := cells_le_cellsL hv; omega) hov ?_
      obtain ⟨m, hm⟩ := List.getElem?_of_mem ht
      exact goodL_get hg hm
    have ihM : ∀ (sz : Option SizeTy) (ok : Bool) (maps : List (Nat × Nat)) (nums : List (Option Nat)) (fs : List Ty) (vs : List Val),
        Objects c.env c.keyLt fs vs → Good c (.msg sz ok maps nums fs) = true →
        (∃ bs, wire (fmtOf c) (.msg sz ok maps nums fs) (.list vs) = some bs) ∨ Obstacle (fmtOf c) (.msg sz ok maps nums fs) (.list vs) := by
      intro sz ok maps nums fs vs ho hg
      simp only [Good, nodeOk, Bool.and_eq_true] at hg
      rcases body_or (c := insideMsg c) (insideMsg_idem c) (fun i => (henv i).2) (cellsL vs) maps 0 nums fs vs (Nat.le_refl _) ho
        hg.1.1.1.1 hg.2 with ⟨bs, h⟩ | ⟨i, u, v, h1, h2, h3⟩
      · have h' : pbFields (fmtOf c).env maps 0 nums fs vs = some bs := h
        simp only [wire, h']
        rcases msgPrefix_or (fmtOf c) sz bs.length with h1 | h1
        · exact Or.inl (cat_some h1 ⟨_, rfl⟩)
        · exact Or.inr (.length h' h1)
      · exact Or.inr (.field i h1 h2 h3)
    intro t v hn ho hg
    cases ho with
    | scalar h => simp only [wire, wireNum]; rw [if_pos h]; exact Or.inl ⟨_, rfl⟩
    | @bool x h =>
      by_cases hx : x ≤ 1
      · simp only [wire, wireNum]; rw [if_pos hx]; exact Or.inl ⟨_, rfl⟩
      · exact Or.inr (.bool (by omega))
    | varint h =>
      simp only [wire, wireNum]
      rw [if_pos (by rw [← pow256]; exact h)]
      exact Or.inl ⟨_, rfl⟩
    | empty => exact Or.inl ⟨[], by simp only [wire]⟩
    | @struct ok fs vs h =>
      simp only [cells] at hn
      simp only [Good, Bool.and_eq_true] at hg
      simp only [wire]
      rcases ihF fs vs (by omega) h hg.2 with h1 | ⟨i, t, v, h1, h2, h3⟩
      · exact Or.inl h1
      · exact Or.inr (.member i h1 h2 h3)
    | @msg sz ok maps nums fs vs h => exact ihM sz ok maps nums fs vs h hg
    | @array k t vs hl h =>
      simp only [cells] at hn
      simp only [Good, Bool.and_eq_true] at hg
      simp only [wire]
      rw [if_pos hl]
      rcases ihL t vs (by omega) h hg.2 with h1 | ⟨v, hv, h1⟩
      · exact Or.inl h1
      · exact Or.inr (.array hv h1)
    | @seq k sz t vs h =>
      simp only [cells] at hn
      simp only [Good, Bool.and_eq_true] at hg
      simp only [wire]
      rcases ihL t vs (by omega) h hg.2 with h1 | ⟨v, hv, h1⟩
      · rcases sizePrefix_or (fmtOf c) sz vs.length with h2 | h2
        · exact Or.inl (cat_some h2 h1)
        · exact Or.inr (.seqCount h2)
      · exact Or.inr (.element hv h1)
    | @set mu ha sz key vs h hor =>
      simp only [cells] at hn
      simp only [Good] at hg
      simp only [wire]
      rcases ihL key vs (by omega) h hg with h1 | ⟨v, hv, h1⟩
      · rcases sizePrefix_or (fmtOf c) sz vs.length with h2 | h2
        · exact Or.inl (cat_some h2 h1)
        · exact Or.inr (.assocCount h2)
      · exact Or.inr (.key hv h1)
    | @map mu ha sz key m vs h hor =>
      simp only [cells] at hn
      simp only [Good, Bool.and_eq_true] at hg
      simp only [wire]
      rcases wireAll_or (f := fmtOf c) (t := .struct false [key, m]) vs (fun v hv => by
        have hcl := cells_le_cellsL hv
        cases h v hv with
        | @struct _ _ ws h =>
          simp only [cells] at hcl
          simp only [wire]
          rcases ihF [key, m] ws (by omega) h (by simp [GoodL, hg]) with h1 | ⟨i, t, v, h1, h2, h3⟩
          · exact Or.inl h1
          · exact Or.inr (.member i h1 h2 h3)) with h1 | ⟨v, hv, h1⟩
      · rcases sizePrefix_or (fmtOf c) sz vs.length with h2 | h2
        · exact Or.inl (cat_some h2 h1)
        · exact Or.inr (.assocCount h2)
      · exact Or.inr (.entry hv h1)
    | nullopt => exact Or.inl ⟨[0], by simp only [wire]⟩
    | @engaged dc t v h =>
      simp only [cells] at hn
      simp only [Good] at hg
      simp only [wire]
      rcases ih t v (by omega) h hg with h1 | h1
      · exact Or.inl (cat_some ⟨_, rfl⟩ h1)
      · exact Or.inr (.optional h1)
    | nullPtr => exact Or.inl ⟨[0], by simp only [wire]⟩
    | @ptr t v h =>
      simp only [cells] at hn
      simp only [Good] at hg
      simp only [wire]
      rcases ih t v (by omega) h hg with h1 | h1
      · exact Or.inl (cat_some ⟨_, rfl⟩ h1)
      · exact Or.inr (.optPtr h1)
    | nullOwner => exact Or.inr .owner
    | @owner t v h =>
      simp only [cells] at hn
      simp only [Good] at hg
      simp only [wire]
      rcases ih t v (by omega) h hg with h1 | h1
      · exact Or.inl h1
      · exact Or.inr (.owned h1)
    | @variant idTy ids dcs alts i t v hi h =>
      simp only [cells] at hn
      simp only [Good, nodeOk, Bool.and_eq_true, beq_iff_eq] at hg
      have hil : i < ids.length := by
        obtain ⟨hl, _⟩ := List.getElem?_eq_some_iff.mp hi
        omega
      have hid : ids[i]? = some ids[i] := List.getElem?_eq_getElem hil
      simp only [wire, hid, hi]
      rcases ih t v (by omega) h (goodL_get hg.2 hi) with h1 | h1
      · cases hw : wireId (fmtOf c) idTy ids[i] with
        | none => exact Or.inr (.id hid hw)
        | some bs => exact Or.inl (cat_some ⟨_, rfl⟩ h1)
      · exact Or.inr (.alternative hi h1)
    | @bitset n bs h =>
      simp only [wire]
      rw [if_pos h]
      exact Or.inl ⟨_, rfl⟩
    | @ref i v h =>
      have hgi := (henv i).1
      simp only [Good, nodeOk] at hg
      have he : (fmtOf c).env i = c.env i := rfl
      suffices H : (∃ bs, wire (fmtOf c) (.ref i) v = some bs) ∨ Obstacle (fmtOf c) ((fmtOf c).env i) v by
        rcases H with H | H
        · exact Or.inl H
        · exact Or.inr (.ref H)
      rw [he]
      cases hi : c.env i with
      | struct ok fs =>
        rw [hi] at h hgi
        cases h with
        | @struct _ _ vs h =>
          simp only [cells] at hn
          simp only [Good, Bool.and_eq_true] at hgi
          simp only [wire, he, hi]
          rcases ihF fs vs (by omega) h hgi.2 with h1 | ⟨i, t, v, h1, h2, h3⟩
          · exact Or.inl h1
          · exact Or.inr (.member i h1 h2 h3)
      | msg sz ok maps nums fs =>
        rw [hi] at h hgi
        cases h with
        | msg h =>
          have := ihM sz ok maps nums fs _ h hgi
          simp only [wire] at this
          simp only [wire, he, hi]
          exact this
      | _ => simp [hi] at hg

end Zpp
