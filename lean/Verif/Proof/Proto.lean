import Verif.Spec.Proto
import Verif.Proof.WireLemmas
import Verif.Proof.Varint
import Verif.Proof.InRecords
/-!
# Lemmas about the reference parser of protobuf messages
-/

namespace Zpp
open Spec

theorem protoVarint_leb (v : Nat) (rest : List UInt8) (h : v < 2 ^ 64) :
    protoVarint (leb v ++ rest) = some (v, rest) := by
  have hl := leb_length_le v h
  rw [leb_eq v h] at hl ⊢
  unfold protoVarint
  rw [lebPrefix_varintBytes_append]
  simp only [hl, if_true, lebValue_varintBytes, List.drop_left, Nat.mod_eq_of_lt h]

theorem littleNumber_leBytes : ∀ (n x : Nat), x < 256 ^ n → littleNumber (leBytes n x) = x
  | 0, x, h => by
    have : x = 0 := by simpa using h
    simp [leBytes, littleNumber, this]
  | n + 1, x, h => by
    have h1 : x / 256 < 256 ^ n := by
      rw [Nat.pow_succ] at h
      exact Nat.div_lt_of_lt_mul (by omega)
    simp only [leBytes, littleNumber, littleNumber_leBytes n _ h1]
    have : (UInt8.ofNat (x % 256)).toNat = x % 256 := by simp
    first | (rw [this]; omega) | (simp; omega)

theorem protoFixed_digits (n x : Nat) (rest : List UInt8) (h : x < 256 ^ n) :
    protoFixed n (digits .little n x ++ rest) = some (x, rest) := by
  unfold protoFixed
  have hl : (digits .little n x).length = n := digits_length _ _ _
  have h1 : n ≤ (digits .little n x ++ rest).length := by simp
  have h2 : (digits .little n x ++ rest).take n = digits .little n x := by
    conv => lhs; arg 1; rw [← hl]
    simp
  have h3 : (digits .little n x ++ rest).drop n = rest := by
    conv => lhs; arg 1; rw [← hl]
    simp
  rw [if_pos h1, h2, h3, digits_little, littleNumber_leBytes n x h]

/-- The payload fits its wire type. -/
def PayOk : PbPayload → Prop
  | .varint v => v < 2 ^ 64
  | .fixed64 v => v < 2 ^ 64
  | .len bs => bs.length < 2 ^ 56
  | .fixed32 v => v < 2 ^ 32

theorem protoRecord_pbRecord {num : Nat} {p : PbPayload} (rest : List UInt8) (h0 : 0 < num) (hn : num < 2 ^ 29)
    (hp : PayOk p) : protoRecord (pbRecord num p ++ rest) = some ((num, p), rest) := by
  have key : ∀ (wt : Nat) (bs : List UInt8), wt < 8 → protoVarint (leb (num * 8 + wt) ++ bs) = some (num * 8 + wt, bs) :=
    fun wt bs hw => protoVarint_leb _ _ (by omega)
  have hd : ∀ wt, wt < 8 → (num * 8 + wt) / 8 = num ∧ (num * 8 + wt) % 8 = wt := fun wt hw => by omega
  cases p with
  | varint v =>
    simp only [pbRecord, List.append_assoc, protoRecord, key 0 _ (by omega), (hd 0 (by omega)).1, (hd 0 (by omega)).2]
    rw [if_pos ⟨h0, hn⟩]
    simp only [protoPayload, protoVarint_leb v rest hp, Option.map]
  | fixed64 v =>
    simp only [pbRecord, List.append_assoc, protoRecord, key 1 _ (by omega), (hd 1 (by omega)).1, (hd 1 (by omega)).2]
    rw [if_pos ⟨h0, hn⟩]
    simp only [protoPayload, protoFixed_digits 8 v rest (by simpa [PayOk] using hp), Option.map]
  | len bs =>
    have hl : bs.length < 2 ^ 64 := Nat.lt_of_lt_of_le hp (by decide)
    simp only [pbRecord, List.append_assoc, protoRecord, key 2 _ (by omega), (hd 2 (by omega)).1, (hd 2 (by omega)).2]
    rw [if_pos ⟨h0, hn⟩]
    simp only [protoPayload, protoVarint_leb bs.length (bs ++ rest) hl]
    rw [if_pos (by simp)]
    simp
  | fixed32 v =>
    simp only [pbRecord, List.append_assoc, protoRecord, key 5 _ (by omega), (hd 5 (by omega)).1, (hd 5 (by omega)).2]
    rw [if_pos ⟨h0, hn⟩]
    simp only [protoPayload, protoFixed_digits 4 v rest (by simpa [PayOk] using hp), Option.map]

/-- The bytes of records. -/
def recordBytes (rs : List (Nat × PbPayload)) : List UInt8 := rs.flatMap fun r => pbRecord r.1 r.2

theorem pbRecord_length_pos (num : Nat) (p : PbPayload) : 0 < (pbRecord num p).length := by
  cases p <;> simp only [pbRecord, List.length_append] <;> have := leb_length_pos (num * 8 + 0) <;>
    have := leb_length_pos (num * 8 + 1) <;> have := leb_length_pos (num * 8 + 2) <;>
    have := leb_length_pos (num * 8 + 5) <;> omega

theorem pbRecord_length_len (num : Nat) (bs : List UInt8) : bs.length < (pbRecord num (.len bs)).length := by
  have := leb_length_pos (num * 8 + 2)
  simp only [pbRecord, List.length_append]
  omega

theorem protoRecords_recordBytes : ∀ (rs : List (Nat × PbPayload)) (k : Nat),
    (∀ r ∈ rs, 0 < r.1 ∧ r.1 < 2 ^ 29 ∧ PayOk r.2) → (recordBytes rs).length ≤ k →
    protoRecords k (recordBytes rs) = some rs
  | [], k, _, _ => by cases k <;> rfl
  | r :: rs, k, h, hk => by
    obtain ⟨n, p⟩ := r
    have e : recordBytes ((n, p) :: rs) = pbRecord n p ++ recordBytes rs := rfl
    have hpos := pbRecord_length_pos n p
    obtain ⟨h0, h1, h2⟩ := h _ (List.mem_cons_self ..)
    have hlen : (pbRecord n p ++ recordBytes rs).length ≤ k := by rw [← e]; exact hk
    rw [List.length_append] at hlen
    cases k with
    | zero => omega
    | succ k =>
      have ih := protoRecords_recordBytes rs k (fun r hr => h r (List.mem_cons_of_mem _ hr)) (by omega)
      rw [e]
      have hr := protoRecord_pbRecord (recordBytes rs) h0 h1 h2
      cases hb : pbRecord n p ++ recordBytes rs with
      | nil => rw [← List.length_eq_zero_iff, List.length_append] at hb; omega
      | cons b bs =>
        rw [hb] at hr
        simp only [protoRecords, hr, ih, Option.map]

/-! ### Numbers -/

theorem intWidth_cases {n : Nat} (h : intWidth n = true) : n = 1 ∨ n = 2 ∨ n = 4 ∨ n = 8 := by
  simp only [intWidth, Bool.or_eq_true, beq_iff_eq] at h
  omega

theorem varintValue_facts {n : Nat} {zz : Bool} {x : Nat} (hn : intWidth n = true) (hx : x < 2 ^ (8 * n)) :
    varintValue n zz x < 2 ^ 64 ∧ protoNumber (.varint n zz) (varintValue n zz x) = x := by
  cases zz with
  | false =>
    simp only [varintValue, protoNumber, Bool.false_eq_true, if_false, Nat.mod_eq_of_lt hx]
    refine ⟨Nat.lt_of_lt_of_le hx ?_, trivial⟩
    rcases intWidth_cases hn with rfl | rfl | rfl | rfl <;> decide
  | true =>
    simp only [varintValue, protoNumber, if_true, zigzag, toSigned]
    rcases intWidth_cases hn with rfl | rfl | rfl | rfl <;> simp only [Nat.reduceMul, Nat.reduceSub, Nat.reducePow] at hx ⊢ <;>
      (split <;> split <;> refine ⟨by omega, ?_⟩ <;> split <;> omega)

/-! ### Packed elements -/

theorem protoElem_wireNum {env : Nat → Ty} {t : Ty} {x : Nat} {b : List UInt8} (rest : List UInt8)
    (ht : numTy (packedElem t) = true) (h : wireNum (pbFmt env) (packedElem t) x = some b) :
    0 < b.length ∧ protoElem t (b ++ rest) = some (x, rest) := by
  have leb' : ∀ v, v < 2 ^ 64 → protoVarint (leb v ++ rest) = some (v, rest) := fun v hv => protoVarint_leb v rest hv
  cases t with
  | scalar k n =>
    cases k with
    | enum =>
      simp only [packedElem, numTy] at ht
      simp only [packedElem, wireNum] at h
      split at h
      case isTrue hx =>
        cases h
        obtain ⟨h1, h2⟩ := varintValue_facts (zz := false) ht hx
        simp only [protoNumber] at h2
        refine ⟨leb_length_pos _, ?_⟩
        simp only [protoElem, leb' _ h1, Option.map, protoNumber, h2]
      case isFalse => cases h
    | int =>
      simp only [packedElem, numTy, scalarOk, decide_eq_true_eq] at ht
      simp only [packedElem, wireNum, pbFmt] at h
      split at h
      case isTrue hx => cases h; exact ⟨by simpa using ht, protoFixed_digits n x rest hx⟩
      case isFalse => cases h
    | byte =>
      simp only [packedElem, numTy, scalarOk, beq_iff_eq] at ht
      simp only [packedElem, wireNum, pbFmt] at h
      split at h
      case isTrue hx => cases h; exact ⟨by simp [ht], protoFixed_digits n x rest hx⟩
      case isFalse => cases h
    | chr =>
      simp only [packedElem, numTy, scalarOk, beq_iff_eq] at ht
      simp only [packedElem, wireNum, pbFmt] at h
      split at h
      case isTrue hx => cases h; exact ⟨by simp [ht], protoFixed_digits n x rest hx⟩
      case isFalse => cases h
  | bool =>
    simp only [packedElem, wireNum] at h
    split at h
    case isTrue hx =>
      cases h
      have e : leb x = [UInt8.ofNat x] := by simp only [leb, lebGroups]; rw [if_pos (by omega)]
      rw [← e]
      refine ⟨leb_length_pos _, ?_⟩
      simp only [protoElem, leb' x (by omega), Option.map, protoNumber]
      have hx' : x = 0 ∨ x = 1 := by omega
      rcases hx' with rfl | rfl <;> rfl
    case isFalse => cases h
  | varint n zz =>
    simp only [packedElem, numTy] at ht
    simp only [packedElem, wireNum] at h
    split at h
    case isTrue hx =>
      cases h
      obtain ⟨h1, h2⟩ := varintValue_facts (zz := zz) ht hx
      refine ⟨leb_length_pos _, ?_⟩
      simp only [protoElem, leb' _ h1, Option.map, h2]
    case isFalse => cases h
  | _ => simp [packedElem, wireNum] at h

theorem protoPacked_wireNums {env : Nat → Ty} {t : Ty} (ht : numTy (packedElem t) = true) :
    ∀ (vs : List Val) (bs : List UInt8) (k : Nat), wireNums (pbFmt env) (packedElem t) vs = some bs → bs.length ≤ k →
    protoPacked t k bs = some vs
  | [], bs, k, h, _ => by
    simp only [wireNums, Option.some.injEq] at h
    subst h
    cases k <;> rfl
  | v :: vs, bs, k, h, hk => by
    cases v with
    | num x =>
      simp only [wireNums, cat_eq_some] at h
      obtain ⟨a, b, ha, hb, rfl⟩ := h
      obtain ⟨hpos, he⟩ := protoElem_wireNum b ht ha
      rw [List.length_append] at hk
      cases k with
      | zero => omega
      | succ k =>
        have ih := protoPacked_wireNums ht vs b k hb (by omega)
        cases hab : a ++ b with
        | nil => rw [← List.length_eq_zero_iff, List.length_append] at hab; omega
        | cons y ys =>
          rw [hab] at he
          simp only [protoPacked, he, ih, Option.map]
    | _ => simp [wireNums] at h

/-! ### Members -/

/-- Facts about a message class. -/
structure MsgGood (c : Cfg) (maps : List (Nat × Nat)) (nums : List (Option Nat)) (fs : List Ty) : Prop where
  fields : pbFieldsOk c.env maps 0 nums fs = true
  distinct : nodup (fieldNumbers maps 0 nums) = true
  types : GoodL c fs = true

/-- The parser for nested messages parses those of fewer than `L` bytes. -/
def SubOk (c : Cfg) (new : Ty → Val) (L : Nat) (sub : SubParser) : Prop :=
  ∀ maps nums fs vs body, MsgGood c maps nums fs → pbFields c.env maps 0 nums fs vs = some body → body.length < L →
    sub (protoFields maps nums fs) (fs.map new) body = some vs

/-- The records of one field one after another. -/
def protoFieldAll (new : Ty → Val) (sub : SubParser) (env : Nat → Ty) (t : Ty) : Val → List (Nat × PbPayload) → Option Val
  | v, [] => some v
  | v, r :: rs =>
    match protoField new sub env t v r.2 with
    | some v' => protoFieldAll new sub env t v' rs
    | none => none

theorem pbLen_some {num : Nat} {p : Option (List UInt8)} {b : List UInt8} (h : pbLen num p = some b) :
    ∃ body, p = some body ∧ body.length < 2 ^ 56 ∧ b = pbRecord num (.len body) := by
  cases p with
  | none => simp [pbLen] at h
  | some body =>
    simp only [pbLen] at h
    split at h
    case isTrue hl => cases h; exact ⟨body, rfl, hl, rfl⟩
    case isFalse => cases h

theorem insideMsg_idem (c : Cfg) : insideMsg (insideMsg c) = insideMsg c := rfl

theorem good_msg {c : Cfg} (hc : insideMsg c = c) (henv : ∀ i, Good c (c.env i) = true) {t : Ty}
    (hm : isMsg c.env t = true) (hg : Good c t = true) :
    ∃ maps nums fs, msgOf c.env t = some (maps, nums, fs) ∧ MsgGood c maps nums fs ∧
      (∀ num v b, pbPayload c.env num t v = some b → ∃ vs, v = .list vs ∧ pbLen num (pbFields c.env maps 0 nums fs vs) = some b) ∧
      ∀ num v b, pbField c.env num t v = some b → ∃ vs, v = .list vs ∧ pbLen num (pbFields c.env maps 0 nums fs vs) = some b := by
  have facts : ∀ sz ok maps nums fs, Good c (.msg sz ok maps nums fs) = true → MsgGood c maps nums fs := by
    intro sz ok maps nums fs h
    rw [Good, hc] at h
    simp only [nodeOk, Bool.and_eq_true] at h
    exact ⟨h.1.1.1.1, h.1.1.1.2, h.2⟩
  cases t with
  | msg sz ok maps nums fs =>
    simp only [isMsg, beq_iff_eq] at hm
    subst hm
    refine ⟨maps, nums, fs, rfl, facts _ _ _ _ _ hg, ?_, ?_⟩
    · intro num v b h
      cases v <;> simp only [pbPayload, reduceCtorEq] at h
      exact ⟨_, rfl, h⟩
    · intro num v b h
      cases v <;> simp only [pbField, pbScalar, reduceCtorEq] at h
      exact ⟨_, rfl, h⟩
  | ref i =>
    have he := henv i
    cases hi : c.env i with
    | msg sz ok maps nums fs =>
      simp only [isMsg, hi, beq_iff_eq] at hm
      subst hm
      rw [hi] at he
      refine ⟨maps, nums, fs, by simp only [msgOf, hi], facts _ _ _ _ _ he, ?_, ?_⟩
      · intro num v b h
        cases v <;> simp only [pbPayload, hi, reduceCtorEq] at h
        exact ⟨_, rfl, h⟩
      · intro num v b h
        cases v <;> simp only [pbField, pbScalar, hi, reduceCtorEq] at h
        exact ⟨_, rfl, h⟩
    | _ => simp [isMsg, hi] at hm
  | _ => simp [isMsg] at hm

/-! ### Default objects -/

theorem initial_unique {c : Cfg} {t : Ty} {o o' : Val} (h : Initial c.env t o) (h' : Initial c.env t o') : o = o' := by
  obtain ⟨d, hd⟩ : ∃ d, d = 2 * depth o + 2 * depth o' := ⟨_, rfl⟩
  have e := initial_dflt h d (by split <;> omega)
  have e' := initial_dflt h' d (by split <;> omega)
  rw [← e, ← e']

theorem newL {env : Nat → Ty} {new : Ty → Val} (hnew : NewObjects env new) : ∀ {fs : List Ty} {os : List Val},
    InitialL env fs os → fs.map new = os
  | [], _, .nil => rfl
  | t :: ts, _, .cons h hs => by rw [List.map_cons, hnew t _ h, newL hnew hs]

theorem new_msg {env : Nat → Ty} {new : Ty → Val} (hnew : NewObjects env new) {t : Ty} {maps : List (Nat × Nat)}
    {nums : List (Option Nat)} {fs : List Ty} (h : msgOf env t = some (maps, nums, fs)) {os : List Val}
    (hi : InitialL env fs os) : Initial env t (.list os) ∧ (new t).elems = fs.map new := by
  have ht : Initial env t (.list os) := by
    cases t with
    | msg sz ok maps' nums' fs' =>
      cases sz with
      | none =>
        simp only [msgOf, Option.some.injEq, Prod.mk.injEq] at h
        obtain ⟨rfl, rfl, rfl⟩ := h
        exact .msg hi
      | some sz => simp [msgOf] at h
    | ref i =>
      cases he : env i with
      | msg sz ok maps' nums' fs' =>
        cases sz with
        | none =>
          simp only [msgOf, he, Option.some.injEq, Prod.mk.injEq] at h
          obtain ⟨rfl, rfl, rfl⟩ := h
          refine .ref (fun j => by rw [he]; nofun) ?_
          rw [he]
          exact .msg hi
        | some sz => simp [msgOf, he] at h
      | _ => simp [msgOf, he] at h
    | _ => simp [msgOf] at h
  refine ⟨ht, ?_⟩
  rw [hnew t _ ht, newL hnew hi]
  rfl

/-- The types of members with a value that can be encoded have default objects. -/
theorem initial_exists {c : Cfg} (hc : insideMsg c = c) (henv : ∀ i, Good c (c.env i) = true) : ∀ (d : Nat) (fs : List Ty)
    (maps : List (Nat × Nat)) (i : Nat) (nums : List (Option Nat)) (vs : List Val) (body : List UInt8),
    pbFieldsOk c.env maps i nums fs = true → GoodL c fs = true → pbFields c.env maps i nums fs vs = some body →
    body.length < d → ∃ os, InitialL c.env fs os
  | 0, _, _, _, _, _, _, _, _, _, h => absurd h (Nat.not_lt_zero _)
  | d + 1, [], _, _, _, _, _, _, _, _, _ => ⟨[], .nil⟩
  | d + 1, t :: ts, maps, i, nums, vs, body, hok, hg, h, hL => by
    cases nums with
    | nil => simp [pbFieldsOk] at hok
    | cons n ns =>
      cases vs with
      | nil => simp [pbFields] at h
      | cons v vs =>
        simp only [pbFields, cat_eq_some] at h
        obtain ⟨a, b, ha, hb, rfl⟩ := h
        rw [List.length_append] at hL
        simp only [pbFieldsOk, Bool.and_eq_true, decide_eq_true_eq] at hok
        simp only [GoodL, Bool.and_eq_true] at hg
        obtain ⟨os, hos⟩ := initial_exists hc henv (d + 1) ts maps (i + 1) ns vs b hok.2 hg.2 hb (by omega)
        have message : isMsg c.env t = true → ∃ o, Initial c.env t o := by
          intro hm
          obtain ⟨maps', nums', fs', h1, h2, _, h3⟩ := good_msg hc henv hm hg.1
          obtain ⟨us, _, h4⟩ := h3 _ _ _ ha
          obtain ⟨body', h5, _, rfl⟩ := pbLen_some h4
          obtain ⟨os', hos'⟩ := initial_exists hc henv d fs' maps' 0 nums' us body' h2.fields h2.types h5
            (by have := pbRecord_length_len (fieldNumber maps n i) body'; omega)
          exact ⟨_, (new_msg (new := fun t => Classical.epsilon fun o => Initial c.env t o) (fun t o ho => initial_unique
            (Classical.epsilon_spec (p := fun o => Initial c.env t o) ⟨o, ho⟩) ho) h1 hos').1⟩
        have hf := hok.1.1.1.1
        have : ∃ o, Initial c.env t o := by
          cases t with
          | scalar k n => exact ⟨_, .scalar k n⟩
          | bool => exact ⟨_, .bool⟩
          | varint n zz => exact ⟨_, .varint n zz⟩
          | empty => exact ⟨_, .empty⟩
          | seq k sz e => exact ⟨_, .seq k sz e⟩
          | assoc multi hashed sz key m => exact ⟨_, .assoc multi hashed sz key m⟩
          | msg sz ok maps' nums' fs' =>
            simp only [pbFieldOk, pbScalarOk, Bool.false_or] at hf
            exact message hf
          | ref j =>
            simp only [pbFieldOk, pbScalarOk, Bool.false_or] at hf
            exact message hf
          | _ => simp [pbFieldOk, pbScalarOk, isMsg] at hf
        obtain ⟨o, ho⟩ := this
        exact ⟨_, .cons ho hos⟩

/-- The default object of a message class with a value that can be encoded. -/
theorem new_of_value {c : Cfg} (hc : insideMsg c = c) (henv : ∀ i, Good c (c.env i) = true) {new : Ty → Val}
    (hnew : NewObjects c.env new) {t : Ty} {maps : List (Nat × Nat)} {nums : List (Option Nat)} {fs : List Ty}
    (h : msgOf c.env t = some (maps, nums, fs)) (hg : MsgGood c maps nums fs) {vs : List Val} {body : List UInt8}
    (hv : pbFields c.env maps 0 nums fs vs = some body) : (new t).elems = fs.map new := by
  obtain ⟨os, hos⟩ := initial_exists hc henv (body.length + 1) fs maps 0 nums vs body hg.fields hg.types hv (by omega)
  exact (new_msg hnew h hos).2

/-- Elements of repeated fields that are not packed. -/
theorem element_parses {c : Cfg} (hc : insideMsg c = c) (henv : ∀ i, Good c (c.env i) = true) {new : Ty → Val} (hnew : NewObjects c.env new) {L : Nat} {sub : SubParser}
    (hsub : SubOk c new L sub) {e : Ty} (hp : isPacked e = false) (he : pbElemOk c.env e = true) (hg : Good c e = true)
    {num : Nat} {v : Val} {b : List UInt8} (h : pbPayload c.env num e v = some b) (hL : b.length ≤ L) :
    ∃ p, PayOk p ∧ b = pbRecord num p ∧ protoAppend new sub c.env e p = some (some [v]) := by
  by_cases hm : isMsg c.env e = true
  · obtain ⟨maps, nums, fs, h1, h2, h3, _⟩ := good_msg hc henv hm hg
    obtain ⟨vs, rfl, h4⟩ := h3 _ _ _ h
    obtain ⟨body, h5, h6, rfl⟩ := pbLen_some h4
    refine ⟨.len body, h6, rfl, ?_⟩
    have hs := hsub maps nums fs vs body h2 h5 (Nat.lt_of_lt_of_le (pbRecord_length_len num body) hL)
    have hn := new_of_value hc henv hnew h1 h2 h5
    cases e with
    | msg sz ok maps' nums' fs' =>
      simp only [protoAppend, hp, Bool.false_eq_true, if_false, protoMessage, h1, hn, hs, Option.map]
    | ref i => simp only [protoAppend, hp, Bool.false_eq_true, if_false, protoMessage, h1, hn, hs, Option.map]
    | _ => simp [isMsg] at hm
  · have hn : numTy (packedElem e) = false := by
      cases e with
      | scalar k n => simp [isPacked] at hp
      | bool => simp [isPacked] at hp
      | varint n zz => simp [isPacked] at hp
      | _ => rfl
    simp only [Bool.not_eq_true] at hm
    simp only [pbElemOk, hn, hm, Bool.false_or] at he
    cases e with
    | seq k sz ch =>
      cases ch with
      | scalar sk n =>
        simp only [isStr, Bool.and_eq_true, Bool.or_eq_true, beq_iff_eq] at he
        obtain ⟨⟨⟨rfl, rfl⟩, hk⟩, rfl⟩ := he
        cases v <;> simp only [pbPayload, reduceCtorEq] at h
        obtain ⟨body, h5, h6, rfl⟩ := pbLen_some h
        refine ⟨.len body, h6, rfl, ?_⟩
        have hpk : packedElem (.scalar sk 1) = .scalar sk 1 := by rcases hk with rfl | rfl <;> rfl
        have hnum : numTy (packedElem (.scalar sk 1)) = true := by rcases hk with rfl | rfl <;> rfl
        have hw := protoPacked_wireNums (env := c.env) hnum _ body body.length (by rw [hpk]; exact h5) (Nat.le_refl _)
        simp only [protoAppend, isPacked, Bool.false_eq_true, if_false, hw, Option.map]
      | _ => simp [isStr] at he
    | _ => simp [isStr] at he

/-- Records of a container with elements that are not packed, appended one by one. -/
theorem container_parses {c : Cfg} (hc : insideMsg c = c) (henv : ∀ i, Good c (c.env i) = true) {new : Ty → Val} (hnew : NewObjects c.env new) {L : Nat} {sub : SubParser}
    (hsub : SubOk c new L sub) {t e : Ty} (hp : isPacked e = false) (he : pbElemOk c.env e = true) (hg : Good c e = true)
    (ht : ∀ old p, protoField new sub c.env t old p = protoContainer new sub c.env e old p) {num : Nat} :
    ∀ (vs : List Val) (old : Val) (b : List UInt8), pbRepeated c.env num e vs = some b → b.length ≤ L →
    ∃ rs, b = recordBytes rs ∧ (∀ r ∈ rs, r.1 = num ∧ PayOk r.2) ∧
      protoFieldAll new sub c.env t old rs = some (if vs.isEmpty then old else .list (old.elems ++ vs))
  | [], old, b, h, _ => by
    simp only [pbRepeated, Option.some.injEq] at h
    subst h
    exact ⟨[], rfl, nofun, by simp [protoFieldAll]⟩
  | v :: vs, old, b, h, hL => by
    simp only [pbRepeated, cat_eq_some] at h
    obtain ⟨x, y, hx, hy, rfl⟩ := h
    rw [List.length_append] at hL
    obtain ⟨p, h1, rfl, h2⟩ := element_parses hc henv hnew hsub hp he hg hx (by omega)
    obtain ⟨rs, rfl, h4, h5⟩ := container_parses hc henv hnew hsub hp he hg ht vs (.list (old.elems ++ [v])) y hy (by omega)
    have htext : isText e = false := by
      cases e with
      | scalar k n => simp [isPacked] at hp
      | _ => rfl
    refine ⟨(num, p) :: rs, rfl, ?_, ?_⟩
    · intro r hr
      cases hr with
      | head => exact ⟨rfl, h1⟩
      | tail _ hr => exact h4 r hr
    · simp only [protoFieldAll, ht, protoContainer, h2, htext, Bool.false_eq_true, if_false, h5]
      cases vs <;> simp [Val.elems]

/-- A packed field. -/
theorem packed_parses {c : Cfg} {new : Ty → Val} {sub : SubParser} {t e : Ty} (hp : isPacked e = true) (he : pbElemOk c.env e = true)
    (ht : ∀ old p, protoField new sub c.env t old p = protoContainer new sub c.env e old p) {num : Nat} {vs : List Val}
    {b : List UInt8} (h : pbPackedField c.env num e vs = some b) (old : Val) :
    ∃ rs, b = recordBytes rs ∧ (∀ r ∈ rs, r.1 = num ∧ PayOk r.2) ∧
      protoFieldAll new sub c.env t old rs =
        some (if vs.isEmpty then old else if isText e then .list vs else .list (old.elems ++ vs)) := by
  have hn : numTy (packedElem e) = true := by
    cases e <;> simp [isPacked] at hp <;> simpa [pbElemOk, isMsg, isStr] using he
  unfold pbPackedField at h
  split at h
  · cases h; exact ⟨[], rfl, nofun, rfl⟩
  · rename_i hne
    have hemp : vs.isEmpty = false := by cases vs <;> simp_all
    split at h
    case h_1 bs hw =>
      split at h
      case isTrue hl =>
        cases h
        refine ⟨[(num, .len bs)], by simp [recordBytes], ?_, ?_⟩
        · intro r hr
          cases hr with
          | head => exact ⟨rfl, hl⟩
          | tail _ hr => cases hr
        · have hpk := protoPacked_wireNums (env := c.env) hn _ bs bs.length hw (Nat.le_refl _)
          simp only [protoFieldAll, ht, protoContainer, protoAppend, hp, if_true, hpk, Option.map, hemp, Bool.false_eq_true, if_false]
      case isFalse => cases h
    case h_2 => cases h

theorem scalar_parses {t : Ty} (hs : pbScalarOk t = true) {num x : Nat} {b : List UInt8}
    (h : pbScalar num t x = some b) :
    ∃ p, PayOk p ∧ b = pbRecord num p ∧ protoScalar t p = some (.num x) ∧ ∀ bs, p ≠ .len bs := by
  unfold pbScalar at h
  split at h
  case h_1 _ n =>
    simp only [pbScalarOk] at hs
    split at h
    case isTrue hx =>
      cases h
      obtain ⟨h1, h2⟩ := varintValue_facts (zz := false) hs hx
      exact ⟨.varint x, h1, rfl, by
        simp only [protoScalar, protoNumber, Nat.mod_eq_of_lt hx], nofun⟩
    case isFalse => cases h
  case h_2 _ n zz =>
    simp only [pbScalarOk] at hs
    split at h
    case isTrue hx =>
      cases h
      obtain ⟨h1, h2⟩ := varintValue_facts (zz := zz) hs hx
      exact ⟨.varint (varintValue n zz x), h1, rfl, by simp only [protoScalar, h2], nofun⟩
    case isFalse => cases h
  case h_3 =>
    split at h
    case isTrue hx =>
      cases h
      refine ⟨.varint x, by simp only [PayOk]; omega, rfl, ?_, nofun⟩
      have hx' : x = 0 ∨ x = 1 := by omega
      rcases hx' with rfl | rfl <;> rfl
    case isFalse => cases h
  case h_4 =>
    split at h
    case isTrue hx => cases h; exact ⟨.fixed32 _, hx, rfl, rfl, nofun⟩
    case isFalse => cases h
  case h_5 =>
    split at h
    case isTrue hx => cases h; exact ⟨.fixed64 _, hx, rfl, rfl, nofun⟩
    case isFalse => cases h
  case h_6 => cases h

theorem protoField_scalar {new : Ty → Val} {sub : SubParser} {env : Nat → Ty} {t : Ty} (hs : pbScalarOk t = true) {old : Val}
    {p : PbPayload} : protoField new sub env t old p = some ((protoScalar t p).getD old) := by
  cases t <;> simp [pbScalarOk] at hs <;> simp [protoField]

theorem entry_ok {env : Nat → Ty} {t : Ty} {j : Nat} (h : (pbScalarOk t || isStr t || isMsg env t) = true) :
    pbFieldOk env [] none j t = true := by
  cases t with
  | seq k sz e =>
    cases e with
    | scalar sk n =>
      simp only [pbScalarOk, isMsg, isStr, Bool.false_or, Bool.or_false, Bool.and_eq_true, Bool.or_eq_true, beq_iff_eq] at h
      obtain ⟨⟨⟨rfl, rfl⟩, hk⟩, rfl⟩ := h
      rcases hk with rfl | rfl <;> rfl
    | _ => simp [pbScalarOk, isMsg, isStr] at h
  | empty => rfl
  | assoc multi hashed sz key m => simp [pbScalarOk, isMsg, isStr] at h
  | _ => simpa [pbFieldOk, isStr] using h

theorem from_empty (vs : List Val) (b : Bool) :
    (if vs.isEmpty then Val.list [] else if b then .list vs else .list ((Val.list []).elems ++ vs)) = .list vs ∧
    (if vs.isEmpty then Val.list [] else .list ((Val.list []).elems ++ vs)) = .list vs := by
  cases vs <;> cases b <;> simp [Val.elems]

theorem field_parses {c : Cfg} (hc : insideMsg c = c) (henv : ∀ i, Good c (c.env i) = true) {new : Ty → Val} (hnew : NewObjects c.env new) {L : Nat} {sub : SubParser}
    (hsub : SubOk c new L sub) {maps : List (Nat × Nat)} {n : Option Nat} {i : Nat} {t : Ty}
    (hf : pbFieldOk c.env maps n i t = true) (hg : Good c t = true) {num : Nat} {v : Val} {b : List UInt8}
    (h : pbField c.env num t v = some b) (hL : b.length ≤ L) :
    ∃ rs, b = recordBytes rs ∧ (∀ r ∈ rs, r.1 = num ∧ PayOk r.2) ∧
      protoFieldAll new sub c.env t (new t) rs = some v := by
  have scalar : pbScalarOk t = true → ∀ x, v = .num x → pbScalar num t x = some b →
      ∃ rs, b = recordBytes rs ∧ (∀ r ∈ rs, r.1 = num ∧ PayOk r.2) ∧
        protoFieldAll new sub c.env t (new t) rs = some v := by
    intro hs x hv hb
    subst hv
    obtain ⟨p, h1, rfl, h2, h3⟩ := scalar_parses hs hb
    refine ⟨[(num, p)], by simp [recordBytes], ?_, by
      simp only [protoFieldAll, protoField_scalar hs, h2, Option.getD]⟩
    intro r hr
    cases hr with
    | head => exact ⟨rfl, h1⟩
    | tail _ hr => cases hr
  have message : isMsg c.env t = true →
      (∀ body, protoField new sub c.env t (new t) (.len body) = protoMessage sub c.env t (new t) body) → ∃ rs, b = recordBytes rs ∧ (∀ r ∈ rs, r.1 = num ∧ PayOk r.2) ∧
        protoFieldAll new sub c.env t (new t) rs = some v := by
    intro hm hpf
    obtain ⟨maps, nums, fs, h1, h2, _, h3⟩ := good_msg hc henv hm hg
    obtain ⟨vs, rfl, h4⟩ := h3 _ _ _ h
    obtain ⟨body, h5, h6, rfl⟩ := pbLen_some h4
    have hs := hsub maps nums fs vs body h2 h5 (Nat.lt_of_lt_of_le (pbRecord_length_len num body) hL)
    refine ⟨[(num, .len body)], by simp [recordBytes], ?_, ?_⟩
    · intro r hr
      cases hr with
      | head => exact ⟨rfl, h6⟩
      | tail _ hr => cases hr
    · simp only [protoFieldAll, hpf, protoMessage, h1, new_of_value hc henv hnew h1 h2 h5, hs, Option.map]
  cases t with
  | empty =>
    cases v <;> simp only [pbField, pbScalar, reduceCtorEq, Option.some.injEq] at h
    subst h
    exact ⟨[], rfl, nofun, by rw [hnew _ _ .empty]; rfl⟩
  | seq k sz e =>
    simp only [pbFieldOk, Bool.and_eq_true] at hf
    cases v <;> simp only [pbField, pbScalar, reduceCtorEq] at h
    rename_i vs
    simp only [Good, Bool.and_eq_true] at hg
    split at h
    case isTrue hp =>
      obtain ⟨rs, h1, h2, h3⟩ := packed_parses (new := new) (sub := sub) (t := .seq k sz e) hp hf.1.2 (fun _ _ => by simp only [protoField]) h (.list [])
      exact ⟨rs, h1, h2, by rw [hnew _ _ (.seq k sz e), h3, (from_empty vs _).1]⟩
    case isFalse hp =>
      obtain ⟨rs, h1, h2, h3⟩ := container_parses (t := .seq k sz e) hc henv hnew hsub (by simpa using hp) hf.1.2 hg.2
        (fun _ _ => by simp only [protoField]) vs (.list []) b h hL
      exact ⟨rs, h1, h2, by rw [hnew _ _ (.seq k sz e), h3, (from_empty vs false).2]⟩
  | assoc multi hashed sz key mapped =>
    cases mapped with
    | none =>
      simp only [pbFieldOk, Bool.and_eq_true] at hf
      cases v <;> simp only [pbField, pbScalar, reduceCtorEq] at h
      rename_i vs
      simp only [Good] at hg
      split at h
      case isTrue hp =>
        obtain ⟨rs, h1, h2, h3⟩ := packed_parses (new := new) (sub := sub) (t := .assoc multi hashed sz key none) hp hf.1.2 (fun _ _ => by simp only [protoField]) h (.list [])
        exact ⟨rs, h1, h2, by rw [hnew _ _ (.assoc multi hashed sz key none), h3, (from_empty vs _).1]⟩
      case isFalse hp =>
        obtain ⟨rs, h1, h2, h3⟩ := container_parses (t := .assoc multi hashed sz key none) hc henv hnew hsub (by simpa using hp) hf.1.2 hg
          (fun _ _ => by simp only [protoField]) vs (.list []) b h hL
        exact ⟨rs, h1, h2, by rw [hnew _ _ (.assoc multi hashed sz key none), h3, (from_empty vs false).2]⟩
    | some m =>
      simp only [pbFieldOk, Bool.and_eq_true] at hf
      cases v <;> simp only [pbField, pbScalar, reduceCtorEq] at h
      rename_i vs
      simp only [Good, Bool.and_eq_true] at hg
      have hk : ∀ j, pbFieldOk c.env [] none j key = true := fun j => entry_ok (by
        rcases Bool.or_eq_true _ _ ▸ hf.1.2 with e | e <;> simp [e])
      have hm : ∀ j, pbFieldOk c.env [] none j m = true := fun j => entry_ok hf.2
      have hdsz : c.dsz = .varint := by rw [← hc]; rfl
      have haw : c.aware = (c.host == .big) := by
        have := congrArg Cfg.aware hc
        exact this.symm
      have hgood : Good c (.msg none false [] [none, none] [key, m]) = true := by
        rw [Good, hc]
        simp only [nodeOk, GoodL, hg.1, hg.2, pbFieldsOk, hk, hm, Bool.and_eq_true]
        refine ⟨⟨⟨⟨?_, by decide⟩, ?_⟩, ?_⟩, by decide⟩
        · decide
        · simp [msgSzOk, hdsz]
        · rw [haw]; cases c.host <;> simp
      obtain ⟨rs, h1, h2, h3⟩ := container_parses (t := .assoc multi hashed sz key (some m))
        (e := .msg none false [] [none, none] [key, m]) hc henv hnew hsub rfl rfl hgood
          (fun _ _ => by simp only [protoField]) vs (.list []) b h hL
      exact ⟨rs, h1, h2, by rw [hnew _ _ (.assoc multi hashed sz key (some m)), h3, (from_empty vs false).2]⟩
  | scalar k n =>
    simp only [pbFieldOk, isMsg, Bool.or_false] at hf
    cases v <;> simp only [pbField, reduceCtorEq] at h
    exact scalar hf _ rfl h
  | bool =>
    cases v <;> simp only [pbField, reduceCtorEq] at h
    exact scalar rfl _ rfl h
  | varint n zz =>
    simp only [pbFieldOk, isMsg, Bool.or_false] at hf
    cases v <;> simp only [pbField, reduceCtorEq] at h
    exact scalar hf _ rfl h
  | msg sz ok maps' nums' fs' =>
    simp only [pbFieldOk, pbScalarOk, Bool.false_or] at hf
    exact message hf (fun _ => by simp only [protoField])
  | ref j =>
    simp only [pbFieldOk, pbScalarOk, Bool.false_or] at hf
    exact message hf (fun _ => by simp only [protoField])
  | _ => simp [pbFieldOk, pbScalarOk, isMsg] at hf

/-! ### Messages -/

/-- A record of the field behind `pre` does not touch the fields in front of it. -/
theorem protoApply_skip {new : Ty → Val} {sub : SubParser} {env : Nat → Ty} {r : Nat × PbPayload} :
    ∀ (pre : List (Nat × Ty)) (us : List Val) (fs : List (Nat × Ty)) (vs : List Val), us.length = pre.length →
    (∀ x ∈ pre, x.1 ≠ r.1) →
    protoApply new sub env (pre ++ fs) (us ++ vs) r = (protoApply new sub env fs vs r).map (us ++ ·)
  | [], us, fs, vs, hl, _ => by
    cases us with
    | nil => cases h : protoApply new sub env fs vs r <;> simp [h]
    | cons u us => simp at hl
  | (n, t) :: pre, us, fs, vs, hl, hn => by
    cases us with
    | nil => simp at hl
    | cons u us =>
      have ih := protoApply_skip (new := new) (sub := sub) (env := env) (r := r) pre us fs vs (by simpa using hl)
        (fun x hx => hn x (List.mem_cons_of_mem _ hx))
      have h1 : n ≠ r.1 := hn _ (List.mem_cons_self ..)
      simp only [List.cons_append, protoApply, h1, if_false, ih]
      cases protoApply new sub env fs vs r <;> simp

theorem protoAll_field {new : Ty → Val} {sub : SubParser} {env : Nat → Ty} {num : Nat} {t : Ty} {pre fs : List (Nat × Ty)} {us vs : List Val}
    (hl : us.length = pre.length) (hn : ∀ x ∈ pre, x.1 ≠ num) {rest : List (Nat × PbPayload)} :
    ∀ (rs : List (Nat × PbPayload)) (v w : Val), (∀ r ∈ rs, r.1 = num) → protoFieldAll new sub env t v rs = some w →
    protoAll new sub env (pre ++ (num, t) :: fs) (us ++ v :: vs) (rs ++ rest) =
      protoAll new sub env (pre ++ (num, t) :: fs) (us ++ w :: vs) rest
  | [], v, w, _, h => by
    simp only [protoFieldAll, Option.some.injEq] at h
    subst h
    rfl
  | r :: rs, v, w, hr, h => by
    simp only [protoFieldAll] at h
    split at h
    case h_1 v' hv =>
      have ih := protoAll_field (new := new) (sub := sub) (env := env) (t := t) (fs := fs) (vs := vs) hl hn (rest := rest) rs v' w
        (fun r hm => hr r (List.mem_cons_of_mem _ hm)) h
      have e : r.1 = num := hr r (List.mem_cons_self ..)
      have ha := protoApply_skip (new := new) (sub := sub) (env := env) (r := r) pre us ((num, t) :: fs) (v :: vs) hl (by rw [e]; exact hn)
      simp only [protoApply, e, if_true, hv, Option.map] at ha
      simp only [List.cons_append, protoAll, ha, ih]
    case h_2 => cases h

theorem nodup_cons {x : Nat} {xs : List Nat} (h : nodup (x :: xs) = true) : x ∉ xs ∧ nodup xs = true := by
  simp only [nodup, Bool.and_eq_true, Bool.not_eq_true'] at h
  exact ⟨by simpa using h.1, h.2⟩

theorem fields_parse {c : Cfg} (hc : insideMsg c = c) (henv : ∀ i, Good c (c.env i) = true) {new : Ty → Val} (hnew : NewObjects c.env new) {L : Nat} {sub : SubParser}
    (hsub : SubOk c new L sub) {maps : List (Nat × Nat)} :
    ∀ (fs : List Ty) (i : Nat) (nums : List (Option Nat)) (vs : List Val) (body : List UInt8)
      (pre : List (Nat × Ty)) (us : List Val), us.length = pre.length →
    (∀ x ∈ pre, x.1 ∉ fieldNumbers maps i nums) → nodup (fieldNumbers maps i nums) = true →
    pbFieldsOk c.env maps i nums fs = true → GoodL c fs = true →
    pbFields c.env maps i nums fs vs = some body → body.length ≤ L →
    ∃ rs, body = recordBytes rs ∧ (∀ r ∈ rs, 0 < r.1 ∧ r.1 < 2 ^ 29 ∧ PayOk r.2) ∧
      protoAll new sub c.env (pre ++ (fieldNumbers maps i nums).zip fs) (us ++ fs.map new) rs = some (us ++ vs)
  | [], i, nums, vs, body, pre, us, hl, hd, hn, hok, hg, h, hL => by
    cases nums with
    | cons n ns => simp [pbFieldsOk] at hok
    | nil =>
      cases vs with
      | cons v vs => simp [pbFields] at h
      | nil =>
        simp only [pbFields, Option.some.injEq] at h
        subst h
        exact ⟨[], rfl, nofun, rfl⟩
  | t :: ts, i, nums, vs, body, pre, us, hl, hd, hn, hok, hg, h, hL => by
    cases nums with
    | nil => simp [pbFieldsOk] at hok
    | cons n ns =>
      cases vs with
      | nil => simp [pbFields] at h
      | cons v vs =>
        simp only [pbFields, cat_eq_some] at h
        obtain ⟨a, b, ha, hb, rfl⟩ := h
        rw [List.length_append] at hL
        simp only [pbFieldsOk, Bool.and_eq_true, decide_eq_true_eq] at hok
        simp only [GoodL, Bool.and_eq_true] at hg
        simp only [fieldNumbers] at hn hd
        obtain ⟨hn1, hn2⟩ := nodup_cons hn
        obtain ⟨rs, rfl, h1, h2⟩ := field_parses hc henv hnew hsub hok.1.1.1.1 hg.1 ha (by omega)
        obtain ⟨rs', rfl, h3, h4⟩ := fields_parse hc henv hnew hsub ts (i + 1) ns vs b
          (pre ++ [(fieldNumber maps n i, t)]) (us ++ [v]) (by simp [hl])
          (by
            intro x hx
            simp only [List.mem_append, List.mem_singleton] at hx
            rcases hx with hx | rfl
            · exact fun hm => hd x hx (List.mem_cons_of_mem _ hm)
            · exact hn1)
          hn2 hok.2 hg.2 hb (by omega)
        refine ⟨rs ++ rs', by simp [recordBytes], ?_, ?_⟩
        · intro r hr
          simp only [List.mem_append] at hr
          rcases hr with hr | hr
          · obtain ⟨e, hp⟩ := h1 r hr
            rw [e]
            exact ⟨hok.1.1.1.2.1, hok.1.1.1.2.2, hp⟩
          · exact h3 r hr
        · simp only [fieldNumbers, List.zip_cons_cons, List.map_cons]
          rw [protoAll_field hl (fun x hx hxn => hd x hx (by rw [hxn]; exact List.mem_cons_self ..)) rs _ v
            (fun r hr => (h1 r hr).1) h2]
          simp only [List.append_assoc, List.singleton_append] at h4
          exact h4

theorem protoMsg_parses {c : Cfg} (hc : insideMsg c = c) (henv : ∀ i, Good c (c.env i) = true) {new : Ty → Val}
    (hnew : NewObjects c.env new) :
    ∀ d, SubOk c new d (protoMsg new c.env d)
  | 0 => fun _ _ _ _ _ _ _ h => absurd h (Nat.not_lt_zero _)
  | d + 1 => by
    intro maps nums fs vs body hm h hL
    obtain ⟨rs, rfl, h1, h2⟩ := fields_parse hc henv hnew (protoMsg_parses hc henv hnew d) fs 0 nums vs body [] [] rfl nofun hm.distinct
      hm.fields hm.types h (by omega)
    simp only [protoMsg, protoRecords_recordBytes rs _ h1 (Nat.le_refl _)]
    exact h2

/-- Message bodies as specified are parsed to the object. -/
theorem protoParse_pbFields {c : Cfg} (henv : EnvGood c) {new : Ty → Val} (hnew : NewObjects c.env new) {sz : Option SizeTy} {ok : Bool} {maps : List (Nat × Nat)}
    {nums : List (Option Nat)} {fs : List Ty} {vs : List Val} {body : List UInt8}
    (hg : Good c (.msg sz ok maps nums fs) = true) (h : pbFields c.env maps 0 nums fs vs = some body) :
    protoParse new c.env maps nums fs body = some vs := by
  simp only [Good, nodeOk, Bool.and_eq_true] at hg
  exact protoMsg_parses (c := insideMsg c) rfl (fun i => (henv i).2) hnew (body.length + 1) maps nums fs vs body
    ⟨hg.1.1.1.1, hg.1.1.1.2, hg.2⟩ h (by omega)

end Zpp
