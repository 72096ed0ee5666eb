import Verif.Spec.Most
import Verif.Proof.WireLemmas
/-! # Bounds on encodings -/

namespace Zpp
open Spec

theorem lebGroups_mono : ∀ (k a b : Nat), a ≤ b → (lebGroups k a).length ≤ (lebGroups k b).length
  | 0, _, _, _ => Nat.le_refl _
  | k + 1, a, b, h => by
    simp only [lebGroups]
    by_cases ha : a < 128
    · rw [if_pos ha]; split <;> simp
    · rw [if_neg ha, if_neg (by omega)]
      have := lebGroups_mono k (a / 128) (b / 128) (Nat.div_le_div_right h)
      simp only [List.length_cons]
      omega

theorem leb_mono {a b : Nat} (h : a ≤ b) : (leb a).length ≤ (leb b).length := lebGroups_mono 10 a b h

theorem varintValue_le {n : Nat} (zz : Bool) {x : Nat} (hx : x < 2 ^ (8 * n)) : varintValue n zz x ≤ 2 ^ (8 * n) - 1 := by
  cases n with
  | zero =>
    have : x = 0 := by simpa using hx
    subst this
    cases zz <;> decide
  | succ n =>
    rw [varintValue_eq _ _ _ (by omega) hx]
    have := varintLoad_lt (n + 1) zz x (by omega) hx
    omega

theorem varint_most {n : Nat} (zz : Bool) {x : Nat} (hx : x < 2 ^ (8 * n)) : (leb (varintValue n zz x)).length ≤ varintMost n :=
  leb_mono (varintValue_le zz hx)

theorem plus_eq {a b : Option Nat} {m : Nat} (h : plus a b = some m) : ∃ x y, a = some x ∧ b = some y ∧ x + y = m := by
  cases a <;> cases b <;> simp [plus] at h ⊢
  exact h

theorem cat_eq {a b : Option (List UInt8)} {bs : List UInt8} (h : cat a b = some bs) : ∃ x y, a = some x ∧ b = some y ∧ bs = x ++ y := by
  cases a <;> cases b <;> simp [cat] at h ⊢
  exact h.symm

theorem wireNum_most {f : Fmt} {dsz : SizeTy} {t : Ty} {x m : Nat} {bs : List UInt8} (hm : mostBytes dsz t = some m)
    (hw : wireNum f t x = some bs) : bs.length ≤ m := by
  cases t <;> simp only [wireNum, reduceCtorEq] at hw
  all_goals
    split at hw
    · cases hw
      simp only [mostBytes, Option.some.injEq] at hm
      subst hm
      first | simp; done | exact varint_most _ (by assumption)
    · cases hw

theorem wireNums_most {f : Fmt} {dsz : SizeTy} {t : Ty} {m : Nat} (hm : mostBytes dsz t = some m) :
    ∀ (vs : List Val) (bs : List UInt8), wireNums f t vs = some bs → bs.length ≤ vs.length * m
  | [], bs, h => by cases h; simp
  | v :: vs, bs, h => by
    cases v <;> simp only [wireNums, reduceCtorEq] at h
    obtain ⟨x, y, h1, h2, rfl⟩ := cat_eq h
    have := wireNum_most hm h1
    have := wireNums_most hm vs y h2
    simp only [List.length_append, List.length_cons, Nat.add_mul]
    omega

theorem wireId_most {f : Fmt} {dsz : SizeTy} {t : Ty} {v : Val} {m : Nat} {bs : List UInt8} (hm : mostBytes dsz t = some m)
    (hw : wireId f t v = some bs) : bs.length ≤ m := by
  unfold wireId at hw
  split at hw
  · split at hw
    · next hn =>
      simp only [mostBytes, Option.map_eq_some_iff] at hm
      obtain ⟨s, hs, rfl⟩ := hm
      have := wireNums_most hs _ _ hw
      rw [hn] at this; exact this
    · cases hw
  · exact wireNum_most hm hw
  · cases hw

theorem wireAll_most {f : Fmt} {t : Ty} {m : Nat} (h : ∀ v bs, wire f t v = some bs → bs.length ≤ m) :
    ∀ (vs : List Val) (bs : List UInt8), wireAll f t vs = some bs → bs.length ≤ vs.length * m
  | [], bs, hw => by simp only [wireAll, Option.some.injEq] at hw; subst hw; simp
  | v :: vs, bs, hw => by
    rw [wireAll] at hw
    obtain ⟨x, y, h1, h2, rfl⟩ := cat_eq hw
    have := h v x h1
    have := wireAll_most h vs y h2
    simp only [List.length_append, List.length_cons, Nat.add_mul]
    omega

theorem pbScalar_most {num : Nat} {t : Ty} {x m : Nat} {bs : List UInt8} (hm : pbMost num t = some m)
    (hw : pbScalar num t x = some bs) : bs.length ≤ m := by
  unfold pbScalar at hw
  split at hw <;> (try cases hw) <;> split at hw <;> (try cases hw)
  all_goals
    simp only [pbMost, Option.some.injEq] at hm
    subst hm
    simp only [pbRecord, List.length_append, digits_length]
  · exact Nat.add_le_add_left (leb_mono (by omega)) _
  · exact Nat.add_le_add_left (varint_most _ (by assumption)) _
  · have := leb_mono (a := x) (b := 1) (by omega)
    have h1 : (leb 1).length = 1 := by decide
    omega
  · omega
  · omega

mutual
theorem pbField_most (env : Nat → Ty) (num : Nat) : (t : Ty) → (m : Nat) → pbMost num t = some m →
    ∀ v bs, pbField env num t v = some bs → bs.length ≤ m
  | .empty, m, hm, v, bs, hw => by
    cases v <;> simp only [pbField, pbScalar, reduceCtorEq] at hw
    cases hw; simp
  | .scalar k n, m, hm, v, bs, hw => by
    cases v <;> simp only [pbField, reduceCtorEq] at hw
    exact pbScalar_most hm hw
  | .bool, m, hm, v, bs, hw => by
    cases v <;> simp only [pbField, reduceCtorEq] at hw
    exact pbScalar_most hm hw
  | .varint n zz, m, hm, v, bs, hw => by
    cases v <;> simp only [pbField, reduceCtorEq] at hw
    exact pbScalar_most hm hw
  | .msg sz ok maps nums fs, m, hm, v, bs, hw => by
    simp only [pbMost, Option.map_eq_some_iff] at hm
    obtain ⟨s, hs, rfl⟩ := hm
    cases v <;> simp only [pbField, pbScalar, reduceCtorEq] at hw
    rename_i vs
    cases hb : pbFields env maps 0 nums fs vs with
    | none => rw [hb] at hw; cases hw
    | some body =>
      rw [hb] at hw
      simp only [pbLen] at hw
      split at hw
      · cases hw
        have h1 := pbFields_most env maps nums 0 fs s hs vs body hb
        have h2 := leb_mono h1
        simp only [pbRecord, List.length_append]
        omega
      · cases hw
  | .struct _ _, m, hm, _, _, _ => by simp [pbMost] at hm
  | .array _ _, m, hm, _, _, _ => by simp [pbMost] at hm
  | .seq _ _ _, m, hm, _, _, _ => by simp [pbMost] at hm
  | .assoc _ _ _ _ _, m, hm, _, _, _ => by simp [pbMost] at hm
  | .optional _ _, m, hm, _, _, _ => by simp [pbMost] at hm
  | .optPtr _, m, hm, _, _, _ => by simp [pbMost] at hm
  | .uptr _, m, hm, _, _, _ => by simp [pbMost] at hm
  | .variant _ _ _ _, m, hm, _, _, _ => by simp [pbMost] at hm
  | .bitset _, m, hm, _, _, _ => by simp [pbMost] at hm
  | .ref _, m, hm, _, _, _ => by simp [pbMost] at hm
theorem pbFields_most (env : Nat → Ty) (maps : List (Nat × Nat)) (nums : List (Option Nat)) (i : Nat) : (fs : List Ty) → (m : Nat) →
    pbMostL maps i nums fs = some m → ∀ vs bs, pbFields env maps i nums fs vs = some bs → bs.length ≤ m
  | [], m, hm, vs, bs, hw => by
    cases nums <;> cases vs <;> simp only [pbFields, reduceCtorEq] at hw
    cases hw; simp
  | t :: ts, m, hm, vs, bs, hw => by
    cases nums with
    | nil => cases vs <;> simp only [pbFields, reduceCtorEq] at hw
    | cons num nums =>
      cases vs with
      | nil => simp only [pbFields, reduceCtorEq] at hw
      | cons v vs =>
        simp only [pbFields] at hw
        simp only [pbMostL] at hm
        obtain ⟨a, b, h1, h2, rfl⟩ := plus_eq hm
        obtain ⟨x, y, h3, h4, rfl⟩ := cat_eq hw
        have := pbField_most env _ t a h1 v x h3
        have := pbFields_most env maps nums (i + 1) ts b h2 vs y h4
        simp only [List.length_append]
        omega
end

mutual
theorem wire_most (f : Fmt) : (t : Ty) → (m : Nat) → mostBytes f.dsz t = some m → ∀ v bs, wire f t v = some bs → bs.length ≤ m
  | .scalar k n, m, hm, v, bs, hw => by
    cases v <;> simp only [wire, reduceCtorEq] at hw
    exact wireNum_most hm hw
  | .bool, m, hm, v, bs, hw => by
    cases v <;> simp only [wire, reduceCtorEq] at hw
    exact wireNum_most hm hw
  | .varint n zz, m, hm, v, bs, hw => by
    cases v <;> simp only [wire, reduceCtorEq] at hw
    exact wireNum_most hm hw
  | .empty, m, hm, v, bs, hw => by
    cases v <;> simp only [wire, wireNum, reduceCtorEq] at hw
    cases hw; simp
  | .struct ok fs, m, hm, v, bs, hw => by
    simp only [mostBytes] at hm
    cases v <;> simp only [wire, wireNum, reduceCtorEq] at hw
    exact wireFields_most f fs m hm _ bs hw
  | .array n t, m, hm, v, bs, hw => by
    simp only [mostBytes, Option.map_eq_some_iff] at hm
    obtain ⟨s, hs, rfl⟩ := hm
    cases v <;> simp only [wire, wireNum, reduceCtorEq] at hw
    split at hw
    · next h => rw [← h]; exact wireAll_most (wire_most f t s hs) _ _ hw
    · cases hw
  | .optional k t, m, hm, v, bs, hw => by
    simp only [mostBytes, Option.map_eq_some_iff] at hm
    obtain ⟨s, hs, rfl⟩ := hm
    cases v <;> simp only [wire, wireNum, reduceCtorEq] at hw
    · cases hw; simp
    · obtain ⟨x, y, h1, h2, rfl⟩ := cat_eq hw
      cases h1
      have := wire_most f t s hs _ y h2
      simp only [List.length_append, List.length_cons, List.length_nil]; omega
  | .optPtr t, m, hm, v, bs, hw => by
    simp only [mostBytes, Option.map_eq_some_iff] at hm
    obtain ⟨s, hs, rfl⟩ := hm
    cases v <;> simp only [wire, wireNum, reduceCtorEq] at hw
    · cases hw; simp
    · obtain ⟨x, y, h1, h2, rfl⟩ := cat_eq hw
      cases h1
      have := wire_most f t s hs _ y h2
      simp only [List.length_append, List.length_cons, List.length_nil]; omega
  | .uptr t, m, hm, v, bs, hw => by
    simp only [mostBytes] at hm
    cases v <;> simp only [wire, wireNum, reduceCtorEq] at hw
    exact wire_most f t m hm _ bs hw
  | .variant idTy ids k alts, m, hm, v, bs, hw => by
    simp only [mostBytes] at hm
    obtain ⟨a, b, h1, h2, rfl⟩ := plus_eq hm
    cases v <;> simp only [wire, wireNum, reduceCtorEq] at hw
    split at hw
    · next id t hid ht =>
      obtain ⟨x, y, h3, h4, rfl⟩ := cat_eq hw
      have := wireId_most h1 h3
      have := wireAlts_most f alts b h2 _ t ht _ y h4
      simp only [List.length_append]; omega
    · cases hw
  | .bitset n, m, hm, v, bs, hw => by
    simp only [mostBytes, Option.some.injEq] at hm
    subst hm
    cases v <;> simp only [wire, wireNum, reduceCtorEq] at hw
    split at hw
    · cases hw; simp [packBits]
    · cases hw
  | .msg sz ok maps nums fs, m, hm, v, bs, hw => by
    simp only [mostBytes, Option.map_eq_some_iff] at hm
    obtain ⟨s, hs, rfl⟩ := hm
    cases v <;> simp only [wire, wireNum, reduceCtorEq] at hw
    rename_i vs
    cases hb : pbFields f.env maps 0 nums fs vs with
    | none => rw [hb] at hw; cases hw
    | some body =>
      rw [hb] at hw
      dsimp only at hw
      obtain ⟨x, y, h1, h2, rfl⟩ := cat_eq hw
      cases h2
      have h3 := pbFields_most f.env maps nums 0 fs s hs vs body hb
      have h4 := leb_mono h3
      have h5 : x.length ≤ prefixMost (sz.getD f.dsz) s := by
        unfold prefixMost
        cases hq : sz.getD f.dsz with
        | none => rw [hq] at h1; simp only [msgPrefix, sizePrefix, Option.some.injEq] at h1; subst h1; simp
        | fixed k =>
          rw [hq] at h1
          simp only [msgPrefix, sizePrefix] at h1
          split at h1
          · cases h1; simp
          · cases h1
        | varint =>
          rw [hq] at h1
          simp only [msgPrefix] at h1
          split at h1
          · cases h1; exact h4
          · cases h1
      simp only [List.length_append]; omega
  | .seq _ _ _, m, hm, _, _, _ => by simp [mostBytes] at hm
  | .assoc _ _ _ _ _, m, hm, _, _, _ => by simp [mostBytes] at hm
  | .ref _, m, hm, _, _, _ => by simp [mostBytes] at hm
theorem wireFields_most (f : Fmt) : (ts : List Ty) → (m : Nat) → mostBytesL f.dsz ts = some m →
    ∀ vs bs, wireFields f ts vs = some bs → bs.length ≤ m
  | [], m, hm, vs, bs, hw => by
    cases vs <;> simp only [wireFields, reduceCtorEq] at hw
    cases hw; simp
  | t :: ts, m, hm, vs, bs, hw => by
    cases vs with
    | nil => simp only [wireFields, reduceCtorEq] at hw
    | cons v vs =>
      simp only [wireFields] at hw
      simp only [mostBytesL] at hm
      obtain ⟨a, b, h1, h2, rfl⟩ := plus_eq hm
      obtain ⟨x, y, h3, h4, rfl⟩ := cat_eq hw
      have := wire_most f t a h1 v x h3
      have := wireFields_most f ts b h2 vs y h4
      simp only [List.length_append]
      omega
theorem wireAlts_most (f : Fmt) : (ts : List Ty) → (m : Nat) → mostBytesMax f.dsz ts = some m →
    ∀ (i : Nat) (t : Ty), ts[i]? = some t → ∀ v bs, wire f t v = some bs → bs.length ≤ m
  | [], m, hm, i, t, ht, _, _, _ => by simp at ht
  | t :: ts, m, hm, i, t', ht, v, bs, hw => by
    simp only [mostBytesMax] at hm
    have h : ∃ a b, mostBytes f.dsz t = some a ∧ mostBytesMax f.dsz ts = some b ∧ m = max a b := by
      cases h1 : mostBytes f.dsz t <;> cases h2 : mostBytesMax f.dsz ts <;> rw [h1, h2] at hm <;> simp [larger] at hm ⊢
      exact hm.symm
    obtain ⟨a, b, h1, h2, rfl⟩ := h
    cases i with
    | zero =>
      simp only [List.getElem?_cons_zero, Option.some.injEq] at ht
      rw [← ht] at hw
      have := wire_most f t a h1 v bs hw
      omega
    | succ i =>
      have := wireAlts_most f ts b h2 i t' (by simpa using ht) v bs hw
      omega
end

end Zpp
