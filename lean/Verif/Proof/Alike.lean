import Verif.Spec.Alike
import Verif.Proof.WireLemmas
/-! # Interchangeable objects have the same encoding -/

namespace Zpp
open Spec

theorem cat_assoc (a b c : Option (List UInt8)) : cat (cat a b) c = cat a (cat b c) := by
  cases a <;> cases b <;> cases c <;> simp [cat]

theorem cat_nil (a : Option (List UInt8)) : cat a (some []) = a := by
  cases a <;> simp [cat]

theorem nil_cat (a : Option (List UInt8)) : cat (some []) a = a := by
  cases a <;> simp [cat]

theorem wireFields_append (f : Fmt) : ∀ (as bs : List Ty) (us vs : List Val), as.length = us.length →
    wireFields f (as ++ bs) (us ++ vs) = cat (wireFields f as us) (wireFields f bs vs) := by
  intro as
  induction as with
  | nil =>
    intro bs us vs h
    cases us with
    | nil => simp only [List.nil_append, wireFields, nil_cat]
    | cons => simp at h
  | cons a as ih =>
    intro bs us vs h
    cases us with
    | nil => simp at h
    | cons u us =>
      simp only [List.cons_append, wireFields]
      rw [ih bs us vs (by simpa using h), cat_assoc]

theorem wireFields_replicate (f : Fmt) (t : Ty) : ∀ (n : Nat) (vs : List Val),
    wireFields f (List.replicate n t) vs = if vs.length = n then wireAll f t vs else none := by
  intro n
  induction n with
  | zero => intro vs; cases vs <;> simp [wireFields, wireAll]
  | succ n ih =>
    intro vs
    cases vs with
    | nil => simp [List.replicate_succ, wireFields]
    | cons v vs =>
      simp only [List.replicate_succ, wireFields, ih, wireAll, List.length_cons, Nat.succ.injEq, Nat.add_right_cancel_iff]
      split
      · rfl
      · cases wire f t v <;> rfl

theorem digits_bit (o : Endian) {x : Nat} (h : x ≤ 1) : digits o 1 x = [UInt8.ofNat x] := by
  have : x = 0 ∨ x = 1 := by omega
  cases o <;> rcases this with rfl | rfl <;> decide

mutual
theorem alike_wire {f : Fmt} : ∀ {t v t' v'}, Alike f t v t' v' → wire f t v = wire f t' v'
  | _, _, _, _, .refl _ _ => rfl
  | _, _, _, _, .symm h => (alike_wire h).symm
  | _, _, _, _, .trans h h' => (alike_wire h).trans (alike_wire h')
  | _, _, _, _, .scalar _ _ _ _ => by simp only [wire, wireNum]
  | _, _, _, _, .bool k (x := x) h => by
    simp only [wire, wireNum, if_pos h, digits_bit f.order h]
    rw [if_pos (by omega)]
  | _, _, _, _, .varint h h' => by simp only [wire, wireNum, if_pos h, if_pos h', varintValue, Bool.false_eq_true, if_false]
  | _, _, _, _, .seq k k' hs h => by
    obtain ⟨h1, h2⟩ := alikeAll_wire h
    simp only [wire, hs, h1, h2]
  | _, _, _, _, .set _ _ _ _ _ _ => by simp only [wire]
  | _, _, _, _, .map _ _ ok _ _ key m vs => by
    have : ∀ vs, wireAll f (.struct false [key, m]) vs = wireAll f (.struct ok [key, m]) vs := by
      intro vs
      induction vs with
      | nil => rfl
      | cons v vs ih =>
        simp only [wireAll, ih]
        congr 1
        cases v <;> simp only [wire, wireNum]
    simp only [wire, this]
  | _, _, _, _, .array n h => by
    obtain ⟨h1, h2⟩ := alikeAll_wire h
    simp only [wire, h1, h2]
  | _, _, _, _, .unsized k t vs => by simp only [wire, if_true, Option.getD_some, sizePrefix, nil_cat]
  | _, _, _, _, .members ok n t vs => by simp only [wire, wireFields_replicate]
  | _, _, _, _, .struct _ _ h => by simp only [wire]; exact alikeF_wire h
  | _, _, _, _, .flatten ok ok' ok'' (as := as) (bs := bs) (cs := cs) (us := us) (vs := vs) (ws := ws) h1 h2 => by
    simp only [wire]
    rw [List.append_assoc, List.append_assoc, wireFields_append f _ _ _ _ h1, wireFields_append f _ _ _ _ h1,
      wireFields_append f _ _ _ _ h2]
    simp only [wireFields, wire]
  | _, _, _, _, .wrap _ t v => by simp only [wire, wireFields, cat_nil]
  | _, _, _, _, .empty _ => by simp only [wire, wireFields]
  | _, _, _, _, .uptr _ _ => by simp only [wire]
  | _, _, _, _, .some _ _ h => by simp only [wire, alike_wire h]
  | _, _, _, _, .none _ _ _ _ => by simp only [wire]
  | _, _, _, _, .optPtr _ _ v => by cases v <;> simp only [wire, wireNum]
  | _, _, _, _, .flag _ _ t v => by
    simp only [wire, wireFields, wireNum, cat_nil]
    rfl
  | _, _, _, _, .noFlag _ _ => by simp only [wire, wireNum]; rfl
  | _, _, _, _, .variant _ _ h1 h2 h3 h4 h => by simp only [wire, h1, h2, h3, h4, alike_wire h]
  | _, _, _, _, .tagged _ _ h1 h2 => by simp only [wire, h1, h2, wireFields, wireId, wireNum, cat_nil]
  | _, _, _, _, .named vs h => by simp only [wire, h]
theorem alikeAll_wire {f : Fmt} : ∀ {t vs t' vs'}, AlikeAll f t vs t' vs' → wireAll f t vs = wireAll f t' vs' ∧ vs.length = vs'.length
  | _, _, _, _, .nil _ _ => ⟨rfl, rfl⟩
  | _, _, _, _, .cons h hs => by
    obtain ⟨h1, h2⟩ := alikeAll_wire hs
    simp only [wireAll, alike_wire h, h1, List.length_cons, h2, and_self]
theorem alikeF_wire {f : Fmt} : ∀ {ts vs ts' vs'}, AlikeF f ts vs ts' vs' → wireFields f ts vs = wireFields f ts' vs'
  | _, _, _, _, .nil => rfl
  | _, _, _, _, .cons h hs => by simp only [wireFields, alike_wire h, alikeF_wire hs]
end

end Zpp
