import Verif.Props.OutSame
/-!
# C118: what is written does not depend on what is in front
-/

namespace Zpp.Props
open Spec

theorem outSeq_safe (d : Nat) (c : Cfg) (hg : GrowthOk c.g) (noFit : Bool) : ∀ calls, SafeOut c.g (outSeq d c noFit calls)
  | [] => SafeOut.skip _
  | items :: calls => SafeOut.andThen hg (outCall_safe d c hg noFit items) (outSeq_safe d c hg noFit calls)

theorem outSeq_same {k : Nat} {g' : Growth} (d : Nat) (c : Cfg) (noFit noFit' : Bool) (hg : GrowthOk c.g) (hg' : GrowthOk g') :
    ∀ calls, SameM k (outSeq d c noFit calls) (outSeq d { c with g := g' } noFit' calls)
  | [] => SameM.skip
  | items :: calls => (outCall_same d c noFit noFit' hg hg' items).andThen (outSeq_same d c noFit noFit' hg hg' calls)

/-- C118. The first archive has `k` bytes in front that the second does not have; behind them both have the same bytes and are at the same place. The same calls on both
have the same outcome, and afterwards they have again the same bytes behind the first `k`, unless one of them has no room. The `k` bytes in front stay as they were,
whatever the outcome. This holds for all types and objects, and with different buffers, limits and enlargers on both sides. -/
theorem C118_behind (k d : Nat) (c : Cfg) (g' : Growth) (noFit noFit' : Bool) (calls : List (List (Ty × Val))) (a b : OutSt)
    (hg : GrowthOk c.g) (hg' : GrowthOk g') (h : SameBehind k a b) :
    let r := outSeq d c noFit calls a
    let r' := outSeq d { c with g := g' } noFit' calls b
    (NoRoom r.1 ∨ NoRoom r'.1 ∨ (r.1 = r'.1 ∧ (r.1 = .ok → SameBehind k r.2 r'.2))) ∧ r.2.data.take k = a.data.take k := by
  have s1 := outSeq_safe d c hg noFit calls a h.left
  have s2 := outSeq_safe d { c with g := g' } hg' noFit' calls b h.right
  refine ⟨?_, ?_⟩
  · rcases (outSeq_same d c noFit noFit' hg hg' calls).run a b h with h1 | h1 | h1
    · exact .inl (stuck_noRoom h1 s1.code)
    · exact .inr (.inl (stuck_noRoom h1 s2.code))
    · exact .inr (.inr h1)
  · have e := congrArg (List.take k) s1.keep
    rw [List.take_take, List.take_take, h.pos, show min k (k + b.pos) = k by omega] at e
    exact e

/-- What has been written by an archive. -/
def bytesOf (s : OutSt) : List UInt8 := s.data.take s.pos

theorem behind_written {k : Nat} {a b : OutSt} (h : SameBehind k a b) : bytesOf a = a.data.take k ++ bytesOf b := by
  have h1 := h.left.pos_le
  have h2 := h.right.pos_le
  have e := slice_same h (p := 0) (n := b.pos) (by have := h.pos; omega) (by omega)
  rw [Nat.add_zero, List.drop_zero] at e
  rw [bytesOf, bytesOf, ← e, h.pos, List.take_add]

/-- C118, appending: what is written behind the bytes `xs` is what is written into an empty buffer. -/
theorem C118_append (d : Nat) (c : Cfg) (g' : Growth) (noFit noFit' : Bool) (calls : List (List (Ty × Val))) (xs : List UInt8)
    (hg : GrowthOk c.g) (hg' : GrowthOk g') (hx : xs.length < 2 ^ 63) :
    let r := outSeq d c noFit calls ⟨xs, xs.length⟩
    let r' := outSeq d { c with g := g' } noFit' calls ⟨[], 0⟩
    NoRoom r.1 ∨ NoRoom r'.1 ∨ (r.1 = r'.1 ∧ (r.1 = .ok → r.2.data.take r.2.pos = xs ++ r'.2.data.take r'.2.pos)) := by
  have h : SameBehind xs.length ⟨xs, xs.length⟩ ⟨[], 0⟩ := by
    refine ⟨⟨Nat.le_refl _, hx⟩, ⟨Nat.le_refl _, by decide⟩, rfl, fun i => ?_⟩
    simp only
    rw [List.getElem?_eq_none (by omega)]
    rfl
  have ⟨h1, h2⟩ := C118_behind xs.length d c g' noFit noFit' calls _ _ hg hg' h
  refine h1.imp id (Or.imp id fun h => ⟨h.1, fun ho => ?_⟩)
  have := behind_written (h.2 ho)
  rw [h2, List.take_length] at this
  exact this

theorem outSeq_append (d : Nat) (c : Cfg) (noFit : Bool) (calls more : List (List (Ty × Val))) :
    outSeq d c noFit (calls ++ more) = (outSeq d c noFit calls).andThen (outSeq d c noFit more) := by
  induction calls with
  | nil => rfl
  | cons items calls ih =>
    simp only [List.cons_append, outSeq, ih]
    funext s
    generalize hr : outCall d c noFit items s = r
    obtain ⟨e, s'⟩ := r
    cases e
    case ok => rw [OutM.andThen_ok hr, OutM.andThen, OutM.andThen, OutM.andThen_ok hr]
    all_goals simp only [OutM.andThen, hr]

/-- C118, concatenation: if the first calls succeed on an empty growing buffer, the bytes of all calls on one archive are the bytes of the first calls, followed by the
bytes the other calls write into a buffer of their own. -/
theorem C118_concat (d : Nat) (c : Cfg) (noFit : Bool) (calls more : List (List (Ty × Val))) (hg : GrowthOk c.g)
    (h1 : (outSeq d c noFit calls ⟨[], 0⟩).1 = .ok) :
    let r := outSeq d c noFit (calls ++ more) ⟨[], 0⟩
    let r1 := outSeq d c noFit calls ⟨[], 0⟩
    let r2 := outSeq d c noFit more ⟨[], 0⟩
    NoRoom r.1 ∨ NoRoom r2.1 ∨
      (r.1 = r2.1 ∧ (r.1 = .ok → r.2.data.take r.2.pos = r1.2.data.take r1.2.pos ++ r2.2.data.take r2.2.pos)) := by
  have hv : Valid ⟨[], 0⟩ := ⟨Nat.le_refl _, by decide⟩
  have s1 := outSeq_safe d c hg noFit calls ⟨[], 0⟩ hv
  have v1 := s1.valid hg hv
  have ht := s1.tail
  obtain ⟨m, hm⟩ : ∃ m, outSeq d c noFit calls ⟨[], 0⟩ = (.ok, m) := ⟨_, Prod.ext h1 rfl⟩
  rw [hm] at v1 ht
  simp only [outSeq_append, OutM.andThen_ok hm, hm]
  simp only at v1 ht
  have h : SameBehind m.pos m ⟨[], 0⟩ := by
    refine ⟨v1, hv, rfl, fun i => ?_⟩
    have e := congrArg (fun l => l[i]?.getD 0) ht
    simp only [List.nil_append, List.getElem?_drop, List.getElem?_replicate] at e
    simp only [e, List.getElem?_nil, Option.getD_none]
    split <;> rfl
  have ⟨g1, g2⟩ := C118_behind m.pos d c c.g noFit noFit more _ _ hg hg h
  refine Or.imp id (Or.imp id fun h => ⟨h.1, fun ho => ?_⟩) g1
  have := behind_written (h.2 ho)
  rw [g2] at this
  exact this

/-! ## The hypotheses are met -/

/-- A string, a varint and flags, behind two bytes and into an empty buffer. -/
example :
    let c := Checks.le Checks.grow (.fixed 1)
    let calls : List (List (Ty × Val)) :=
      [[(Checks.str, Checks.strV [1, 2, 3])], [(.varint 4 false, .num 300), (.bitset 8, .bits [true, false, true, false, false, false, false, true])]]
    outSeq 9 c false calls ⟨[8, 9], 2⟩ = (.ok, ⟨[8, 9, 3, 1, 2, 3, 172, 2, 133], 9⟩) ∧
    outSeq 9 c false calls ⟨[], 0⟩ = (.ok, ⟨[3, 1, 2, 3, 172, 2, 133], 7⟩) := by decide +kernel

/-- A protobuf message whose size turns out to need two bytes, behind three bytes. -/
example :
    let c := Checks.le Checks.grow .varint
    let calls : List (List (Ty × Val)) := [[(Checks.msg [Checks.str], .list [Checks.strV (List.replicate 130 7)])]]
    outSeq 9 c false calls ⟨[4, 5, 6], 3⟩ = (.ok, ⟨[4, 5, 6, 133, 1, 10, 130, 1] ++ List.replicate 130 7, 138⟩) ∧
    outSeq 9 c false calls ⟨[], 0⟩ = (.ok, ⟨[133, 1, 10, 130, 1] ++ List.replicate 130 7, 135⟩) := by
  decide +kernel

/-- The middle of a buffer: two bytes more in front, zeros behind. -/
example : SameBehind 2 ⟨[8, 9, 1, 2, 0, 0], 4⟩ ⟨[1, 2], 2⟩ := by
  refine ⟨⟨by decide, by decide⟩, ⟨by decide, by decide⟩, rfl, fun i => ?_⟩
  match i with
  | 0 | 1 | 2 | 3 => rfl
  | i + 4 =>
    simp only
    rw [List.getElem?_eq_none (by simp only [List.length_cons, List.length_nil]; omega), List.getElem?_eq_none (by simp only [List.length_cons, List.length_nil]; omega)]

end Zpp.Props
