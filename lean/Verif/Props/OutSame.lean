import Verif.Proof.OutSame
import Verif.Model.Options
import Verif.Checks
import Verif.Props.Output
/-!
# C117: options that do not belong to the format do not change the bytes
-/

namespace Zpp.Props
open Spec

theorem stuck_noRoom {g : Growth} {n : Nat} {s : Status} (h : Stuck s) (hc : OutCode g n s) : NoRoom s := by
  rcases h with h | rfl
  · exact h
  · exact absurd hc (by simp [OutCode])

/-- C117. Two output archives have the same bytes and the same position, and differ in everything that does not belong to the format: fixed or growing buffer, its
length, the enlarger, the allocation limit, the memory of the host, fitting. The same call on both has the same outcome and afterwards they have again the same
bytes and the same position, unless one of them has no room. This holds for all types and objects, also where the bytes are not those of the documented format. -/
theorem C117_call (d : Nat) (c : Cfg) (g' : Growth) (noFit noFit' : Bool) (items : List (Ty × Val)) (a b : OutSt)
    (hg : GrowthOk c.g) (hg' : GrowthOk g') (h : SameOut a b) :
    let r := outCall d c noFit items a
    let r' := outCall d { c with g := g' } noFit' items b
    NoRoom r.1 ∨ NoRoom r'.1 ∨ (r.1 = r'.1 ∧ (r.1 = .ok → SameOut r.2 r'.2)) := by
  rcases (outCall_same d c noFit noFit' hg hg' items).run a b h.behind with h1 | h1 | h1
  · exact .inl (stuck_noRoom h1 (outCall_safe d c hg noFit items a h.left).code)
  · exact .inr (.inl (stuck_noRoom h1 (outCall_safe d { c with g := g' } hg' noFit' items b h.right).code))
  · exact .inr (.inr ⟨h1.1, fun ho => (h1.2 ho).out⟩)

/-- C117, any number of calls. -/
theorem C117_calls (d : Nat) (c : Cfg) (g' : Growth) (noFit noFit' : Bool) (calls : List (List (Ty × Val))) (a b : OutSt)
    (hg : GrowthOk c.g) (hg' : GrowthOk g') (h : SameOut a b) :
    let r := outSeq d c noFit calls a
    let r' := outSeq d { c with g := g' } noFit' calls b
    NoRoom r.1 ∨ NoRoom r'.1 ∨ (r.1 = r'.1 ∧ (r.1 = .ok → SameOut r.2 r'.2)) := by
  induction calls generalizing a b with
  | nil => exact .inr (.inr ⟨rfl, fun _ => h⟩)
  | cons items calls ih =>
    have hne : ∀ {s : Status}, NoRoom s → s ≠ .ok := by
      intro s hs
      rcases hs with hs | hs | hs <;> simp [hs]
    simp only [outSeq]
    rcases C117_call d c g' noFit noFit' items a b hg hg' h with h1 | h1 | ⟨h1, h2⟩
    · rw [OutM.andThen_ne (hne h1)]
      exact .inl h1
    · rw [OutM.andThen_ne (m1 := outCall d { c with g := g' } noFit' items) (hne h1)]
      exact .inr (.inl h1)
    · by_cases ho : (outCall d c noFit items a).1 = .ok
      · rw [OutM.andThen_ok (Prod.ext ho rfl), OutM.andThen_ok (m1 := outCall d { c with g := g' } noFit' items) (Prod.ext (h1 ▸ ho) rfl)]
        exact ih _ _ (h2 ho)
      · rw [OutM.andThen_ne ho, OutM.andThen_ne (m1 := outCall d { c with g := g' } noFit' items) (h1 ▸ ho)]
        exact .inr (.inr ⟨h1, fun h => absurd h ho⟩)

/-- What `SameOut` says of what has been written: the bytes in front of the position are the same. -/
theorem C117_written (a b : OutSt) (h : SameOut a b) : a.data.take a.pos = b.data.take b.pos := by
  have h1 := h.left.pos_le
  have h2 := h.right.pos_le
  rw [← h.pos] at h2 ⊢
  have := slice_same h.behind (p := 0) (n := a.pos) (by omega) (by omega)
  simpa using this

/-! ## Lists of options -/

/-- The options that belong to the format: sizes and byte order. -/
def formatOpt : Opt → Bool
  | .size _ => true
  | .endian _ => true
  | _ => false

theorem getDefaultSizeType_filter (opts : List Opt) : getDefaultSizeType opts = getDefaultSizeType (opts.filter formatOpt) := by
  induction opts with
  | nil => rfl
  | cons o os ih => cases o <;> simp [getDefaultSizeType, formatOpt, List.filter_cons, ih]

theorem endianAware_filter (h : Endian) (opts : List Opt) : endianAware h opts = endianAware h (opts.filter formatOpt) := by
  induction opts with
  | nil => rfl
  | cons o os ih => cases o <;> simp [endianAware, formatOpt, List.filter_cons, ih]

/-- C117, with lists of options: archives with the same size and byte order options write the same bytes into fixed and growing buffers, with whatever other
options, if they write at all. The fixed buffer has `n` zeros, the growing buffer is empty. -/
theorem C117_options (d : Nat) (host : Host) (rs rs' : Bool) (opts opts' : List Opt) (calls : List (List (Ty × Val))) (n n' : Nat)
    (hn : n < 2 ^ 63) (hn' : n' < 2 ^ 63) (hf : opts.filter formatOpt = opts'.filter formatOpt)
    (hg : GrowthOk (cfgOf host rs opts).g) (hg' : GrowthOk (cfgOf host rs' opts').g) :
    let r := outSeq d (cfgOf host rs opts) (noFitSize opts) calls ⟨List.replicate n 0, 0⟩
    let r' := outSeq d (cfgOf host rs' opts') (noFitSize opts') calls ⟨List.replicate n' 0, 0⟩
    NoRoom r.1 ∨ NoRoom r'.1 ∨ (r.1 = r'.1 ∧ (r.1 = .ok → r.2.data.take r.2.pos = r'.2.data.take r'.2.pos)) := by
  have e : cfgOf host rs' opts' = { cfgOf host rs opts with g := (cfgOf host rs' opts').g } := by
    simp only [cfgOf]
    rw [getDefaultSizeType_filter opts', endianAware_filter host.order opts', ← hf, ← getDefaultSizeType_filter, ← endianAware_filter]
  have h : SameOut ⟨List.replicate n 0, 0⟩ ⟨List.replicate n' 0, 0⟩ := by
    refine ⟨⟨Nat.zero_le _, by simpa using hn⟩, ⟨Nat.zero_le _, by simpa using hn'⟩, rfl, fun i => ?_⟩
    simp only [List.getElem?_replicate]
    split <;> split <;> rfl
  have := C117_calls d (cfgOf host rs opts) (cfgOf host rs' opts').g (noFitSize opts) (noFitSize opts') calls _ _ hg hg' h
  rw [← e] at this
  exact this.imp id (Or.imp id fun h => ⟨h.1, fun ho => C117_written _ _ (h.2 ho)⟩)

/-! ## The hypotheses are met -/

/-- A string, a varint and flags: a growing buffer with the default options, a growing buffer with the exact enlarger and without fitting, and a fixed buffer. -/
example :
    let c := Checks.le Checks.grow (.fixed 1)
    let calls : List (List (Ty × Val)) :=
      [[(Checks.str, Checks.strV [1, 2, 3])], [(.varint 4 false, .num 300), (.bitset 8, .bits [true, false, true, false, false, false, false, true])]]
    let r := outSeq 9 c false calls ⟨[], 0⟩
    let r1 := outSeq 9 { c with g := { Checks.grow with mul := 1, div := 1 } } true calls ⟨[], 0⟩
    let r2 := outSeq 9 { c with g := Checks.fixed } false calls ⟨List.replicate 9 0, 0⟩
    r = (.ok, ⟨[3, 1, 2, 3, 172, 2, 133], 7⟩) ∧ (r1.1, r1.2.data.take r1.2.pos) = (.ok, [3, 1, 2, 3, 172, 2, 133]) ∧
    r2 = (.ok, ⟨[3, 1, 2, 3, 172, 2, 133, 0, 0], 7⟩) := by decide +kernel

/-- A protobuf message that is moved ahead when its size turns out to need two bytes. -/
example :
    let c := Checks.le Checks.grow .varint
    let calls : List (List (Ty × Val)) := [[(Checks.msg [Checks.str], .list [Checks.strV (List.replicate 130 7)])]]
    let r := outSeq 9 c false calls ⟨[], 0⟩
    let r2 := outSeq 9 { c with g := Checks.fixed } false calls ⟨List.replicate 140 0, 0⟩
    r = (.ok, ⟨[133, 1, 10, 130, 1] ++ List.replicate 130 7, 135⟩) ∧ r2 = (.ok, ⟨[133, 1, 10, 130, 1] ++ List.replicate 130 7 ++ List.replicate 5 0, 135⟩) := by
  decide +kernel

example : GrowthOk Checks.grow ∧ GrowthOk { Checks.grow with mul := 1, div := 1 } ∧ GrowthOk Checks.fixed ∧ SameOut ⟨[], 0⟩ ⟨List.replicate 9 0, 0⟩ := by
  refine ⟨grow_ok, fun _ => ⟨by decide, by decide, by decide, rfl, by decide⟩, (fun h => nomatch h), ⟨Nat.le_refl _, by decide⟩, ⟨by decide, by decide⟩, rfl, fun i => ?_⟩
  simp only [List.getElem?_replicate]
  split <;> rfl

end Zpp.Props
