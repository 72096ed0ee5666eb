import Verif.Props.Input
import Verif.Props.Input2
/-! # C32: reading a message stays inside of the message -/

namespace Zpp.Props
open Zpp.Spec

private theorem pbLoop_end {field : Ty → Nat → Val → Nat → Res} {maps : List (Nat × Nat)} {nums : List (Option Nat)} {fs : List Ty}
    {data : List UInt8} : ∀ f vs p, (pbLoop field maps nums fs data f vs p).s = .ok →
    data.length ≤ (pbLoop field maps nums fs data f vs p).p := by
  intro f
  induction f with
  | zero => intro vs p h; cases h
  | succ f ih =>
    intro vs p
    unfold pbLoop
    split
    · split
      · split
        · exact ih _ _
        · rename_i h1 h2
          intro h
          generalize hr : pbDispatch _ _ _ _ _ _ _ _ _ = r at *
          obtain ⟨s, vs', p'⟩ := r
          cases h
          exact absurd rfl (h2 vs' p')
      · intro h; cases h
      · rename_i s v p1 h1 h2 h3
        intro h
        simp only at h
        subst h
        exact absurd h3 (by first | exact h2 _ _ | simp_all)
    · intro _; simp only; omega

/-- C32. A message with a size prefix `n` is read as if the input ended with the last of its `n` bytes: what is behind has no
influence, on the outcome, the object or the position. -/
theorem C32_inside (d : Nat) (c : Cfg) (data : List UInt8) (sz : Option SizeTy) (ok : Bool) (maps : List (Nat × Nat))
    (nums : List (Option Nat)) (fs : List Ty) (old o : Val) (p n p1 : Nat) (hsz : sz.getD c.dsz ≠ .none)
    (hn : decode 1 c (sizeInt (sz.getD c.dsz)) o data p = ⟨.ok, .num n, p1⟩) (hl : data.length < 2 ^ 64) :
    decode (d + 1) c (.msg sz ok maps nums fs) old data p =
      decode (d + 1) c (.msg (some .none) ok maps nums fs) old (data.take (p1 + n)) p1 := by
  have hh := decHdr_int hsz hn
  have he : effSz c sz = sz.getD c.dsz := rfl
  have he' : effSz c (some .none) = .none := rfl
  have hsub : msgSub data p1 n = msgSub (data.take (p1 + n)) p1 sizeMax := by
    unfold msgSub sizeMax
    rw [List.drop_take, List.length_take, List.take_take]
    congr 1
    omega
  have hrun : ∀ c' rec fresh, msgRun c' rec fresh maps nums fs old data n p1 =
      msgRun c' rec fresh maps nums fs old (data.take (p1 + n)) sizeMax p1 := by
    intro c' rec fresh
    unfold msgRun
    rw [hsub, List.length_take]
    by_cases h : data.length < p1
    · rw [if_pos h, if_pos (by omega)]
    · rw [if_neg h, if_neg (by omega)]
  simp only [decode, he']
  rw [he, ← hrun]
  generalize sz.getD c.dsz = s at *
  cases s with
  | none => exact absurd rfl hsz
  | fixed k => simp only [hh]
  | varint => simp only [hh]

/-- C32. A message that is read successfully is read up to its end: the end of the input for a message without size prefix, … -/
theorem C32_to_the_end (d : Nat) (c : Cfg) (data : List UInt8) (sz : Option SizeTy) (ok : Bool) (maps : List (Nat × Nat))
    (nums : List (Option Nat)) (fs : List Ty) (old : Val) (p : Nat) (henv : ∀ i, widthsOk (c.env i) = true)
    (hw : ∀ t ∈ fs, widthsOk t = true) (hp : p ≤ data.length) (hl : data.length < 2 ^ 64) (hsz : sz.getD c.dsz = .none)
    (hok : (decode d c (.msg sz ok maps nums fs) old data p).s = .ok) :
    (decode d c (.msg sz ok maps nums fs) old data p).p = data.length := by
  have h1 := (C32_pb_safe d c data sz ok maps nums fs old p henv hw hp).2.2
  cases d with
  | zero => cases hok
  | succ d =>
    have he : effSz c sz = .none := hsz
    simp only [decode, he, msgRun] at hok h1 ⊢
    rw [if_neg (by omega)] at hok h1 ⊢
    simp only at hok h1 ⊢
    have := pbLoop_end _ _ _ hok
    generalize hP : pbLoop _ maps nums fs (msgSub data p sizeMax) _ _ 0 = P at this h1 ⊢
    have hs : (msgSub data p sizeMax).length = data.length - p := by
      unfold msgSub sizeMax
      simp only [List.length_take, List.length_drop]
      omega
    omega

/-- … and the end of its bytes, or of the input if that has fewer, for a message with a size prefix. Unsuccessful reading stays in
front of it, too. -/
theorem C32_to_the_size (d : Nat) (c : Cfg) (data : List UInt8) (sz : Option SizeTy) (ok : Bool) (maps : List (Nat × Nat))
    (nums : List (Option Nat)) (fs : List Ty) (old o : Val) (p n p1 : Nat) (henv : ∀ i, widthsOk (c.env i) = true)
    (hw : ∀ t ∈ fs, widthsOk t = true) (hp : p1 ≤ data.length) (hl : data.length < 2 ^ 64) (hsz : sz.getD c.dsz ≠ .none)
    (hn : decode 1 c (sizeInt (sz.getD c.dsz)) o data p = ⟨.ok, .num n, p1⟩) :
    let r := decode (d + 1) c (.msg sz ok maps nums fs) old data p
    p1 ≤ r.p ∧ r.p ≤ p1 + n ∧ (r.s = .ok → r.p = min (p1 + n) data.length) := by
  intro r
  have hr : r = _ := C32_inside d c data sz ok maps nums fs old o p n p1 hsz hn hl
  have hp' : p1 ≤ (data.take (p1 + n)).length := by rw [List.length_take]; omega
  have h1 := C32_pb_safe (d + 1) c (data.take (p1 + n)) (some .none) ok maps nums fs old p1 henv hw hp'
  simp only [← hr, List.length_take] at h1
  refine ⟨h1.2.1, by omega, fun hok => ?_⟩
  have h2 := C32_to_the_end (d + 1) c (data.take (p1 + n)) (some .none) ok maps nums fs old p1 henv hw hp'
    (by rw [List.length_take]; omega) rfl (by rw [← hr]; exact hok)
  rw [hr, h2, List.length_take]

/-- Two messages one behind the other. The second byte of the string in the first one would be in the second one. -/
example :
    let c := Checks.le Checks.grow (.fixed 1)
    let t := Checks.msg [Checks.str]
    decode 1 c (sizeInt (.fixed 1)) .unit [3, 10, 2, 65, 2, 10, 0] 0 = ⟨.ok, .num 3, 1⟩ ∧
    (decode 9 c t (.list [.list []]) [3, 10, 2, 65, 2, 10, 0] 0).s = .err .resultOutOfRange ∧
    decMany 9 c [3, 10, 1, 65, 2, 10, 0] [(t, .list [.list []]), (t, .list [.list [.num 7]])] 0 =
      ⟨.ok, [.list [.list [.num 65]], .list [.list []]], 7⟩ := by decide +kernel

end Zpp.Props
