import Verif.Proof.InDepth
import Verif.Proof.InRound
import Verif.Props.Output
/-!
# Properties of input archives: how much input, memory and stack an object takes
-/

namespace Zpp.Props
open Zpp Zpp.Spec

/-! ## C59: nothing comes from nothing -/

/-- C59. A successful call reads at least the least size of each of its objects. In particular an input shorter than
that is rejected. -/
theorem C59_least (d : Nat) (c : Cfg) (data : List UInt8) (items : List (Ty × Val)) (p : Nat) (ha : AbiOk c.sizeof)
    (henv : ∀ i, widthsOk (c.env i) = true) (hw : ∀ it ∈ items, widthsOk it.1 = true) (hp : p ≤ data.length)
    (hok : (decMany d c data items p).s = .ok) :
    p + leastBytesL c.sizeof c.dsz (items.map Prod.fst) ≤ (decMany d c data items p).p ∧
    leastBytesL c.sizeof c.dsz (items.map Prod.fst) ≤ data.length - p := by
  have h1 := decMany_least ha henv items p hw hp hok
  have h2 := (decMany_safe (d := d) henv items p hw hp).inb
  exact ⟨h1, by omega⟩

-- An int, a string and an optional take at least 4 + 4 + 1 bytes; nine bytes are enough.
example : leastBytesL Checks.so (.fixed 4) [Checks.i32, Checks.str, .optional true Checks.i32] = 9 := by decide +kernel
example : decMany 9 (Checks.le Checks.grow (.fixed 4)) [1, 0, 0, 0, 0, 0, 0, 0, 0]
      [(Checks.i32, .num 0), (Checks.str, .list []), (.optional true Checks.i32, Val.none)] 0 =
    ⟨.ok, [.num 1, .list [], Val.none], 9⟩ := by decide +kernel
-- A byte less is rejected.
example : (decMany 9 (Checks.le Checks.grow (.fixed 4)) [1, 0, 0, 0, 0, 0, 0, 0]
      [(Checks.i32, .num 0), (Checks.str, .list []), (.optional true Checks.i32, Val.none)] 0).s =
    .err .resultOutOfRange := by decide +kernel

/-- C59, sequences: a container with size prefix that was read successfully has no more elements than the input paid for,
at the least size of an element each. -/
theorem C59_elements (d : Nat) (c : Cfg) (k : SeqKind) (sz : Option SizeTy) (t : Ty) (old : Val) (data : List UInt8)
    (p : Nat) (ha : AbiOk c.sizeof) (henv : ∀ i, widthsOk (c.env i) = true) (hw : widthsOk t = true)
    (hp : p ≤ data.length) (hk : k ≠ .view) (hsz : sz.getD c.dsz ≠ .none)
    (hok : (decode d c (.seq k sz t) old data p).s = .ok) :
    ∃ vs, (decode d c (.seq k sz t) old data p).v = .list vs ∧
      prefixLeast (sz.getD c.dsz) + vs.length * leastBytes c.sizeof c.dsz t ≤ data.length - p := by
  obtain ⟨vs, h1, h2⟩ := decode_elements d c k sz t old data p ha henv hw hp hk hsz hok
  have h3 := (decode_safe d c (.seq k sz t) old data p henv hw hp).inb
  exact ⟨vs, h1, by omega⟩

/-- C59, sets and maps: likewise. -/
theorem C59_entries (d : Nat) (c : Cfg) (multi hashed : Bool) (sz : Option SizeTy) (key : Ty) (mapped : Option Ty) (old : Val)
    (data : List UInt8) (p : Nat) (ha : AbiOk c.sizeof) (henv : ∀ i, widthsOk (c.env i) = true)
    (hw : widthsOk (.assoc multi hashed sz key mapped) = true) (hp : p ≤ data.length)
    (hok : (decode d c (.assoc multi hashed sz key mapped) old data p).s = .ok) :
    ∃ vs, (decode d c (.assoc multi hashed sz key mapped) old data p).v = .list vs ∧
      prefixLeast (sz.getD c.dsz) + vs.length * leastBytesL c.sizeof c.dsz (key :: mapped.toList) ≤ data.length - p := by
  obtain ⟨vs, h1, h2⟩ := decode_entries d c multi hashed sz key mapped old data p ha henv hw hp hok
  have h3 := (decode_safe d c (.assoc multi hashed sz key mapped) old data p henv hw hp).inb
  exact ⟨vs, h1, by omega⟩

-- Three strings, of at least four bytes each.
example : decode 9 (Checks.le Checks.grow (.fixed 4)) (.seq .vector none Checks.str) (.list [])
      [3, 0, 0, 0, 0, 0, 0, 0, 0, 0, 0, 0, 0, 0, 0, 0] 0 = ⟨.ok, .list [.list [], .list [], .list []], 16⟩ := by
  decide +kernel
example : leastBytes Checks.so (.fixed 4) Checks.str = 4 := by decide +kernel
-- A map with two entries, one announced twice.
example : (decode 9 (Checks.le Checks.grow (.fixed 1)) (.assoc false false none Checks.chr (some Checks.chr)) (.list [])
      [3, 5, 7, 5, 8, 1, 2] 0) = ⟨.ok, .list [.list [.num 1, .num 2], .list [.num 5, .num 7]], 7⟩ := by decide +kernel

/-- C59: elements that may take no input are not bounded. A list of objects of an empty class has as many elements as
its size prefix announces. -/
theorem C59_unpaid (d : Nat) (c : Cfg) (n : Nat) (pre : List UInt8) (hdsz : c.dsz ≠ .none)
    (hpre : sizePrefix (fmtOf c) c.dsz n = some pre) (hlim : c.g.limit = sizeMax)
    (hmem : n * c.sizeof .empty ≤ c.g.maxMem) :
    decode (d + 2) c (.seq .list none .empty) (.list []) pre 0 = ⟨.ok, .list (List.replicate n .unit), pre.length⟩ := by
  have h1 := decHdr_rd (c := c) (data := pre) (rest := []) (p := 0) hdsz hpre (Nat.zero_le _) (by simp)
  have hall : ∀ n p, decAll (fun v p => decode (d + 1) c .empty v pre p) (List.replicate n .unit) p =
      ⟨.ok, List.replicate n .unit, p⟩ := by
    intro n
    induction n with
    | zero => intro p; rfl
    | succ n ih =>
      intro p
      rw [List.replicate_succ]
      unfold decAll
      simp only [decode]
      rw [show (fun v p => (⟨.ok, .unit, p⟩ : Res)) = fun v p => decode (d + 1) c .empty v pre p from rfl, ih]
  have he : effSz c none = c.dsz := rfl
  have hfill : seqFill c .list .empty (fun v p => decode (d + 1) c .empty v pre p) (dflt c (d + 1) .empty) (.list []) pre n
      (0 + pre.length) = ⟨.ok, .list (List.replicate n .unit), pre.length⟩ := by
    unfold seqFill
    dsimp only
    rw [if_neg (by simp [hlim]), if_neg (by omega)]
    unfold seqBody
    rw [if_neg (by simp)]
    have hr : resizeVals (Val.elems (.list [])) n (dflt c (d + 1) .empty) = List.replicate n .unit := by
      simp [resizeVals, Val.elems, dflt]
    rw [hr, hall]
    simp [ResL.toRes]
  rw [decode]
  simp only [he]
  cases hz : c.dsz with
  | none => exact absurd hz hdsz
  | _ => rw [hz] at h1; simp only [h1]; exact hfill

-- Four bytes make a list of a million objects.
example : sizePrefix (fmtOf (Checks.le Checks.grow (.fixed 4))) (.fixed 4) 1000000 = some [0x40, 0x42, 0x0f, 0] := by
  decide +kernel

/-- C59: nor is the destination of a read that fails. It has been resized to the announced number of elements, whatever
the input holds. (Only an allocation limit, C16, prevents that.) -/
theorem C59_failed (d : Nat) (c : Cfg) (n : Nat) (pre : List UInt8) (hdsz : c.dsz ≠ .none) (hn : 0 < n)
    (hpre : sizePrefix (fmtOf c) c.dsz n = some pre) (hlim : c.g.limit = sizeMax)
    (hmem : n * c.sizeof (.varint 4 false) ≤ c.g.maxMem) :
    decode (d + 2) c (.seq .vector none (.varint 4 false)) (.list []) pre 0 =
      ⟨.err .resultOutOfRange, .list (List.replicate n (.num 0)), pre.length⟩ := by
  have h1 := decHdr_rd (c := c) (data := pre) (rest := []) (p := 0) hdsz hpre (Nat.zero_le _) (by simp)
  obtain ⟨n, rfl⟩ : ∃ m, n = m + 1 := ⟨n - 1, by omega⟩
  have he : effSz c none = c.dsz := rfl
  have hv : decode (d + 1) c (.varint 4 false) (.num 0) pre pre.length = ⟨.err .resultOutOfRange, .num 0, pre.length⟩ := by
    simp only [decode]
    unfold getVarint
    rw [if_neg (by omega)]
    have hd : pre.drop pre.length = [] := by simp
    rw [hd]
    rfl
  have hfill : seqFill c .vector (.varint 4 false) (fun v p => decode (d + 1) c (.varint 4 false) v pre p)
      (dflt c (d + 1) (.varint 4 false)) (.list []) pre (n + 1) (0 + pre.length) =
      ⟨.err .resultOutOfRange, .list (List.replicate (n + 1) (.num 0)), pre.length⟩ := by
    unfold seqFill
    dsimp only
    rw [if_neg (by simp [hlim]), if_neg (by omega)]
    unfold seqBody
    rw [if_neg (by simp [asBytes, Ty.endianIndep, Ty.byteSer])]
    have hr : resizeVals (Val.elems (.list [])) (n + 1) (dflt c (d + 1) (.varint 4 false)) =
        .num 0 :: List.replicate n (.num 0) := by
      simp [resizeVals, Val.elems, dflt, List.replicate_succ]
    rw [hr]
    unfold decAll
    rw [Nat.zero_add, hv]
    simp [ResL.toRes, List.replicate_succ]
  rw [decode]
  simp only [he]
  cases hz : c.dsz with
  | none => exact absurd hz hdsz
  | _ => rw [hz] at h1; simp only [h1]; exact hfill

/-! ## C60: stack depth -/

/-- C60. If every cycle through the named classes costs input, reading needs stack at most linear in the rest of the
input: the nesting of the types, plus, once more than there are bytes left, the nesting of all definitions. -/
theorem C60_linear (R S : Nat) (rank : Nat → Nat) (d : Nat) (c : Cfg) (data : List UInt8) (items : List (Ty × Val))
    (ha : AbiOk c.sizeof) (henv : ∀ i, widthsOk (c.env i) = true) (hcc : CyclesCost c R S rank) :
    ∀ p, (∀ it ∈ items, widthsOk it.1 = true) → p ≤ data.length →
    heightL (items.map Prod.fst) + (S + 1) * R * (data.length - p + 1) ≤ d →
    (decMany d c data items p).s ≠ .stack := by
  induction items with
  | nil => intro p _ _ _; simp [decMany]
  | cons it items ih =>
    obtain ⟨t, o⟩ := it
    intro p hw hp hd
    unfold decMany
    simp only [List.map_cons, heightL, Nat.mul_add, Nat.mul_one] at hd
    have h1 := decode_n d c t o data p R ha henv hcc (hw (t, o) (by simp)) hp (fun j _ => hcc.below j) (Nat.le_refl _)
      (by unfold budget; omega)
    generalize decode d c t o data p = r at *
    obtain ⟨s, v, p'⟩ := r
    cases s
    · have h2 := h1.mono
      have h3 := Nat.mul_le_mul_left ((S + 1) * R) (show data.length - p' ≤ data.length - p by dsimp only at h2; omega)
      exact ih p' (fun it hit => hw it (by simp [hit])) h1.inb (by rw [Nat.mul_add, Nat.mul_one]; omega)
    all_goals exact h1.code

/-- `struct node { int value; zpp::bits::optional_ptr<node> next; }` -/
def nodeTy : Ty := .struct false [.scalar .int 4, .optPtr (.ref 0)]
def nodeCfg : Cfg := { Checks.le Checks.grow (.fixed 4) with env := fun _ => nodeTy }

-- A cycle through `node` costs five bytes.
example : CyclesCost nodeCfg 1 3 (fun _ => 0) := by
  refine ⟨fun _ => by decide, fun _ => (by decide +kernel : height nodeTy ≤ 3), ?_, ?_⟩
  all_goals
    intro i j hj
    simp [nodeCfg, nodeTy, freeRefs, freeRefsL, leastBytes] at hj

/-- `struct chain { zpp::bits::optional_ptr<chain> next; }` -/
def chainTy : Ty := .struct false [.optPtr (.ref 0)]

/-- C60: the bound is of the right order. The stack an input needs can grow with every byte of it: `n` bytes of 1 drive
the reader of a linked list `n` objects deep, so a reader with less stack runs out of it. -/
theorem C60_deep (c : Cfg) (henv : ∀ i, c.env i = chainTy) : ∀ (n d : Nat) (old : Val) (data : List UInt8) (p : Nat),
    d ≤ 3 * n → (∀ i, i < n → data[p + i]? = some 1) → (decode d c (.ref 0) old data p).s = .stack := by
  intro n
  induction n with
  | zero => intro d old data p hd _; have : d = 0 := by omega
            subst this; rfl
  | succ n ih =>
    intro d old data p hd hdata
    have hb : asBytes c chainTy = false := by simp [asBytes, chainTy, Ty.endianIndep, Ty.byteSer]
    match d with
    | 0 => rfl
    | 1 => rfl
    | 2 => simp [decode, henv, chainTy, show asBytes c (.struct false [.optPtr (.ref 0)]) = false from hb, decFields,
            ResL.toRes]
    | d + 3 =>
      have h0 : data[p]? = some 1 := by simpa using hdata 0 (by omega)
      have hlt : p < data.length := by
        rcases Nat.lt_or_ge p data.length with h | h
        · exact h
        · simp [List.getElem?_eq_none h] at h0
      have hg : getBytes data p 1 = (.ok, [1], p + 1) := by
        have hd1 : data.drop p = 1 :: data.drop (p + 1) := by
          rw [List.drop_eq_getElem_cons hlt]
          rw [List.getElem?_eq_getElem hlt] at h0
          simp only [Option.some.injEq] at h0
          rw [h0]
        exact getBytes_rd (bs := [1]) (Nat.le_of_lt hlt) hd1
      have h1 := ih d (dflt c d (.ref 0)) data (p + 1) (by omega) (fun i hi => by
        have := hdata (i + 1) (by omega)
        rwa [show p + 1 + i = p + (i + 1) by omega])
      simp only [decode, henv, chainTy]
      rw [if_neg (by simp [show asBytes c (.struct false [.optPtr (.ref 0)]) = false from hb])]
      simp only [decFields, hg]
      rw [if_neg (by decide)]
      generalize decode d c (.ref 0) (dflt c d (.ref 0)) data (p + 1) = r at h1 ⊢
      obtain ⟨s, v, p'⟩ := r
      simp only at h1
      subst h1
      rfl

-- Three bytes followed by 0 are read with enough stack, and not with less.
example : (decode 13 { Checks.le Checks.grow (.fixed 4) with env := fun _ => chainTy } (.ref 0) .unit [1, 1, 1, 0] 0).s = .ok := by
  decide +kernel
example : (decode 9 { Checks.le Checks.grow (.fixed 4) with env := fun _ => chainTy } (.ref 0) .unit [1, 1, 1, 0] 0).s = .stack := by
  decide +kernel

end Zpp.Props
