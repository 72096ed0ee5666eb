import Verif.Proof.InRefuse
import Verif.Props.Input2
/-!
# Limits on reading only refuse; what a failed read leaves behind
-/

namespace Zpp.Props
open Zpp Zpp.Spec

/-- C77. Compare two readers that differ only in their allocation limit and in the memory their containers can get. On
every input the one that allows less either refuses for lack of room or does exactly what the other does: the same result,
the same objects and the same position. -/
theorem C77_same_or_refused (d : Nat) (c : Cfg) (g' : Growth) (hg : Looser c.g g') (data : List UInt8) (items : List (Ty × Val))
    (p : Nat) :
    decMany d c data items p = decMany d { c with g := g' } data items p ∨ Refused (decMany d c data items p).s :=
  decMany_tight hg d c rfl data items p

/-- C77: raising or removing a limit changes no successful read. -/
theorem C77_success_kept (d : Nat) (c : Cfg) (g' : Growth) (hg : Looser c.g g') (data : List UInt8) (items : List (Ty × Val))
    (p : Nat) (h : (decMany d c data items p).s = .ok) :
    decMany d { c with g := g' } data items p = decMany d c data items p := by
  rcases C77_same_or_refused d c g' hg data items p with h1 | h1
  · exact h1.symm
  · exact absurd h h1.ne_ok

/-- C77: setting or lowering a limit cannot make a failing read succeed. -/
theorem C77_failure_kept (d : Nat) (c : Cfg) (g' : Growth) (hg : Looser c.g g') (data : List UInt8) (items : List (Ty × Val))
    (p : Nat) (h : (decMany d { c with g := g' } data items p).s ≠ .ok) : (decMany d c data items p).s ≠ .ok := by
  rcases C77_same_or_refused d c g' hg data items p with h1 | h1
  · rw [h1]; exact h
  · exact h1.ne_ok

/-- The same archive with another limit. -/
def limited (L : Nat) : Cfg := Checks.le { Checks.grow with limit := L } (.fixed 1)

theorem limited_looser : Looser (limited 8).g { Checks.grow with limit := 12 } :=
  ⟨.inr ⟨by decide +kernel, by decide +kernel⟩, by decide +kernel⟩

-- Three elements of four bytes: refused with alloc_limit<8>, read with alloc_limit<12>; two elements: the same with both;
-- three announced and one present: refused with one limit, cut off with the other.
example :
    decMany 9 (limited 8) [3, 1, 0, 0, 0, 2, 0, 0, 0, 3, 0, 0, 0] [(.seq .vector none Checks.i32, .list [])] 0 =
      ⟨.err .messageSize, [.list []], 1⟩ ∧
    decMany 9 (limited 12) [3, 1, 0, 0, 0, 2, 0, 0, 0, 3, 0, 0, 0] [(.seq .vector none Checks.i32, .list [])] 0 =
      ⟨.ok, [.list [.num 1, .num 2, .num 3]], 13⟩ ∧
    decMany 9 (limited 8) [2, 1, 0, 0, 0, 2, 0, 0, 0] [(.seq .vector none Checks.i32, .list [])] 0 =
      decMany 9 (limited 12) [2, 1, 0, 0, 0, 2, 0, 0, 0] [(.seq .vector none Checks.i32, .list [])] 0 ∧
    (decMany 9 (limited 12) [3, 1, 0, 0, 0] [(.seq .vector none Checks.i32, .list [])] 0).s = .err .resultOutOfRange := by
  decide +kernel

/-! ## What a failed read leaves behind -/

/-- C78. A failing call read some of its destinations completely, exactly as the call with these destinations alone does,
stopped inside the next one, and did not touch the rest. -/
theorem C78_call (d : Nat) (c : Cfg) (data : List UInt8) : ∀ (items : List (Ty × Val)) (p : Nat),
    (decMany d c data items p).s ≠ .ok →
    ∃ (done : List (Ty × Val)) (t : Ty) (o : Val) (untouched : List (Ty × Val)) (vs : List Val) (q : Nat),
      items = done ++ (t, o) :: untouched ∧ decMany d c data done p = ⟨.ok, vs, q⟩ ∧
      decMany d c data items p = ⟨(decode d c t o data q).s, vs ++ (decode d c t o data q).v :: untouched.map Prod.snd,
        (decode d c t o data q).p⟩ := by
  intro items
  induction items with
  | nil => intro p h; exact absurd rfl h
  | cons it items ih =>
    obtain ⟨t, o⟩ := it
    intro p h
    unfold decMany at h ⊢
    generalize hr : decode d c t o data p = r at h ⊢
    obtain ⟨s, v, p'⟩ := r
    cases s with
    | ok =>
      obtain ⟨done, t', o', un, vs, q, h1, h2, h3⟩ := ih p' h
      refine ⟨(t, o) :: done, t', o', un, v :: vs, q, by rw [h1]; rfl, ?_, ?_⟩
      · simp only [hr, h2]
      · dsimp only
        rw [h3]
        rfl
    | _ => exact ⟨[], t, o, items, [], p, rfl, rfl, by rw [hr]; rfl⟩

theorem decFields_decMany (d : Nat) (c : Cfg) (data : List UInt8) : ∀ (fs : List Ty) (os : List Val) (p : Nat),
    os.length = fs.length → decFields (fun t v q => decode d c t v data q) fs os p = decMany d c data (fs.zip os) p := by
  intro fs
  induction fs with
  | nil => intro os p _; rfl
  | cons t fs ih =>
    intro os p h
    cases os with
    | nil => simp at h
    | cons o os =>
      simp only [List.length_cons, Nat.add_right_cancel_iff] at h
      rw [List.zip_cons_cons]
      unfold decFields decMany
      dsimp only [List.headD_cons, List.tail_cons]
      generalize decode d c t o data p = r
      obtain ⟨s, v, p'⟩ := r
      cases s with
      | ok => dsimp only; rw [ih os p' h]
      | _ => dsimp only; rw [List.map_snd_zip (by omega)]

theorem decAll_decMany (d : Nat) (c : Cfg) (data : List UInt8) (t : Ty) : ∀ (os : List Val) (p : Nat),
    decAll (fun v q => decode d c t v data q) os p = decMany d c data (os.map (t, ·)) p := by
  intro os
  induction os with
  | nil => intro p; rfl
  | cons o os ih =>
    intro p
    rw [List.map_cons]
    unfold decAll decMany
    generalize decode d c t o data p = r
    obtain ⟨s, v, p'⟩ := r
    cases s with
    | ok => dsimp only; rw [ih p']
    | _ => simp [List.map_map, Function.comp_def]

/-- C78, members. Reading a class that is not copied as a block is reading its members in one call, so `C78_call` tells
which members a failed read filled. -/
theorem C78_members (d : Nat) (c : Cfg) (data : List UInt8) (okB : Bool) (fs : List Ty) (os : List Val) (p : Nat)
    (hb : asBytes c (.struct okB fs) = false) (hlen : os.length = fs.length) :
    decode (d + 1) c (.struct okB fs) (.list os) data p =
      (let r := decMany d c data (fs.zip os) p; ⟨r.s, .list r.vs, r.p⟩) := by
  simp only [decode, hb, Bool.false_eq_true, if_false, Val.elems]
  rw [decFields_decMany d c data fs os p hlen]
  rfl

/-- C78, elements. Reading an array of elements that are not copied as a block is reading its elements in one call. -/
theorem C78_array (d : Nat) (c : Cfg) (data : List UInt8) (t : Ty) (os : List Val) (p : Nat) (hb : asBytes c t = false) :
    decode (d + 1) c (.array os.length t) (.list os) data p =
      (let r := decMany d c data (os.map (t, ·)) p; ⟨r.s, .list r.vs, r.p⟩) := by
  simp only [decode, hb, Bool.false_eq_true, if_false, Val.elems]
  rw [show resizeVals os os.length Val.unit = os by simp [resizeVals], decAll_decMany d c data t os p]
  rfl

/-- C78, containers. Once its size prefix gave `n` and there is room, a resizable container is resized to `n` elements and
these are read in one call: elements before the failing one are complete, later ones are the old or new elements they were
after the resize. -/
theorem C78_container (d : Nat) (c : Cfg) (data : List UInt8) (k : SeqKind) (sz : Option SizeTy) (t : Ty) (os : List Val) (o : Val)
    (p n p1 : Nat) (hk : (k = .vector ∧ asBytes c t = false) ∨ k = .list) (hsz : sz.getD c.dsz ≠ .none)
    (hn : decode 1 c (sizeInt (sz.getD c.dsz)) o data p = ⟨.ok, .num n, p1⟩)
    (hlim : c.g.limit = sizeMax ∨ n ≤ c.g.limit / c.sizeof t) (hmem : n * c.sizeof t ≤ c.g.maxMem) :
    decode (d + 1) c (.seq k sz t) (.list os) data p =
      (let r := decMany d c data ((os.take n ++ List.replicate (n - os.length) (dflt c d t)).map (t, ·)) p1
       ⟨r.s, .list r.vs, r.p⟩) := by
  have h1 : ¬ (c.g.limit ≠ sizeMax ∧ c.g.limit / c.sizeof t < n) := by omega
  have h2 : ¬ c.g.maxMem < n * c.sizeof t := by omega
  rw [decode_seq_int hsz hn]
  rcases hk with ⟨rfl, hb⟩ | rfl
  · simp only [seqFill, if_neg h1, if_neg h2, seqBody, hb]
    rw [if_neg (by simp), decAll_decMany]
    rfl
  · simp only [seqFill, if_neg h1, if_neg h2, seqBody]
    rw [if_neg (by simp), decAll_decMany]
    rfl

theorem getBytes_fail {data : List UInt8} {p n : Nat} (h : (getBytes data p n).1 ≠ .ok) : (getBytes data p n).2.2 = p := by
  unfold getBytes at h ⊢
  split
  · rfl
  · split
    · rename_i h1 h2; rw [if_neg h1, if_pos h2] at h; exact absurd rfl h
    · rfl

theorem decRep_fail {c : Cfg} {t : Ty} {n : Nat} {olds : List Val} {data : List UInt8} {p : Nat}
    (h : (decRep c t n olds data p).s ≠ .ok) : (decRep c t n olds data p).vs = olds ∧ (decRep c t n olds data p).p = p := by
  unfold decRep at h ⊢
  split at h
  · exact absurd rfl h
  · rename_i h0
    rw [if_neg h0]
    have h1 := @getBytes_fail data p (n * c.sizeof t)
    generalize getBytes data p (n * c.sizeof t) = r at h h1 ⊢
    obtain ⟨s, bs, p'⟩ := r
    cases s with
    | ok => exact absurd rfl h
    | _ => exact ⟨rfl, h1 (by simp)⟩

/-- C78, blocks. A class that is copied as a block, and the elements of an array or vector that are, are read completely or
not at all: after a failure they are as before (new elements of the vector are as the resize made them) and the position is
where the block should have been. -/
theorem C78_block (d : Nat) (c : Cfg) (data : List UInt8) (t : Ty) (o : Val) (os : List Val) (n p : Nat) (h : asBytes c t = true) :
    (∀ okB fs, t = .struct okB fs → (decode (d + 1) c t o data p).s ≠ .ok →
      (decode (d + 1) c t o data p).v = o ∧ (decode (d + 1) c t o data p).p = p) ∧
    ((decode (d + 1) c (.array os.length t) (.list os) data p).s ≠ .ok →
      (decode (d + 1) c (.array os.length t) (.list os) data p).v = .list os ∧
      (decode (d + 1) c (.array os.length t) (.list os) data p).p = p) ∧
    (∀ sz p1, sz.getD c.dsz ≠ .none → decode 1 c (sizeInt (sz.getD c.dsz)) o data p = ⟨.ok, .num n, p1⟩ →
      (c.g.limit = sizeMax ∨ n ≤ c.g.limit / c.sizeof t) → n * c.sizeof t ≤ c.g.maxMem →
      (decode (d + 1) c (.seq .vector sz t) (.list os) data p).s ≠ .ok →
      (decode (d + 1) c (.seq .vector sz t) (.list os) data p).v =
        .list (os.take n ++ List.replicate (n - os.length) (dflt c d t)) ∧
      (decode (d + 1) c (.seq .vector sz t) (.list os) data p).p = p1) := by
  refine ⟨?_, ?_, ?_⟩
  · intro okB fs ht hs
    subst ht
    simp only [decode, h, if_true] at hs ⊢
    have h2 := decRep_fail hs
    rw [h2.1, h2.2]
    exact ⟨rfl, rfl⟩
  · intro hs
    simp only [decode, h, if_true, ResL.toRes, Val.elems] at hs ⊢
    have h2 := decRep_fail hs
    rw [h2.1, h2.2]
    exact ⟨by simp [resizeVals], rfl⟩
  · intro sz p1 hsz hn hlim hmem hs
    have h1 : ¬ (c.g.limit ≠ sizeMax ∧ c.g.limit / c.sizeof t < n) := by omega
    have h2 : ¬ c.g.maxMem < n * c.sizeof t := by omega
    rw [decode_seq_int hsz hn] at hs ⊢
    simp only [seqFill, if_neg h1, if_neg h2, seqBody] at hs ⊢
    rw [if_pos ⟨by simp, h⟩] at hs ⊢
    have h3 := decRep_fail hs
    exact ⟨congrArg Val.list h3.1, h3.2⟩

/-- A class of a string and a number. -/
def pairTy : Ty := .struct false [.seq .vector none Checks.chr, Checks.i32]

-- The first destination is complete, the second was left after its string, the third is as before.
example :
    asBytes (limited 64) pairTy = false ∧
    decMany 9 (limited 64) [1, 7, 4, 0, 0, 0, 2, 8, 9, 5]
      [(pairTy, .list [.list [], .num 0]), (pairTy, .list [.list [.num 3], .num 6]), (Checks.i32, .num 1)] 0 =
      ⟨.err .resultOutOfRange,
        [.list [.list [.num 7], .num 4], .list [.list [.num 8, .num 9], .num 6], .num 1], 9⟩ := by
  decide +kernel

-- A vector of such classes: three announced, the second ends early; and a vector copied as a block.
example :
    decode 1 (limited 640) (sizeInt (.fixed 1)) .unit [3, 1, 7, 4, 0, 0, 0, 2, 8] 0 = ⟨.ok, .num 3, 1⟩ ∧
    decode 9 (limited 640) (.seq .vector none pairTy) (.list []) [3, 1, 7, 4, 0, 0, 0, 2, 8] 0 =
      ⟨.err .resultOutOfRange, .list [.list [.list [.num 7], .num 4], .list [.list [.num 0, .num 0], .num 0],
        .list [.list [], .num 0]], 8⟩ ∧
    asBytes (limited 64) Checks.i32 = true ∧
    decode 9 (limited 64) (.seq .vector none Checks.i32) (.list [.num 5]) [2, 1, 0, 0, 0, 2] 0 =
      ⟨.err .resultOutOfRange, .list [.num 5, .num 0], 1⟩ := by
  decide +kernel

end Zpp.Props
