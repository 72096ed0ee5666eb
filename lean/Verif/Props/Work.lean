import Verif.Proof.Work
import Verif.Proof.WorkCounts
import Verif.Proof.InRound
import Verif.Props.Depth
import Verif.Checks2
/-!
# Properties of input archives: work in exchange for input
-/

namespace Zpp.Props
open Zpp Zpp.Spec

/-! ## C82: the work of reading is linear in the input -/

/-- C82. If everything a byte of input can multiply takes input itself (`affordable`, `PricesOk`), a call visits at most `k`
objects for each byte it consumes, and a number of objects that depends on the types only. This holds for every input,
whatever the outcome of the call, without any allocation limit, for recursive classes and for messages as well. -/
theorem C82_visits (pr : Prices) (k d : Nat) (c : Cfg) (data : List UInt8) (items : List (Ty × Val)) (p : Nat) (hk : 2 ≤ k)
    (hso : ∀ t, 0 < c.sizeof t) (henv : ∀ i, widthsOk (c.env i) = true) (hpr : PricesOk pr 0 k c)
    (hw : ∀ it ∈ items, widthsOk it.1 = true ∧ affordable pr 0 k c.dsz it.1 = true) (hp : p ≤ data.length) :
    workMany 0 d c data items p ≤ leadWorkL pr 0 c.dsz (items.map Prod.fst) + k * ((decMany d c data items p).p - p) := by
  have h1 := decMany_billed (q := 0) (d := d) (data := data) (by omega) (.inl rfl) hso henv hpr items p
    (fun it h => (hw it h).1) (fun it h => (hw it h).2) hp
  rw [Nat.mul_sub]
  omega

/-- C82, counting also the elements created when containers are resized: with an allocation limit of `r` bytes the sum of the
objects visited and the elements created is at most `k` for each byte consumed, apart from a number that depends on the types
only. -/
theorem C82_work (pr : Prices) (r k d : Nat) (c : Cfg) (data : List UInt8) (items : List (Ty × Val)) (p : Nat) (hk : 2 + r ≤ k)
    (hlim : c.g.limit ≤ r) (hset : c.g.limit ≠ sizeMax)
    (hso : ∀ t, 0 < c.sizeof t) (henv : ∀ i, widthsOk (c.env i) = true) (hpr : PricesOk pr r k c)
    (hw : ∀ it ∈ items, widthsOk it.1 = true ∧ affordable pr r k c.dsz it.1 = true) (hp : p ≤ data.length) :
    workMany 1 d c data items p ≤ leadWorkL pr r c.dsz (items.map Prod.fst) + k * ((decMany d c data items p).p - p) := by
  have h1 := decMany_billed (q := 1) (d := d) (data := data) hk (.inr ⟨hset, by omega⟩) hso henv hpr items p
    (fun it h => (hw it h).1) (fun it h => (hw it h).2) hp
  rw [Nat.mul_sub]
  omega

/-- C82: the condition is needed, and the allocation limit does not replace it. A set of objects that take no input is read
with as many visits as its size prefix announces, whatever the limit: ten bytes are enough for 2^64 - 1 visits. -/
theorem C82_unpaid (d q : Nat) (c : Cfg) (n : Nat) (pre : List UInt8) (old : Val) (multi hashed : Bool) (hdsz : c.dsz ≠ .none)
    (hpre : sizePrefix (fmtOf c) c.dsz n = some pre) :
    work q (d + 2) c (.assoc multi hashed none .empty none) old pre 0 = n + 1 ∧
      (decode (d + 2) c (.assoc multi hashed none .empty none) old pre 0).s = .ok := by
  have h1 := decHdr_rd (c := c) (data := pre) (rest := []) (p := 0) hdsz hpre (Nat.zero_le _) (by simp)
  have he : effSz c none = c.dsz := rfl
  constructor
  · have hall : ∀ n p, workAssoc (fun p => decode (d + 1) c .empty (dflt c (d + 1) .empty) pre p)
        (fun p => work q (d + 1) c .empty (dflt c (d + 1) .empty) pre p) n p = n := by
      intro n
      induction n with
      | zero => intro p; rfl
      | succ n ih =>
        intro p
        simp only [workAssoc]
        rw [show decode (d + 1) c .empty (dflt c (d + 1) .empty) pre p = ⟨.ok, .unit, p⟩ from rfl]
        simp only [ih]
        simp only [work]
        omega
    have hall := hall n (0 + pre.length)
    simp only [work] at hall
    simp only [work, he, h1]
    omega
  · have hall : ∀ (ins : Val → List Val → List Val) n vs p,
        (decAssoc (fun p => decode (d + 1) c .empty (dflt c (d + 1) .empty) pre p) ins n vs p).s = .ok := by
      intro ins n
      induction n with
      | zero => intro vs p; rfl
      | succ n ih =>
        intro vs p
        simp only [decAssoc]
        rw [show decode (d + 1) c .empty (dflt c (d + 1) .empty) pre p = ⟨.ok, .unit, p⟩ from rfl]
        exact ih _ _
    rw [decode.eq_def]
    simp only [he, h1, ResL.toRes, hall]

/-- `sizeof` of the examples is positive. -/
theorem so_pos : ∀ t : Ty, 0 < Checks.so t
  | .array n t => by
    have := so_pos t
    simp only [Checks.so]
    exact Nat.mul_pos (by omega) this
  | .scalar _ _ | .bool | .varint _ _ | .empty | .struct _ _ | .msg _ _ _ _ _ | .bitset _ | .seq _ _ _ | .assoc _ _ _ _ _
  | .optional _ _ | .optPtr _ | .uptr _ | .variant _ _ _ _ | .ref _ => by simp only [Checks.so]; omega

/-- A class of linked nodes pays: `nodeTy` is a number and an optional next node. -/
def nodePrices : Prices := ⟨fun _ => true, fun _ => 3⟩

-- A recursive class meets the conditions, at four visits a byte.
example : PricesOk nodePrices 0 4 nodeCfg := ⟨
  fun _ _ => (by decide +kernel : takesInput nodePrices (.fixed 4) nodeTy = true ∧ takesInput nodePrices .varint nodeTy = true),
  fun _ => (by decide +kernel : leadWork nodePrices 0 (.fixed 4) nodeTy ≤ 3 ∧ leadWork nodePrices 0 .varint nodeTy ≤ 3),
  fun _ => (by decide +kernel : affordable nodePrices 0 4 (.fixed 4) nodeTy = true ∧ affordable nodePrices 0 4 .varint nodeTy = true)⟩
example : affordable nodePrices 0 4 nodeCfg.dsz (.seq .vector none (.ref 0)) = false ∧
    affordable nodePrices 0 5 nodeCfg.dsz (.seq .vector none (.ref 0)) = true := by decide +kernel
-- Two nodes: ten bytes, eight visits (for each node the reference, the class, the number and the pointer).
example : workMany 0 20 nodeCfg [7, 0, 0, 0, 1, 8, 0, 0, 0, 0] [(.ref 0, .unit)] 0 = 8 ∧
    (decMany 20 nodeCfg [7, 0, 0, 0, 1, 8, 0, 0, 0, 0] [(.ref 0, .unit)] 0).s = .ok := by decide +kernel
-- Messages: a repeated member of messages.
example : affordable ⟨fun _ => false, fun _ => 0⟩ 0 3 (.fixed 4) Checks.person = true ∧
    workMany 0 20 (Checks.le Checks.grow (.fixed 4)) Checks.johnBytes [(Checks.person, .list [])] 0 ≤ 3 * Checks.johnBytes.length := by
  decide +kernel
-- What a failing call created counts: a byte announces 48 characters that are not there.
def workLimit : Cfg := Checks.le { Checks.grow with limit := 48 } (.fixed 1)
example : affordable ⟨fun _ => false, fun _ => 0⟩ 48 50 workLimit.dsz (.seq .vector none Checks.str) = true ∧
    workMany 1 9 workLimit [2, 48] [(.seq .vector none Checks.str, .list [])] 0 = 52 ∧
    (decMany 9 workLimit [2, 48] [(.seq .vector none Checks.str, .list [])] 0).s = .err .resultOutOfRange := by decide +kernel
-- `C82_unpaid` with the largest size: 2^64 - 1 visits for ten bytes.
example : sizePrefix (fmtOf (Checks.le Checks.grow .varint)) .varint (2 ^ 64 - 1) =
    some [255, 255, 255, 255, 255, 255, 255, 255, 255, 1] := by decide +kernel

/-- The objects found in what a call read, destination by destination. -/
def objectsRead (k : Nat) (c : Cfg) (items : List (Ty × Val)) (vs : List Val) : Nat :=
  ((items.zip vs).map fun x => objectsIn k c x.1.1 x.2).sum

/-- C82, the other side: nothing read goes uncounted. When a call succeeds its work is at least the number of objects found
in the destinations, to any level. -/
theorem C82_counts (q k d : Nat) (c : Cfg) (data : List UInt8) : ∀ (items : List (Ty × Val)) (p : Nat),
    (decMany d c data items p).s = .ok →
    objectsRead k c items (decMany d c data items p).vs ≤ workMany q d c data items p
  | [], _, _ => by simp [objectsRead]
  | (t, o) :: rest, p, h => by
    simp only [decMany, workMany] at h ⊢
    generalize hr : decode d c t o data p = r at h ⊢
    obtain ⟨s, v, p'⟩ := r
    cases s
    case ok =>
      have h1 := decode_counts q c data d k t o p v p' hr
      have h2 := C82_counts q k d c data rest p' h
      simp only [objectsRead, List.zip_cons_cons, List.map_cons, List.sum_cons] at h2 ⊢
      omega
    all_goals cases h

-- The two nodes above hold eight objects, all of them counted; a vector of strings holds itself and its strings.
example : let r := decMany 20 nodeCfg [7, 0, 0, 0, 1, 8, 0, 0, 0, 0] [(.ref 0, .unit)] 0
    r.s = .ok ∧ objectsRead 10 nodeCfg [(.ref 0, .unit)] r.vs = 8 := by decide +kernel
example : let r := decMany 9 workLimit [2, 1, 65, 1, 66] [(.seq .vector none Checks.str, .list [])] 0
    r.s = .ok ∧ objectsRead 10 workLimit [(.seq .vector none Checks.str, .list [])] r.vs = 3 ∧
    workMany 0 9 workLimit [2, 1, 65, 1, 66] [(.seq .vector none Checks.str, .list [])] 0 = 3 := by decide +kernel
-- A message of 45 bytes: itself, four tags and members, and for the nested message two tags and members.
-- Resizing three strings to 8, 16 and 8 characters adds to it.
example : workMany 0 20 (Checks.le Checks.grow .none) Checks.johnBytes [(Checks.person, .list [])] 0 = 13 ∧
    workMany 1 20 (Checks.le Checks.grow .none) Checks.johnBytes [(Checks.person, .list [])] 0 = 45 := by decide +kernel
-- A packed member: the message, a tag, and three varints; or the message, a tag and one block of two numbers, both created.
example : workMany 1 20 (Checks.le Checks.grow .none) [0x0a, 3, 1, 2, 3] [(Checks.msg [Checks.vec Checks.vint32], .list [])] 0 = 5 ∧
    workMany 0 20 (Checks.le Checks.grow .none) [0x0a, 8, 1, 2, 3, 4, 5, 6, 7, 8] [(Checks.msg [Checks.vec Checks.i32], .list [])] 0 = 3 ∧
    workMany 1 20 (Checks.le Checks.grow .none) [0x0a, 8, 1, 2, 3, 4, 5, 6, 7, 8] [(Checks.msg [Checks.vec Checks.i32], .list [])] 0 = 5 := by
  decide +kernel
-- The entries of a map member.
example : workMany 1 20 (Checks.le Checks.grow .none) Checks.johnBytes [(Checks.personM, .list [])] 0 = 45 := by decide +kernel
-- The object a call fails in is counted, wherever it is. Every input ends inside the second of two objects.
def workCut : Cfg := Checks.le Checks.grow (.fixed 1)
example : [(.assoc false false none Checks.i32 none, [2, 1, 0, 0, 0, 2]), (.assoc false false none Checks.i32 (some Checks.i32), [2, 1, 0, 0, 0, 5, 0, 0, 0, 2]),
    (.assoc false false none Checks.i32 (some Checks.i32), [2, 1, 0, 0, 0, 5, 0, 0, 0, 2, 0, 0, 0, 1]), (Checks.vec Checks.str, [2, 1, 65, 9, 66]),
    (.struct false [Checks.str, Checks.str], [1, 65, 9, 66]), (.array 2 Checks.str, [1, 65, 9, 66]),
    (.variant (.scalar .byte 1) [.num 0] [true] [Checks.str], [0, 9, 66]), (.optional true Checks.str, [1, 9, 66]),
    (.optPtr Checks.str, [1, 9, 66]), (.uptr Checks.str, [9, 66])].map
      (fun x => (workMany 0 9 workCut x.2 [(x.1, dflt workCut 9 x.1)] 0, decide ((decMany 9 workCut x.2 [(x.1, dflt workCut 9 x.1)] 0).s = .ok))) =
    [(3, false), (4, false), (5, false), (3, false), (3, false), (3, false), (3, false), (2, false), (2, false), (2, false)] := by
  decide +kernel

end Zpp.Props
