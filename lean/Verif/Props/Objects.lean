import Verif.Proof.Objects
import Verif.Props.Depth
import Verif.Props.RoundTrip2
/-!
# Destinations are valid objects after every read
-/

namespace Zpp.Props
open Zpp Zpp.Spec

/-- C76. Whatever the input and the outcome of the call (success, an error, an exception for lack of memory), every
destination that was a valid object of its type is one afterwards. The stack is assumed to suffice for the input (C60) and
for the nesting of new objects. -/
theorem C76_valid (R S L : Nat) (rank layer : Nat → Nat) (d : Nat) (c : Cfg) (data : List UInt8) (items : List (Ty × Val))
    (ha : AbiOk c.sizeof) (henv : ∀ i, widthsOk (c.env i) = true) (hfenv : ∀ i, formed (c.env i) = true)
    (hlt : ∀ key, WeakOrder (c.keyLt key)) (hcc : CyclesCost c R S rank) (hL : Layered c.env L layer) :
    ∀ p, (∀ it ∈ items, widthsOk it.1 = true) → (∀ it ∈ items, formed it.1 = true) → p ≤ data.length →
    heightL (items.map Prod.fst) + (S + 1) * R * (data.length - p + 1) + (S + 1) * L ≤ d →
    (∀ it ∈ items, Object c.env c.keyLt it.1 it.2) →
    Objects c.env c.keyLt (items.map Prod.fst) (decMany d c data items p).vs := by
  induction items with
  | nil => intro p _ _ _ _ _; exact .nil
  | cons it items ih =>
    obtain ⟨t, o⟩ := it
    intro p hw hf hp hd ho
    unfold decMany
    simp only [List.map_cons, heightL, Nat.mul_add, Nat.mul_one] at hd
    have h0 := decode_safe d c t o data p henv (hw (t, o) (by simp)) hp
    have h1 := decode_object d c t o data p R ha henv hfenv hlt hcc hL (hw (t, o) (by simp)) (hf (t, o) (by simp)) hp
      (fun j _ => hcc.below j) (Nat.le_refl _) (by unfold budget; omega) (ho (t, o) (by simp))
    have hrest : ∀ its : List (Ty × Val), (∀ it ∈ its, Object c.env c.keyLt it.1 it.2) →
        Objects c.env c.keyLt (its.map Prod.fst) (its.map Prod.snd) := by
      intro its
      induction its with
      | nil => intro _; exact .nil
      | cons a as ih2 => intro h; exact .cons (h a (by simp)) (ih2 fun x hx => h x (by simp [hx]))
    have hrest := hrest items fun x hx => ho x (by simp [hx])
    generalize decode d c t o data p = r at *
    obtain ⟨s, v, p'⟩ := r
    cases s
    · have h2 := h0.mono
      have h3 := Nat.mul_le_mul_left ((S + 1) * R) (show data.length - p' ≤ data.length - p by dsimp only at h2; omega)
      exact .cons h1 (ih p' (fun it hit => hw it (by simp [hit])) (fun it hit => hf it (by simp [hit])) h0.inb
        (by rw [Nat.mul_add, Nat.mul_one]; omega) (fun it hit => ho it (by simp [hit])))
    all_goals exact .cons h1 hrest

/-- The same variables read again and again, each time from another input and position, whatever the outcomes. -/
def readInto (d : Nat) (c : Cfg) (ts : List Ty) : List (List UInt8 × Nat) → List Val → List Val
  | [], vs => vs
  | (data, p) :: rest, vs => readInto d c ts rest (decMany d c data (ts.zip vs) p).vs

/-- C76, histories: variables may be reused as destinations after any successful and failed reads; they are valid objects
all the time. -/
theorem C76_reused (R S L : Nat) (rank layer : Nat → Nat) (d : Nat) (c : Cfg) (ts : List Ty)
    (ha : AbiOk c.sizeof) (henv : ∀ i, widthsOk (c.env i) = true) (hfenv : ∀ i, formed (c.env i) = true)
    (hlt : ∀ key, WeakOrder (c.keyLt key)) (hcc : CyclesCost c R S rank) (hL : Layered c.env L layer)
    (hw : ∀ t ∈ ts, widthsOk t = true) (hf : ∀ t ∈ ts, formed t = true) :
    ∀ (inputs : List (List UInt8 × Nat)) (vs : List Val),
    (∀ x ∈ inputs, x.2 ≤ x.1.length ∧ heightL ts + (S + 1) * R * (x.1.length - x.2 + 1) + (S + 1) * L ≤ d) →
    Objects c.env c.keyLt ts vs → Objects c.env c.keyLt ts (readInto d c ts inputs vs) := by
  intro inputs
  induction inputs with
  | nil => intro vs _ h; exact h
  | cons x inputs ih =>
    intro vs hx h
    obtain ⟨data, p⟩ := x
    have hl := h.mem
    have e1 : (ts.zip vs).map Prod.fst = ts := by rw [List.map_fst_zip (by omega)]
    have hz : ∀ (ts : List Ty) (vs : List Val), Objects c.env c.keyLt ts vs → ∀ it ∈ ts.zip vs, Object c.env c.keyLt it.1 it.2 := by
      intro ts
      induction ts with
      | nil => intro vs _ it hit; simp at hit
      | cons t ts ih2 =>
        intro vs h it hit
        cases h with
        | cons h1 h2 =>
          rcases List.mem_cons.1 hit with rfl | hit
          · exact h1
          · exact ih2 _ h2 it hit
    have h1 := hx (data, p) (by simp)
    have := C76_valid R S L rank layer d c data (ts.zip vs) ha henv hfenv hlt hcc hL p
      (fun it hit => hw it.1 (List.of_mem_zip hit).1) (fun it hit => hf it.1 (List.of_mem_zip hit).1) h1.1
      (by rw [e1]; exact h1.2) (hz ts vs h)
    rw [e1] at this
    exact ih _ (fun x h => hx x (by simp [h])) this

/-- C76, variants: a variant that holds a value holds one after every read, of any outcome. -/
theorem C76_never_valueless (R S L : Nat) (rank layer : Nat → Nat) (d : Nat) (c : Cfg) (data : List UInt8) (idTy : Ty)
    (ids : List Val) (dcs : List Bool) (alts : List Ty) (old : Val) (p : Nat)
    (ha : AbiOk c.sizeof) (henv : ∀ i, widthsOk (c.env i) = true) (hfenv : ∀ i, formed (c.env i) = true)
    (hlt : ∀ key, WeakOrder (c.keyLt key)) (hcc : CyclesCost c R S rank) (hL : Layered c.env L layer)
    (hw : widthsOk (.variant idTy ids dcs alts) = true) (hf : formed (.variant idTy ids dcs alts) = true) (hp : p ≤ data.length)
    (hd : height (.variant idTy ids dcs alts) + (S + 1) * R * (data.length - p + 1) + (S + 1) * L ≤ d)
    (ho : Object c.env c.keyLt (.variant idTy ids dcs alts) old) :
    ∃ i t v, (decode d c (.variant idTy ids dcs alts) old data p).v = .alt i v ∧ alts[i]? = some t ∧ Object c.env c.keyLt t v := by
  rw [Nat.mul_add, Nat.mul_one] at hd
  have h := decode_object d c _ old data p R ha henv hfenv hlt hcc hL hw hf hp (fun j _ => hcc.below j) (Nat.le_refl _)
    (by unfold budget; omega) ho
  generalize (decode d c (.variant idTy ids dcs alts) old data p).v = v at h
  cases h with
  | variant hi h => exact ⟨_, _, _, rfl, hi, h⟩

/-! ## The hypotheses are met -/

-- A linked list of nodes, as in C60: no node stores a node in its own memory.
example : Layered nodeCfg.env 1 (fun _ => 0) :=
  ⟨fun _ => by decide, fun i j hj => by simp [nodeCfg, nodeTy, stored, storedL] at hj⟩
example : widthsOk nodeTy = true ∧ formed nodeTy = true := by decide +kernel
example : Object nodeCfg.env nodeCfg.keyLt (.ref 0) (.list [.num 7, .none]) :=
  .ref (.struct (.cons (.scalar (by decide)) (.cons .nullPtr .nil)))

/-- A vector of variants of a string and a number, then a set. -/
def mixTy : Ty :=
  .struct false [.seq .vector none (.variant (.scalar .chr 1) [.num 0, .num 1] [true, true] [Checks.str, Checks.i32]),
    .assoc false false none Checks.chr none]

-- The input ends inside the second of three announced variants: an error, the first two are partly read, the third is new,
-- the set keeps its elements, and the whole is a valid object.
example : decode 9 (Checks.le Checks.grow (.fixed 1)) mixTy (.list [.list [], .list [.num 1, .num 5]]) [3, 1, 7, 0, 0, 0, 0, 4, 97] 0 =
    ⟨.err .resultOutOfRange,
      .list [.list [.alt 1 (.num 7), .alt 0 (.list [.num 0, .num 0, .num 0, .num 0]), .alt 0 (.list [])],
        .list [.num 1, .num 5]], 8⟩ := by decide +kernel

-- The input ends inside the set: it was emptied and filled with the elements found, in order.
example : decode 9 (Checks.le Checks.grow (.fixed 1)) mixTy (.list [.list [], .list [.num 1, .num 5]]) [0, 4, 9, 3, 9] 0 =
    ⟨.err .resultOutOfRange, .list [.list [], .list [.num 3, .num 9]], 5⟩ := by decide +kernel

end Zpp.Props
