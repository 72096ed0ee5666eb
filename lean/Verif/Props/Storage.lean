import Verif.Proof.Storage
import Verif.Checks
/-!
# Properties of input archives: memory in exchange for input
-/

namespace Zpp.Props
open Zpp Zpp.Spec

/-! ## C81: containers grow at most linearly in the input -/

/-- C81. With an allocation limit of at most `m` bytes, and no container elements larger than `m` bytes, what the sequence
containers of the destinations hold, counted at every depth `n`, grows by at most `m` bytes for each byte of the input
consumed. This holds for every input and whatever the outcome of the call, for messages as well. -/
theorem C81_storage (d : Nat) (c : Cfg) (data : List UInt8) (items : List (Ty × Val)) (p m n : Nat)
    (hlim : c.g.limit ≤ m) (hset : c.g.limit ≠ sizeMax)
    (henv : ∀ i, widthsOk (c.env i) = true ∧ elemsLe c.sizeof m (c.env i) = true)
    (hw : ∀ it ∈ items, widthsOk it.1 = true ∧ elemsLe c.sizeof m it.1 = true) (hp : p ≤ data.length) :
    storages c.sizeof c.env n (items.map Prod.fst) (decMany d c data items p).vs ≤
      storages c.sizeof c.env n (items.map Prod.fst) (items.map Prod.snd) + m * ((decMany d c data items p).p - p) := by
  have h1 := decMany_pays (d := d) (data := data) hlim hset (fun i => (henv i).1) (fun i => (henv i).2) n items p
    (fun it h => (hw it h).1) (fun it h => (hw it h).2) hp
  have h2 := (decMany_safe (d := d) (fun i => (henv i).1) items p (fun it h => (hw it h).1) hp).mono
  rw [Nat.mul_sub]
  omega

/-- C81, for new destinations: one call makes them hold at most `m` bytes for each byte of the rest of the input. -/
theorem C81_new (d : Nat) (c : Cfg) (data : List UInt8) (ts : List Ty) (p m n : Nat)
    (hlim : c.g.limit ≤ m) (hset : c.g.limit ≠ sizeMax)
    (henv : ∀ i, widthsOk (c.env i) = true ∧ elemsLe c.sizeof m (c.env i) = true)
    (hw : ∀ t ∈ ts, widthsOk t = true ∧ elemsLe c.sizeof m t = true) (hp : p ≤ data.length) :
    storages c.sizeof c.env n ts (decMany d c data (ts.map fun t => (t, dflt c d t)) p).vs ≤ m * (data.length - p) := by
  have hw' : ∀ it ∈ ts.map (fun t => (t, dflt c d t)), widthsOk it.1 = true ∧ elemsLe c.sizeof m it.1 = true := by
    intro it hit
    obtain ⟨t, ht, rfl⟩ := List.mem_map.mp hit
    exact hw t ht
  have h1 := C81_storage d c data (ts.map fun t => (t, dflt c d t)) p m n hlim hset henv hw' hp
  have h2 := (decMany_safe (d := d) (fun i => (henv i).1) (ts.map fun t => (t, dflt c d t)) p (fun it h => (hw' it h).1) hp).inb
  have h3 : storages c.sizeof c.env n ts (ts.map fun t => dflt c d t) = 0 := by
    clear h1 h2 hw hw'
    induction ts with
    | nil => exact storages_nil _ _
    | cons t ts ih => simp only [List.map_cons, storages_cons, List.headD_cons, List.tail_cons, storage_dflt rfl, ih]
  simp only [List.map_map] at h1
  have e1 : ts.map (Prod.fst ∘ fun t => (t, dflt c d t)) = ts := by simp [Function.comp_def]
  have e2 : ts.map (Prod.snd ∘ fun t => (t, dflt c d t)) = ts.map fun t => dflt c d t := by simp [Function.comp_def]
  rw [e1, e2, h3] at h1
  have h4 := Nat.mul_le_mul_left m (Nat.sub_le_sub_right h2 p)
  omega

/-- An archive with a limit of 48 bytes. -/
def limit48 : Cfg := Checks.le { Checks.grow with limit := 48 } (.fixed 1)

-- The bound is met. A vector announces two vectors of characters (two objects of 24 bytes, 48 bytes), the first one announces
-- 48 characters and has none: two bytes of input, 96 bytes held, by a call that fails.
example : limit48.g.limit ≤ 48 ∧ limit48.g.limit ≠ sizeMax ∧
    elemsLe limit48.sizeof 48 (.seq .vector none Checks.str) = true ∧
    (decMany 9 limit48 [2, 48] [(.seq .vector none Checks.str, .list [])] 0).s = .err .resultOutOfRange ∧
    (decMany 9 limit48 [2, 48] [(.seq .vector none Checks.str, .list [])] 0).p = 2 ∧
    storages limit48.sizeof limit48.env 5 [.seq .vector none Checks.str]
      (decMany 9 limit48 [2, 48] [(.seq .vector none Checks.str, .list [])] 0).vs = 96 := by decide +kernel
-- A message with a packed member of two characters, and what one byte more would announce.
example : storages limit48.sizeof limit48.env 5 [Checks.msg [Checks.str]]
      (decMany 9 limit48 [4, 10, 2, 65, 66] [(Checks.msg [Checks.str], .list [.list []])] 0).vs = 2 ∧
    (decMany 9 limit48 [4, 10, 49, 65, 66] [(Checks.msg [Checks.str], .list [.list []])] 0).s = .err .messageSize := by
  decide +kernel
-- Without a limit one byte is enough for 255 characters (`C59_failed` for the general case).
example : storages Checks.so limit48.env 5 [Checks.str]
      (decMany 9 (Checks.le Checks.grow (.fixed 1)) [255] [(Checks.str, .list [])] 0).vs = 255 := by decide +kernel

end Zpp.Props
