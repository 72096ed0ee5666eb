import Verif.Proof.Moves
import Verif.Checks
/-!
# C86: the bytes moved while writing
-/

namespace Zpp.Props
open Zpp.Spec

/-- C86, the bound. Whatever is written, into whatever buffer and however the call ends: each byte written is moved at most once for
every message with a varint length around it. `N` bounds the number of such messages inside each other in the items. -/
theorem C86_levels_partial (d : Nat) (c : Cfg) (items : List (Ty × Val)) (st : OutSt) (N : Nat) (hg : GrowthOk c.g)
    (hpos : st.pos ≤ st.data.length) (hlen : st.data.length < 2 ^ 63) (hN : ∀ x ∈ items, levels d c.env c.dsz x.1 x.2 ≤ N) :
    movesMany d c items st ≤ N * ((encMany d c items st).2.pos - st.pos) :=
  encMany_moved d c hg items hN st ⟨hpos, hlen⟩

/-- A message of 200 bytes in a message: the inner one is moved once by its own length and once by that of the outer one. -/
example : let inner : Ty := .msg none false [] [none] [.seq .vector none (.scalar .byte 1)]
    let outer : Ty := .msg none false [] [none, none] [.varint 4 false, inner]
    let items := [(outer, Val.list [.num 7, .list [.list (List.replicate 200 (.num 65))]])]
    levels 9 (fun _ => .empty) .varint outer items.head!.2 = 2 ∧
    (encMany 9 (Checks.le Checks.grow .varint) items ⟨[], 0⟩).1 = .ok ∧
    (encMany 9 (Checks.le Checks.grow .varint) items ⟨[], 0⟩).2.pos = 210 ∧
    movesMany 9 (Checks.le Checks.grow .varint) items ⟨[], 0⟩ = 203 + 208 := by
  decide +kernel

/-- The count for a message of 153 bytes in every kind of object: once, or once more for each message around it. -/
example : let inner : Ty := .msg none false [] [none] [.seq .vector none (.scalar .byte 1)]
    let big : Val := .list [.list (List.replicate 150 (.num 65))]
    let c : Cfg := { Checks.le Checks.grow .varint with env := fun _ => inner }
    let m : List Ty → Ty := fun fs => .msg none false [] (fs.map fun _ => none) fs
    let cases : List (Ty × Val) := [
      (inner, big),
      (.struct true [inner, .varint 4 false, inner], .list [big, .num 1, big]),
      (.array 2 inner, .list [big, big]),
      (.seq .vector none inner, .list [big, big]),
      (.assoc false false none inner none, .list [big]),
      (.assoc false false none (.varint 4 false) (some inner), .list [.list [.num 1, big], .list [.num 2, big]]),
      (.optional true inner, .some big),
      (.optPtr inner, .some big),
      (.uptr inner, .some big),
      (.variant inner [big, big] [true, true] [.bool, inner], .alt 1 big),
      (.ref 0, big),
      (.msg (some (.fixed 4)) false [] [none] [inner], .list [big]),
      (.msg (some .none) false [] [none, none] [inner, inner], .list [big, big]),
      (m [.seq .vector none inner], .list [.list [big, big]]),
      (m [.assoc false false none (.varint 4 false) (some inner)], .list [.list [.list [.num 1, big]]]),
      (m [.assoc false false none inner none], .list [.list [big]]),
      (m [.optional true inner], .list [.some big])]
    cases.map (fun x => ((encode 20 c x.1 x.2 ⟨[], 0⟩).2.pos, moves 20 c x.1 x.2 ⟨[], 0⟩)) =
      [(155, 153), (311, 306), (310, 306), (311, 306), (156, 153), (313, 306), (156, 153), (156, 153), (155, 153), (310, 306),
        (155, 153), (160, 153), (312, 306), (314, 306 + 312), (163, 153 + 158 + 161), (158, 153 + 156), (159, 153 + 157)] := by
  decide +kernel

/-- C86 for messages that contain no other messages: no more bytes are moved than are written. -/
theorem C86_flat (d : Nat) (c : Cfg) (items : List (Ty × Val)) (st : OutSt) (hg : GrowthOk c.g)
    (hpos : st.pos ≤ st.data.length) (hlen : st.data.length < 2 ^ 63) (hN : ∀ x ∈ items, levels d c.env c.dsz x.1 x.2 ≤ 1) :
    movesMany d c items st ≤ (encMany d c items st).2.pos - st.pos := by
  have := C86_levels_partial d c items st 1 hg hpos hlen hN
  omega

/-- A message of numbers that is moved, and one that is not. -/
example : let t : Ty := .msg none false [] [none] [.seq .vector none (.varint 4 false)]
    let items := [(t, Val.list [.list (List.replicate 150 (.num 1))]), (t, .list [.list [.num 1]])]
    (∀ x ∈ items, levels 9 (fun _ => .empty) .varint x.1 x.2 ≤ 1) ∧
    (encMany 9 (Checks.le Checks.grow .varint) items ⟨[], 0⟩).1 = .ok ∧
    (encMany 9 (Checks.le Checks.grow .varint) items ⟨[], 0⟩).2.pos = 159 ∧
    movesMany 9 (Checks.le Checks.grow .varint) items ⟨[], 0⟩ = 153 := by
  decide +kernel

/-- C86 for objects without messages: nothing is moved. -/
theorem C86_plain (d : Nat) (c : Cfg) (items : List (Ty × Val)) (st : OutSt) (hg : GrowthOk c.g)
    (hpos : st.pos ≤ st.data.length) (hlen : st.data.length < 2 ^ 63) (hN : ∀ x ∈ items, levels d c.env c.dsz x.1 x.2 = 0) :
    movesMany d c items st = 0 := by
  have := C86_levels_partial d c items st 0 hg hpos hlen fun x hx => Nat.le_of_eq (hN x hx)
  omega

/-- C86 fails for messages inside each other. A node below `n` nodes is written in at most `11 * n + 10` bytes, with at least
`n * n - 4096` bytes moved, in any buffer that has room for it. -/
theorem C86_quadratic (n d : Nat) (c : Cfg) (st : OutSt) (hc : c.dsz = .varint) (hh : c.host = .little) (he : c.env 0 = node)
    (hd : 2 * n + 1 ≤ d) (hr : st.pos + 11 * (n + 1) ≤ st.data.length) (hl : st.data.length < 2 ^ 56) :
    (encode d c node (chain n) st).1 = .ok ∧ (encode d c node (chain n) st).2.pos ≤ st.pos + 11 * n + 10 ∧
    n * n ≤ moves d c node (chain n) st + 4096 := by
  obtain ⟨st', h1, _, _, h4, h5⟩ := chain_run hc hh he n d st hd hr hl
  rw [h1]
  exact ⟨rfl, h4, h5⟩

/-- The assumptions hold for an archive over 1,200 bytes, and what is moved for a chain of 100 nodes. -/
example : let c : Cfg := { Checks.le Checks.grow .varint with env := fun _ => node }
    let st : OutSt := ⟨List.replicate 1200 0, 0⟩
    c.dsz = .varint ∧ c.host = .little ∧ st.pos + 11 * (100 + 1) ≤ st.data.length ∧
    (encode 201 c node (chain 100) st).2.pos = 238 ∧ moves 201 c node (chain 100) st = 6734 := by
  decide +kernel

/-- Hence no constant factor bounds the bytes moved by the bytes written. -/
theorem C86_no_factor (K : Nat) (hK : K < 2 ^ 40) (c : Cfg) (hc : c.dsz = .varint) (hh : c.host = .little) (he : c.env 0 = node) :
    ∃ d t v st, (encode d c t v st).1 = .ok ∧ K * ((encode d c t v st).2.pos - st.pos) < moves d c t v st := by
  obtain ⟨n, hn⟩ : ∃ n, n = 12 * K + 100 := ⟨_, rfl⟩
  obtain ⟨st, h0, hlen⟩ : ∃ st : OutSt, st.pos = 0 ∧ st.data.length = 11 * (n + 1) :=
    ⟨⟨List.replicate (11 * (n + 1)) 0, 0⟩, rfl, List.length_replicate⟩
  obtain ⟨h1, h2, h3⟩ := C86_quadratic n (2 * n + 1) c st hc hh he (Nat.le_refl _) (by omega) (by omega)
  refine ⟨2 * n + 1, node, chain n, st, h1, ?_⟩
  have h4 : (encode (2 * n + 1) c node (chain n) st).2.pos - st.pos ≤ 11 * n + 10 := by omega
  have h5 := Nat.mul_le_mul_left K h4
  have e1 : n * n = 12 * (K * n) + 100 * n := by
    
    have : n * n = (12 * K + 100) * n := by rw [← hn]
    rw [this, Nat.add_mul, Nat.mul_assoc]
  have e2 : K * (11 * n + 10) = 11 * (K * n) + 10 * K := by
    rw [Nat.mul_add, Nat.mul_comm 11 n, ← Nat.mul_assoc]; omega
  have e3 : K * 100 ≤ K * n := Nat.mul_le_mul_left K (by omega)
  omega

end Zpp.Props
