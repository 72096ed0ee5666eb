import Verif.Proof.FetchFirst
import Verif.Proof.FetchBehind
import Verif.Checks
/-!
# C127 Input that changes while it is read

`decManyT inl d c mem items p` is `in(items...)` at position `p` over memory that somebody else writes to; `mem q j` is what the memory holds at the `j`-th fetch at
position `q`; `inl` is whether the program is compiled with `ZPP_BITS_INLINE_DECODE_VARINT` (it is not by default).
-/

namespace Zpp.Props
open Zpp Zpp.Spec

/-- C127: whatever is written to the memory while it is read, reading ends with one of the documented outcomes (undefined behaviour and endless loops are not among
them) and stays inside the memory. -/
theorem C127_safe (inl : Bool) (d : Nat) (c : Cfg) (L : Nat) (mem : Mem) (items : List (Ty × Val)) (p : Nat) (hL : Sized L mem)
    (henv : ∀ i, widthsOk (c.env i) = true) (hw : ∀ it ∈ items, widthsOk it.1 = true) (hp : p ≤ L) :
    let r := decManyT inl d c mem items p
    InOutcome r.s ∧ p ≤ r.p ∧ r.p ≤ L :=
  let h := decManyT_safe (inl := inl) (d := d) hL henv items p hw hp
  ⟨h.code, h.mono, h.inb⟩

/-- C127: reading objects without variable length integers from memory that changes gives what some fixed contents give, in which every byte was in the memory at its
place at some time: no test the archive made can be undone by a later write. -/
theorem C127_once (inl : Bool) (d : Nat) (c : Cfg) (L : Nat) (mem : Mem) (items : List (Ty × Val)) (p : Nat) (hL : Sized L mem)
    (henv : ∀ i, widthsOk (c.env i) = true ∧ noVarint c.dsz (c.env i) = true)
    (hw : ∀ it ∈ items, widthsOk it.1 = true ∧ noVarint c.dsz it.1 = true) (hp : p ≤ L) :
    ∃ data, data.length = L ∧ Held mem data ∧ decManyT inl d c mem items p = decMany d c data items p := by
  have hf : Sized L (memFirst mem) := fun p _ => hL p 0
  obtain ⟨_, data, h1, h2, h3⟩ := decMany_once (inl := inl) (d := d) hf (.inr (steady_first mem)) (fun i => (henv i).1) items p (fun it h => (hw it h).1) hp
  refine ⟨data, h1, fun i b hb => ?_, ?_⟩
  · obtain ⟨q, _, hq⟩ := h2 i b hb
    exact ⟨q, 0, hq⟩
  · rw [decManyT_first (fun i => (henv i).2) items p (fun it h => (hw it h).2)]
    exact (h3 data h1 (fun _ _ _ => rfl)).symm

/-- C127, for all objects: likewise, if nobody writes between the two fetches of the first byte of a varint (zpp_bits.h:1759, 1760). Missing: without this
assumption it is false, see below. -/
theorem C127_varint_partial (inl : Bool) (d : Nat) (c : Cfg) (L : Nat) (mem : Mem) (items : List (Ty × Val)) (p : Nat) (hL : Sized L mem) (hst : Steady mem)
    (henv : ∀ i, widthsOk (c.env i) = true) (hw : ∀ it ∈ items, widthsOk it.1 = true) (hp : p ≤ L) :
    ∃ data, data.length = L ∧ Held mem data ∧ decManyT inl d c mem items p = decMany d c data items p := by
  obtain ⟨_, data, h1, h2, h3⟩ := decMany_once (inl := inl) (d := d) hL (.inr hst) henv items p hw hp
  exact ⟨data, h1, h2, (h3 data h1 (fun _ _ _ => rfl)).symm⟩

/-- C127, for all objects and all writes, compiled with `ZPP_BITS_INLINE_DECODE_VARINT`. -/
theorem C127_inline (d : Nat) (c : Cfg) (L : Nat) (mem : Mem) (items : List (Ty × Val)) (p : Nat) (hL : Sized L mem)
    (henv : ∀ i, widthsOk (c.env i) = true) (hw : ∀ it ∈ items, widthsOk it.1 = true) (hp : p ≤ L) :
    ∃ data, data.length = L ∧ Held mem data ∧ decManyT true d c mem items p = decMany d c data items p := by
  obtain ⟨_, data, h1, h2, h3⟩ := decMany_once (inl := true) (d := d) hL (.inl rfl) henv items p hw hp
  exact ⟨data, h1, h2, (h3 data h1 (fun _ _ _ => rfl)).symm⟩

/-- C127: memory that nobody writes to is read as in the other theorems. -/
theorem C127_constant (inl : Bool) (d : Nat) (c : Cfg) (data : List UInt8) (items : List (Ty × Val)) (p : Nat) (henv : ∀ i, widthsOk (c.env i) = true)
    (hw : ∀ it ∈ items, widthsOk it.1 = true) (hp : p ≤ data.length) :
    decManyT inl d c (fun _ _ => data) items p = decMany d c data items p := by
  obtain ⟨data', h1, h2, h3⟩ := C127_varint_partial inl d c data.length (fun _ _ => data) items p (fun _ _ => rfl) (fun _ => rfl) henv hw hp
  have : data' = data := by
    apply List.ext_getElem?
    intro i
    cases h : data'[i]? with
    | some b =>
      obtain ⟨_, _, hq⟩ := h2 i b h
      exact hq.symm
    | none =>
      rw [List.getElem?_eq_none_iff] at h
      exact (List.getElem?_eq_none (by omega)).symm
  rw [h3, this]

/-- C127: what is written behind the position does not matter. -/
theorem C127_behind (inl : Bool) (d : Nat) (c : Cfg) (mem mem' : Mem) (items : List (Ty × Val)) (p : Nat)
    (hlen : ∀ q j, (mem q j).length = (mem' q j).length) (h : ∀ q j i : Nat, q ≤ i → (mem q j)[i]? = (mem' q j)[i]?) :
    decManyT inl d c mem items p = decManyT inl d c mem' items p := by
  refine decManyT_behind ⟨hlen, fun q j => List.ext_getElem? fun i => ?_⟩ items p
  rw [List.getElem?_drop, List.getElem?_drop]
  exact h q j _ (by omega)

/-- C127: the bytes already read may be overwritten while reading goes on; the objects are those of the bytes as they were. (A view
keeps pointing to the memory; its contents are those when it was made.) -/
theorem C127_consumed (inl : Bool) (d : Nat) (c : Cfg) (data : List UInt8) (mem : Mem) (items : List (Ty × Val)) (p : Nat) (hL : Sized data.length mem)
    (h : ∀ q j i : Nat, q ≤ i → (mem q j)[i]? = data[i]?) (henv : ∀ i, widthsOk (c.env i) = true) (hw : ∀ it ∈ items, widthsOk it.1 = true) (hp : p ≤ data.length) :
    decManyT inl d c mem items p = decMany d c data items p := by
  rw [C127_behind inl d c mem (fun _ _ => data) items p hL h]
  exact C127_constant inl d c data items p henv hw hp

/-- Bytes that are wiped once they were read. -/
abbrev wiped (data : List UInt8) : Mem := fun q _ => List.replicate (min q data.length) 0 ++ data.drop q

example : Sized 3 (wiped [2, 67, 68]) ∧ ∀ q j i : Nat, q ≤ i → (wiped [2, 67, 68] q j)[i]? = [2, 67, 68][i]? := by
  refine ⟨fun q j => by simp [wiped]; omega, fun q j i h => ?_⟩
  by_cases hq : q ≤ 3
  · have : min q ([2, 67, 68] : List UInt8).length = q := by simp; omega
    simp only [wiped, this]
    rw [List.getElem?_append_right (by simp; omega), List.getElem?_drop, List.length_replicate, Nat.add_sub_cancel' h]
  · rw [List.getElem?_eq_none (by simp [wiped]; omega), List.getElem?_eq_none (by simp; omega)]

example : decManyT false 9 (Checks.le Checks.grow (.fixed 1)) (wiped [2, 67, 68]) [(.seq .list none (.scalar .chr 1), .list [])] 0 =
    ⟨.ok, [.list [.num 67, .num 68]], 3⟩ ∧ wiped [2, 67, 68] 3 0 = [0, 0, 0] := by decide +kernel

/-- C127, the code as compiled by default falsifies the full statement: a byte 5 that becomes 255 between the test and the use is read as the varint 255 of one byte, which no contents of the
memory are read as. -/
theorem C127_double_fetch_refuted :
    let c := Checks.le Checks.grow (.fixed 4)
    let mem : Mem := fun _ j => if j = 1 then [255] else [5]
    Sized 1 mem ∧ decManyT false 9 c mem [(.varint 4 false, .num 0)] 0 = ⟨.ok, [.num 255], 1⟩ ∧
    ∀ data : List UInt8, data.length = 1 → decMany 9 c data [(.varint 4 false, .num 0)] 0 ≠ ⟨.ok, [.num 255], 1⟩ := by
  refine ⟨fun p j => ?_, by decide +kernel, fun data hl => ?_⟩
  · show (if j = 1 then ([255] : List UInt8) else [5]).length = 1
    split <;> rfl
  · have key : ∀ n : Fin 256, decMany 9 (Checks.le Checks.grow (.fixed 4)) [UInt8.ofNat n.1] [(.varint 4 false, .num 0)] 0 ≠ ⟨.ok, [.num 255], 1⟩ := by
      decide +kernel
    match data, hl with
    | [b], _ =>
      have := key ⟨b.toNat, UInt8.toNat_lt b⟩
      simpa using this

/-- With `ZPP_BITS_INLINE_DECODE_VARINT` the same memory is read as 5. -/
example : decManyT true 9 (Checks.le Checks.grow (.fixed 4)) (fun _ j => if j = 1 then [255] else [5]) [(.varint 4 false, .num 0)] 0 = ⟨.ok, [.num 5], 1⟩ := by
  decide +kernel

/-- Memory with a string of two characters, whose length becomes 200 and whose characters change once the length was read. -/
abbrev shiftyMem : Mem := fun p _ => if p = 0 then [2, 65, 66, 7] else if p = 1 then [200, 67, 68, 9] else [0, 0, 0, 8]

example : Sized 4 shiftyMem ∧ Steady shiftyMem := by
  refine ⟨fun p j => ?_, fun _ => rfl⟩
  show (if p = 0 then ([2, 65, 66, 7] : List UInt8) else if p = 1 then [200, 67, 68, 9] else [0, 0, 0, 8]).length = 4
  split
  · rfl
  · split <;> rfl

/-- The string is read with the length it had and the characters it then had, the byte behind it as it is later: as from the contents `[2, 67, 68, 8]`, which the memory
never held as a whole. -/
example :
    let c := Checks.le Checks.grow (.fixed 1)
    let items : List (Ty × Val) := [(.seq .vector none (.scalar .chr 1), .list []), (.scalar .int 1, .num 0)]
    decManyT false 9 c shiftyMem items 0 = ⟨.ok, [.list [.num 67, .num 68], .num 8], 4⟩ ∧
    decMany 9 c [2, 67, 68, 8] items 0 = ⟨.ok, [.list [.num 67, .num 68], .num 8], 4⟩ ∧
    (∀ it ∈ items, widthsOk it.1 = true ∧ noVarint c.dsz it.1 = true) ∧ ∀ i, widthsOk (c.env i) = true ∧ noVarint c.dsz (c.env i) = true := by
  refine ⟨by decide +kernel, by decide +kernel, by decide +kernel, fun _ => ⟨rfl, rfl⟩⟩

/-- The same with the length as a varint, and in a protobuf message whose tags change after they were read. -/
example :
    let c := Checks.le Checks.grow .varint
    let mem : Mem := fun p _ => if p = 0 then [3, 0, 0, 0] else if p = 1 then [0, 8, 0, 0] else [0xff, 0xff, 0x96, 1]
    decManyT false 9 c shiftyMem [(.seq .vector none (.scalar .chr 1), .list [])] 0 = ⟨.ok, [.list [.num 67, .num 68]], 3⟩ ∧
    decManyT false 9 c mem [(.msg none false [] [none] [.varint 4 false], .list [.num 0])] 0 = ⟨.ok, [.list [.num 150]], 4⟩ ∧
    decMany 9 c [3, 8, 0x96, 1] [(.msg none false [] [none] [.varint 4 false], .list [.num 0])] 0 = ⟨.ok, [.list [.num 150]], 4⟩ := by
  decide +kernel

end Zpp.Props
