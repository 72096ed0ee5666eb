import Verif.Spec.Input
import Verif.Spec.Archive
import Verif.Model.Out
/-!
# Specification: atomic updates by two slots

A program keeps an object in a file so that a crash never destroys it. The file has one byte that says which of two slots of `size` bytes holds the object. To
change the object, the program writes the new one to the other slot by one call of an output archive, waits until the bytes are on the disk, and then writes the
byte. A crash in between leaves any bytes in the other slot.
-/

namespace Zpp.Spec

/-- Type of the byte that selects the slot (`std::uint8_t`). -/
abbrev selTy : Ty := .scalar .int 1

/-- Where slot `k` begins. -/
def slotAt (size k : Nat) : Nat := 1 + k * size

/-- Read the byte that selects the slot, with an input archive. -/
def slotNow (d : Nat) (c : Cfg) (disk : List UInt8) : Option Nat :=
  match decMany d c disk [(selTy, .num 0)] 0 with
  | ⟨.ok, [.num k], _⟩ => some k
  | _ => none

/-- Read the object: the byte, then the object from that slot. -/
def slotLoad (d : Nat) (c : Cfg) (size : Nat) (dests : List (Ty × Val)) (disk : List UInt8) : Option (List Val) :=
  (slotNow d c disk).bind fun k =>
    match decMany d c disk dests (slotAt size k) with
    | ⟨.ok, vs, _⟩ => some vs
    | _ => none

/-- What happens: an update, or an update interrupted before the byte is written, which leaves `garbage` in the other slot. -/
inductive SlotOp
  | update (items : List (Ty × Val))
  | torn (garbage : List UInt8)

/-- One operation. `none`: a call failed. -/
def slotStep (d : Nat) (c : Cfg) (noFit : Bool) (size : Nat) (disk : List UInt8) : SlotOp → Option (List UInt8)
  | .update items =>
    (slotNow d c disk).bind fun k =>
      match outCall d c noFit items ⟨disk, slotAt size (1 - k)⟩ with
      | (.ok, st) =>
        match outCall d c noFit [(selTy, .num (1 - k))] ⟨st.data, 0⟩ with
        | (.ok, st') => some st'.data
        | _ => none
      | _ => none
  | .torn garbage =>
    (slotNow d c disk).map fun k => disk.take (slotAt size (1 - k)) ++ garbage ++ disk.drop (slotAt size (1 - k) + garbage.length)

/-- A history; the object is read after each operation. -/
def slotRun (d : Nat) (c : Cfg) (noFit : Bool) (size : Nat) (dests : List (Ty × Val)) : List SlotOp → List UInt8 → List (Option (List Val))
  | [], _ => []
  | op :: ops, disk =>
    match slotStep d c noFit size disk op with
    | some disk' => slotLoad d c size dests disk' :: slotRun d c noFit size dests ops disk'
    | none => [none]

/-- The object that should be there after each operation. -/
def slotIdeal : List SlotOp → List Val → List (Option (List Val))
  | [], _ => []
  | .update items :: ops, _ => some (items.map Prod.snd) :: slotIdeal ops (items.map Prod.snd)
  | .torn _ :: ops, cur => some cur :: slotIdeal ops cur

/-- The objects that can be kept: they can be written and read, have the types of `dests`, contain no bitset, and their encodings fit into a slot. -/
structure Keepable (d : Nat) (c : Cfg) (size : Nat) (dests items : List (Ty × Val)) : Prop where
  sup : Supported c items
  read : Readable c items
  stack : StackOk d items
  same : dests.map Prod.fst = items.map Prod.fst
  clean : ∀ x ∈ items, noBits x.2 = true
  fits : ∃ b, wireItems (fmtOf c) items = some b ∧ b.length ≤ size

end Zpp.Spec
