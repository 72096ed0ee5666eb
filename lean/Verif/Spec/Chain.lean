import Verif.Spec.Envelope
/-!
# Specification: records chained by hashes

A program keeps a history of records in a store it does not trust. Each record is written together with the hash of the bytes of the record before it, and the
program remembers only the hash of the newest. To read the history it asks the store for the bytes with this hash, checks the hash, reads the record, and goes on
with the hash found in it. The hash function is any function with results of 32 bytes.
-/

namespace Zpp.Spec

/-- Type of a hash (`std::array<std::byte, 32>`). -/
abbrev hashTy : Ty := .array 32 (.scalar .byte 1)

/-- The objects written for a record. -/
def linked (link : List UInt8) (body : List (Ty × Val)) : List (Ty × Val) := (hashTy, bytesVal link) :: body

/-- Write a history (newest record first), starting from the hash `start`: the hash to remember, and the bytes of the records. `none`: a call failed. -/
def putChain (d : Nat) (c : Cfg) (noFit : Bool) (hash : List UInt8 → List UInt8) (start : List UInt8) : List (List (Ty × Val)) → Option (List UInt8 × List (List UInt8))
  | [] => some (start, [])
  | body :: older =>
    (putChain d c noFit hash start older).bind fun x =>
      match outCall d c noFit (linked x.1 body) ⟨[], 0⟩ with
      | (.ok, st) => some (hash (st.data.take st.pos), st.data.take st.pos :: x.2)
      | _ => none

/-- Read `n` records, newest first, from the bytes the store gives. `none`: the store has no bytes, or bytes with another hash, or they cannot be read. -/
def getChain (d : Nat) (c : Cfg) (hash : List UInt8 → List UInt8) (store : List UInt8 → Option (List UInt8)) (dests : List (Ty × Val)) :
    Nat → List UInt8 → Option (List (List Val))
  | 0, _ => some []
  | n + 1, head =>
    match store head with
    | some b =>
      if hash b = head then
        match decMany d c b (linked [] dests) 0 with
        | ⟨.ok, link :: vs, _⟩ => (getChain d c hash store dests n (valBytes link)).map (vs :: ·)
        | _ => none
      else none
    | none => none

/-- The store gave other bytes with the same hash as a record written. -/
def Forged (hash : List UInt8 → List UInt8) (store : List UInt8 → Option (List UInt8)) (written : List (List UInt8)) : Prop :=
  ∃ a ∈ written, ∃ b, store (hash a) = some b ∧ b ≠ a ∧ hash b = hash a

/-- Records that can be used: of the types `tys`, can be written and read. -/
structure ChainOk (d d' : Nat) (co ci : Cfg) (tys : List Ty) (body : List (Ty × Val)) : Prop where
  types : body.map Prod.fst = tys
  sup : Supported co body
  read : Readable ci body
  stack : StackOk d body
  stack' : StackOk d' body
  wire : ∃ b, wireItems (fmtOf co) body = some b ∧ b.length + 32 < 2 ^ 63

end Zpp.Spec
