import Verif.Spec.Input
import Verif.Spec.Archive
import Verif.Model.Out
/-!
# Specification: records in envelopes

A program writes records of many kinds. Each is first written into a buffer of its own; then a byte that says which kind it is and the buffer, as a `vector` of
bytes, are written to the file. A reader takes the envelopes apart one by one and reads the records of the kinds it knows from the bytes inside.
-/

namespace Zpp.Spec

/-- Type of the kind (`std::uint8_t`). -/
abbrev kindTy : Ty := .scalar .int 1

/-- Type of the content (`sized<std::vector<std::byte>, std::uint32_t>`). -/
abbrev contentTy : Ty := .seq .vector (some (.fixed 4)) (.scalar .byte 1)

/-- Bytes as an object. -/
def bytesVal (bs : List UInt8) : Val := .list (bs.map fun b => .num b.toNat)

/-- The bytes of an object. -/
def valBytes : Val → List UInt8
  | .list vs => vs.map fun v => match v with | .num x => UInt8.ofNat x | _ => 0
  | _ => []

/-- An envelope as two objects. -/
def envelope (e : Nat × List UInt8) : List (Ty × Val) := [(kindTy, .num e.1), (contentTy, bytesVal e.2)]

/-- Write envelopes, one call each. `none`: a call failed. -/
def putEnvelopes (d : Nat) (c : Cfg) (noFit : Bool) : List (Nat × List UInt8) → OutSt → Option OutSt
  | [], st => some st
  | e :: es, st =>
    match outCall d c noFit (envelope e) st with
    | (.ok, st') => putEnvelopes d c noFit es st'
    | _ => none

/-- What a reader makes of a record. -/
inductive Found
  /-- Of a kind it does not know. -/
  | unknown
  /-- The bytes are not those of an object of this kind. -/
  | damaged
  /-- The objects. -/
  | got (vs : List Val)
deriving DecidableEq

/-- Read a record from the bytes inside its envelope; `known` gives the destinations for the kinds the reader knows. -/
def openEnvelope (d : Nat) (c : Cfg) (known : Nat → Option (List (Ty × Val))) (kind : Nat) (content : List UInt8) : Found :=
  match known kind with
  | none => .unknown
  | some dests =>
    match decMany d c content dests 0 with
    | ⟨.ok, vs, _⟩ => .got vs
    | _ => .damaged

/-- Read all envelopes from position `p` to the end, at most `n`. `none`: an envelope itself cannot be read. -/
def getEnvelopes (d : Nat) (c : Cfg) (known : Nat → Option (List (Ty × Val))) (file : List UInt8) : Nat → Nat → Option (List (Nat × Found))
  | 0, _ => none
  | n + 1, p =>
    if p = file.length then some []
    else
      match decMany d c file (envelope (0, [])) p with
      | ⟨.ok, [.num kind, content], q⟩ =>
        (getEnvelopes d c known file n q).map fun fs => (kind, openEnvelope d c known kind (valBytes content)) :: fs
      | _ => none

end Zpp.Spec
