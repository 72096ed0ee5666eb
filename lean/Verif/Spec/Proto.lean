import Verif.Spec.Records
/-!
# A protobuf parser

A reference parser written from the published encoding of Protocol Buffers (developers.google.com, "Encoding"), independent
of the library: it knows nothing about archives, positions, or the functions of the library's own reader. A message is a
sequence of records, in any order. The last record of a singular field counts, except that records of a nested message are
merged. Records of a repeated field append elements, packed or one by one. Records of unknown fields, or with
another wire type than the declared one, are skipped. Fields without records have the default value: `new` gives the default
objects of types.

A class stands for the message type that README.md ("Protobuf") describes: varints of 4 and 8 bytes are `int32`, `int64`,
`uint32`, `uint64`, with zigzag `sint32`, `sint64`; enumerations are `enum`, 32 and 64 bit numbers `fixed32`, `fixed64`,
`sfixed32`, `sfixed64`, `float`, `double`; containers of characters or bytes are `string` and `bytes`, as are containers of
other words of no protobuf type (8 or 16 bits); other containers are `repeated`. A map is a list of its entries, which are
messages with the key as field 1 and the value as field 2 (the encoding documents `map` as short for this).
-/

namespace Zpp.Spec

/-- A varint in front of the bytes: at most ten groups, the value modulo `2^64`; and the bytes behind it. -/
def protoVarint (bs : List UInt8) : Option (Nat × List UInt8) :=
  match lebPrefix bs with
  | some g => if g.length ≤ 10 then some (lebValue g % 2 ^ 64, bs.drop g.length) else none
  | none => none

/-- The number with the given digits, least significant first. -/
def littleNumber : List UInt8 → Nat
  | [] => 0
  | b :: bs => b.toNat + 256 * littleNumber bs

/-- A little-endian number of `n` bytes in front of the bytes, and the bytes behind it. -/
def protoFixed (n : Nat) (bs : List UInt8) : Option (Nat × List UInt8) :=
  if n ≤ bs.length then some (littleNumber (bs.take n), bs.drop n) else none

/-- The payload of a record with the given wire type, and the bytes behind it. The group types 3 and 4 are obsolete. -/
def protoPayload (wt : Nat) (bs : List UInt8) : Option (PbPayload × List UInt8) :=
  match wt with
  | 0 => (protoVarint bs).map fun r => (.varint r.1, r.2)
  | 1 => (protoFixed 8 bs).map fun r => (.fixed64 r.1, r.2)
  | 2 =>
    match protoVarint bs with
    | some (n, rest) => if n ≤ rest.length then some (.len (rest.take n), rest.drop n) else none
    | none => none
  | 5 => (protoFixed 4 bs).map fun r => (.fixed32 r.1, r.2)
  | _ => none

/-- A record: the number of the field (from 1 to `2^29 - 1`), the payload, and the bytes behind it. -/
def protoRecord (bs : List UInt8) : Option ((Nat × PbPayload) × List UInt8) :=
  match protoVarint bs with
  | some (key, rest) =>
    if 0 < key / 8 ∧ key / 8 < 2 ^ 29 then (protoPayload (key % 8) rest).map fun r => ((key / 8, r.1), r.2) else none
  | none => none

/-- All records; `k` is a bound on their number (a record has at least two bytes). -/
def protoRecords : Nat → List UInt8 → Option (List (Nat × PbPayload))
  | _, [] => some []
  | 0, _ => none
  | k + 1, bs =>
    match protoRecord bs with
    | some (r, rest) => (protoRecords k rest).map (r :: ·)
    | none => none

/-- The object a varint denotes: truncated to the width of the type; zigzag gives a number in two's complement. -/
def protoNumber : Ty → Nat → Nat
  | .varint n true, v =>
    if v % 2 = 0 then v % 2 ^ (8 * n) / 2 else 2 ^ (8 * n) - (v % 2 ^ (8 * n) + 1) / 2
  | .varint n false, v => v % 2 ^ (8 * n)
  | .bool, v => if v = 0 then 0 else 1
  | .scalar _ n, v => v % 2 ^ (8 * n)
  | _, _ => 0

/-- A singular field of a number type; `none` is another wire type. -/
def protoScalar : Ty → PbPayload → Option Val
  | .scalar .int 4, .fixed32 v => some (.num v)
  | .scalar .int 8, .fixed64 v => some (.num v)
  | .scalar .enum n, .varint v => some (.num (protoNumber (.scalar .enum n) v))
  | .bool, .varint v => some (.num (protoNumber .bool v))
  | .varint n zz, .varint v => some (.num (protoNumber (.varint n zz) v))
  | _, _ => none

/-- An element of a packed field, and the bytes behind it. -/
def protoElem : Ty → List UInt8 → Option (Nat × List UInt8)
  | .scalar .enum n, bs => (protoVarint bs).map fun r => (protoNumber (.scalar .enum n) r.1, r.2)
  | .scalar _ n, bs => protoFixed n bs
  | t, bs => (protoVarint bs).map fun r => (protoNumber t r.1, r.2)

/-- The elements of a packed field; `k` is a bound on their number. -/
def protoPacked (t : Ty) : Nat → List UInt8 → Option (List Val)
  | _, [] => some []
  | 0, _ => none
  | k + 1, bs =>
    match protoElem t bs with
    | some (x, rest) => (protoPacked t k rest).map (.num x :: ·)
    | none => none

/-- Containers of these are `string` or `bytes`, not `repeated`. -/
def isText : Ty → Bool
  | .scalar .enum _ => false
  | .scalar .int n => !(n == 4 || n == 8)
  | .scalar _ _ => true
  | _ => false

/-- The fields of a message class: number and type. -/
def protoFields (maps : List (Nat × Nat)) (nums : List (Option Nat)) (fs : List Ty) : List (Nat × Ty) :=
  (fieldNumbers maps 0 nums).zip fs

/-- `new` gives the default objects: zero, empty containers, messages of default objects. -/
def NewObjects (env : Nat → Ty) (new : Ty → Val) : Prop := ∀ t o, Initial env t o → new t = o

/-- How messages are parsed: the fields, their present values, the bytes. -/
abbrev SubParser := List (Nat × Ty) → List Val → List UInt8 → Option (List Val)

/-- A record of a nested message is merged into the present value. -/
def protoMessage (sub : SubParser) (env : Nat → Ty) (t : Ty) (old : Val) (bs : List UInt8) : Option Val :=
  match msgOf env t with
  | some (maps, nums, fs) => (sub (protoFields maps nums fs) old.elems bs).map .list
  | none => none

/-- The elements a record of a repeated field appends; `none` for the record of another wire type. The outer option is for errors. -/
def protoAppend (new : Ty → Val) (sub : SubParser) (env : Nat → Ty) (e : Ty) : PbPayload → Option (Option (List Val))
  | .len bs =>
    if isPacked e then (protoPacked e bs.length bs).map some
    else
      match e with
      | .seq _ _ ch => (protoPacked ch bs.length bs).map fun vs => some [.list vs]
      | e => (protoMessage sub env e (new e) bs).map fun v => some [v]
  | p => some ((protoScalar e p).map fun v => [v])

/-- A record of a container with elements of type `e`. -/
def protoContainer (new : Ty → Val) (sub : SubParser) (env : Nat → Ty) (e : Ty) (old : Val) (p : PbPayload) : Option Val :=
  match protoAppend new sub env e p with
  | some (some vs) => some (if isText e then .list vs else .list (old.elems ++ vs))
  | some none => some old
  | none => none

/-- What a record does to the field of type `t`; `none` is malformed input. -/
def protoField (new : Ty → Val) (sub : SubParser) (env : Nat → Ty) : Ty → Val → PbPayload → Option Val
  | .seq _ _ e, old, p => protoContainer new sub env e old p
  | .assoc _ _ _ key none, old, p => protoContainer new sub env key old p
  | .assoc _ _ _ key (some m), old, p => protoContainer new sub env (.msg none false [] [none, none] [key, m]) old p
  | .msg sz ok maps nums fs, old, .len bs => protoMessage sub env (.msg sz ok maps nums fs) old bs
  | .ref i, old, .len bs => protoMessage sub env (.ref i) old bs
  | t, old, p => some ((protoScalar t p).getD old)

/-- What a record does to a message: it belongs to the field with its number, if there is one. -/
def protoApply (new : Ty → Val) (sub : SubParser) (env : Nat → Ty) : List (Nat × Ty) → List Val → Nat × PbPayload → Option (List Val)
  | (n, t) :: fs, v :: vs, r =>
    if n = r.1 then (protoField new sub env t v r.2).map (· :: vs) else (protoApply new sub env fs vs r).map (v :: ·)
  | _, vs, _ => some vs

/-- The records one after another. -/
def protoAll (new : Ty → Val) (sub : SubParser) (env : Nat → Ty) (fields : List (Nat × Ty)) :
    List Val → List (Nat × PbPayload) → Option (List Val)
  | vs, [] => some vs
  | vs, r :: rs =>
    match protoApply new sub env fields vs r with
    | some vs' => protoAll new sub env fields vs' rs
    | none => none

/-- A message with the given fields and present values; `d` is a bound on the nesting. -/
def protoMsg (new : Ty → Val) (env : Nat → Ty) : Nat → SubParser
  | 0 => fun _ _ _ => none
  | d + 1 => fun fields vs bs =>
    match protoRecords bs.length bs with
    | some rs => protoAll new (protoMsg new env d) env fields vs rs
    | none => none

/-- A message from its bytes (the nesting is less than the number of bytes). -/
def protoParse (new : Ty → Val) (env : Nat → Ty) (maps : List (Nat × Nat)) (nums : List (Option Nat)) (fs : List Ty)
    (bs : List UInt8) : Option (List Val) :=
  protoMsg new env (bs.length + 1) (protoFields maps nums fs) (fs.map new) bs

/-! ### Messages that the library reads as a protobuf parser does -/

mutual
/-- The object `v` holds the value `w` that a parser finds for a field of type `t`: the same, except that sets and maps hold the
elements that the parser finds, inserted one after another (see `addAll`: in the order of the container, and the first of
several with the same key). -/
inductive Holds (c : Cfg) : Ty → Val → Val → Prop
  | num (t : Ty) (x : Nat) : Holds c t (.num x) (.num x)
  | unit : Holds c .empty .unit .unit
  | seq {k : SeqKind} {sz : Option SizeTy} {e : Ty} {ws vs : List Val} (h : HoldsAll c e ws vs) :
      Holds c (.seq k sz e) (.list ws) (.list vs)
  | set {multi hashed : Bool} {sz : Option SizeTy} {key : Ty} {ws vs : List Val} (h : HoldsAll c key ws vs) :
      Holds c (.assoc multi hashed sz key none) (.list ws) (.list (addAll c (.assoc multi hashed sz key none) vs []))
  | map {multi hashed : Bool} {sz : Option SizeTy} {key m : Ty} {ws vs : List Val}
      (h : HoldsAll c (.msg none false [] [none, none] [key, m]) ws vs) :
      Holds c (.assoc multi hashed sz key (some m)) (.list ws) (.list (addAll c (.assoc multi hashed sz key (some m)) vs []))
  | msg {t : Ty} {maps : List (Nat × Nat)} {nums : List (Option Nat)} {fs : List Ty} {ws vs : List Val}
      (ht : msgOf c.env t = some (maps, nums, fs)) (h : HoldsEach c fs ws vs) : Holds c t (.list ws) (.list vs)
/-- Elements of the same type. -/
inductive HoldsAll (c : Cfg) : Ty → List Val → List Val → Prop
  | nil {e : Ty} : HoldsAll c e [] []
  | cons {e : Ty} {w v : Val} {ws vs : List Val} (h : Holds c e w v) (hs : HoldsAll c e ws vs) : HoldsAll c e (w :: ws) (v :: vs)
/-- Members. -/
inductive HoldsEach (c : Cfg) : List Ty → List Val → List Val → Prop
  | nil : HoldsEach c [] [] []
  | cons {t : Ty} {ts : List Ty} {w v : Val} {ws vs : List Val} (h : Holds c t w v) (hs : HoldsEach c ts ws vs) :
      HoldsEach c (t :: ts) (w :: ws) (v :: vs)
end

mutual
/-- Types without sets and maps (those of recursive classes are looked at separately). -/
def assocFree : Ty → Bool
  | .assoc _ _ _ _ _ => false
  | .seq _ _ e => assocFree e
  | .msg _ _ _ _ fs => assocFreeL fs
  | _ => true
/-- All types of a list. -/
def assocFreeL : List Ty → Bool
  | [] => true
  | t :: ts => assocFree t && assocFreeL ts
end

/-- Members that the library reads as protobuf demands only from their first record: a packed record of numbers of fixed size
replaces earlier elements, a record of a nested message clears the containers in it, and a set of characters keeps them. -/
def firstOnly (env : Nat → Ty) : Ty → Bool
  | .seq _ _ e => fixedElem e && !isText e
  | .assoc _ _ _ key none => isText key
  | t => (msgOf env t).isSome

/-- A single element of a packed field, in a record of its own. -/
def isOne : Rec → Bool
  | .one _ _ => true
  | _ => false

mutual
/-- The record of a member of type `t` is one that the library reads as protobuf demands. -/
def RecPlain (env : Nat → Ty) (t : Ty) : Rec → Prop
  | .sub _ rs => RecsPlain env (members env t) [] rs
  | .elem _ _ rs => RecsPlain env (members env (elemTy t)) [] rs
  | .unknown _ _ => False
  | _ => True
/-- No field is undeclared. Members with `firstOnly` have only one record, which may be followed by single elements. `seen` are the
members with earlier records. -/
def RecsPlain (env : Nat → Ty) (fs : List Ty) : List Nat → List Rec → Prop
  | _, [] => True
  | seen, r :: rs =>
    RecPlain env (fs.getD (r.member.getD 0) .empty) r ∧
      (firstOnly env (fs.getD (r.member.getD 0) .empty) = true → isOne r = false → r.member.getD 0 ∉ seen) ∧
      RecsPlain env fs (r.member.getD 0 :: seen) rs
end

end Zpp.Spec
