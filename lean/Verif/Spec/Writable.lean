import Verif.Spec.Objects
import Verif.Spec.Records
/-!
# Specification: what keeps a valid object from being written

The complete list of the parts of an object that have no encoding: `bool`s that are neither 0 nor 1, null owning pointers,
containers with more elements than their size prefix can express, and protobuf messages, strings and packed fields that are too
long.
-/

namespace Zpp.Spec

/-- A container of `n` elements has more than its size prefix can express. -/
def overCount (f : Fmt) (sz : Option SizeTy) (n : Nat) : Prop :=
  match sz.getD f.dsz with
  | .fixed k => 256 ^ k ≤ n
  | .varint => 2 ^ 64 ≤ n
  | .none => False

/-- A message of `n` bytes is longer than its size prefix can express; varint prefixes of messages have at most eight bytes. -/
def overLength (f : Fmt) (sz : Option SizeTy) (n : Nat) : Prop :=
  match sz.getD f.dsz with
  | .fixed k => 256 ^ k ≤ n
  | .varint => 2 ^ 56 ≤ n
  | .none => False

/-- The elements of a repeated member of a message. -/
def repeatedOf : Ty → Option Ty
  | .seq _ _ e => some e
  | .assoc _ _ _ key none => some key
  | .assoc _ _ _ key (some m) => some (.msg none false [] [none, none] [key, m])
  | _ => none

mutual
/-- A member of a protobuf message that has no encoding. -/
inductive PbObstacle (env : Nat → Ty) : Ty → Val → Prop
  /-- A `bool` that is neither 0 nor 1. -/
  | bool {x : Nat} (h : 1 < x) : PbObstacle env .bool (.num x)
  /-- Such a `bool` in a packed field. -/
  | bools {t : Ty} {vs : List Val} {x : Nat} (ht : repeatedOf t = some .bool) (hx : .num x ∈ vs) (h : 1 < x) :
      PbObstacle env t (.list vs)
  /-- A packed field of `2^56` bytes or more. -/
  | packed {t e : Ty} {vs : List Val} {body : List UInt8} (ht : repeatedOf t = some e) (he : isPacked e = true)
      (hb : wireNums (pbFmt env) (packedElem e) vs = some body) (h : 2 ^ 56 ≤ body.length) : PbObstacle env t (.list vs)
  /-- An element of a repeated field. -/
  | element {t e : Ty} {vs : List Val} {v : Val} (ht : repeatedOf t = some e) (he : isPacked e = false) (hv : v ∈ vs)
      (h : PbItem env e v) : PbObstacle env t (.list vs)
  /-- A nested message. -/
  | message {t : Ty} {v : Val} (hr : repeatedOf t = none) (h : PbItem env t v) : PbObstacle env t v
/-- A length-delimited item of a protobuf message (nested message, element of a repeated field, entry of a map) that has no
encoding. -/
inductive PbItem (env : Nat → Ty) : Ty → Val → Prop
  /-- A string of `2^56` bytes or more. -/
  | text {k : SeqKind} {sz : Option SizeTy} {ch : Ty} {vs : List Val} {body : List UInt8}
      (hb : wireNums (pbFmt env) ch vs = some body) (h : 2 ^ 56 ≤ body.length) : PbItem env (.seq k sz ch) (.list vs)
  /-- A member. -/
  | member {t u : Ty} {maps : List (Nat × Nat)} {nums : List (Option Nat)} {fs : List Ty} {vs : List Val} {v : Val} (i : Nat)
      (ht : msgOf env t = some (maps, nums, fs)) (hu : fs[i]? = some u) (hv : vs[i]? = some v) (h : PbObstacle env u v) :
      PbItem env t (.list vs)
  /-- A message of `2^56` bytes or more. -/
  | long {t : Ty} {maps : List (Nat × Nat)} {nums : List (Option Nat)} {fs : List Ty} {vs : List Val} {body : List UInt8}
      (ht : msgOf env t = some (maps, nums, fs)) (hb : pbFields env maps 0 nums fs vs = some body) (h : 2 ^ 56 ≤ body.length) :
      PbItem env t (.list vs)
end

/-- An object that has no encoding, and why. -/
inductive Obstacle (f : Fmt) : Ty → Val → Prop
  /-- A `bool` that is neither 0 nor 1. -/
  | bool {x : Nat} (h : 1 < x) : Obstacle f .bool (.num x)
  /-- A null owning pointer. -/
  | owner {t : Ty} : Obstacle f (.uptr t) .none
  /-- A container with too many elements for its size prefix. -/
  | seqCount {k : SeqKind} {sz : Option SizeTy} {t : Ty} {vs : List Val} (h : overCount f sz vs.length) :
      Obstacle f (.seq k sz t) (.list vs)
  /-- A set or map with too many elements for its size prefix. -/
  | assocCount {multi hashed : Bool} {sz : Option SizeTy} {key : Ty} {m : Option Ty} {vs : List Val} (h : overCount f sz vs.length) :
      Obstacle f (.assoc multi hashed sz key m) (.list vs)
  /-- A message that is too long for its size prefix. -/
  | length {sz : Option SizeTy} {ok : Bool} {maps : List (Nat × Nat)} {nums : List (Option Nat)} {fs : List Ty} {vs : List Val}
      {body : List UInt8} (hb : pbFields f.env maps 0 nums fs vs = some body) (h : overLength f sz body.length) :
      Obstacle f (.msg sz ok maps nums fs) (.list vs)
  /-- The id of the alternative is not a value of the type of ids (C++ does not compile such ids). -/
  | id {idTy : Ty} {ids : List Val} {dcs : List Bool} {alts : List Ty} {i : Nat} {v id : Val} (hi : ids[i]? = some id)
      (h : wireId f idTy id = none) : Obstacle f (.variant idTy ids dcs alts) (.alt i v)
  /-- A part of the object. -/
  | field {sz : Option SizeTy} {ok : Bool} {maps : List (Nat × Nat)} {nums : List (Option Nat)} {fs : List Ty} {vs : List Val}
      {t : Ty} {v : Val} (i : Nat) (ht : fs[i]? = some t) (hv : vs[i]? = some v) (h : PbObstacle f.env t v) :
      Obstacle f (.msg sz ok maps nums fs) (.list vs)
  | member {ok : Bool} {fs : List Ty} {vs : List Val} {t : Ty} {v : Val} (i : Nat) (ht : fs[i]? = some t) (hv : vs[i]? = some v)
      (h : Obstacle f t v) : Obstacle f (.struct ok fs) (.list vs)
  | array {n : Nat} {t : Ty} {vs : List Val} {v : Val} (hv : v ∈ vs) (h : Obstacle f t v) : Obstacle f (.array n t) (.list vs)
  | element {k : SeqKind} {sz : Option SizeTy} {t : Ty} {vs : List Val} {v : Val} (hv : v ∈ vs) (h : Obstacle f t v) :
      Obstacle f (.seq k sz t) (.list vs)
  | key {multi hashed : Bool} {sz : Option SizeTy} {key : Ty} {vs : List Val} {v : Val} (hv : v ∈ vs) (h : Obstacle f key v) :
      Obstacle f (.assoc multi hashed sz key none) (.list vs)
  | entry {multi hashed : Bool} {sz : Option SizeTy} {key m : Ty} {vs : List Val} {v : Val} (hv : v ∈ vs)
      (h : Obstacle f (.struct false [key, m]) v) : Obstacle f (.assoc multi hashed sz key (some m)) (.list vs)
  | optional {dc : Bool} {t : Ty} {v : Val} (h : Obstacle f t v) : Obstacle f (.optional dc t) (.some v)
  | optPtr {t : Ty} {v : Val} (h : Obstacle f t v) : Obstacle f (.optPtr t) (.some v)
  | owned {t : Ty} {v : Val} (h : Obstacle f t v) : Obstacle f (.uptr t) (.some v)
  | alternative {idTy : Ty} {ids : List Val} {dcs : List Bool} {alts : List Ty} {i : Nat} {t : Ty} {v : Val} (hi : alts[i]? = some t)
      (h : Obstacle f t v) : Obstacle f (.variant idTy ids dcs alts) (.alt i v)
  | ref {i : Nat} {v : Val} (h : Obstacle f (f.env i) v) : Obstacle f (.ref i) v

end Zpp.Spec
