import Verif.Spec.Input
import Verif.Spec.Supported
/-!
# Specification: valid objects

What it means that a piece of memory holds an object of a C++ type, as far as the object's own operations rely on it.
-/

namespace Zpp.Spec

mutual
/-- `v` is a valid object of the type: numbers are in range, arrays and bitsets have their length, optionals and pointers
are empty or hold a complete object, variants hold a complete object of one of their types (they are not valueless), sets
and maps are in the order of their comparator and without duplicates, and everything inside is valid. (A `bool` is only
required to be a byte: the reader copies the byte it finds, `D04_bool_not_checked`.) `lt` are the comparators, by key
type. -/
inductive Object (env : Nat → Ty) (lt : Ty → Val → Val → Bool) : Ty → Val → Prop
  | scalar {k : SKind} {n x : Nat} (h : x < 256 ^ n) : Object env lt (.scalar k n) (.num x)
  | bool {x : Nat} (h : x < 256) : Object env lt .bool (.num x)
  | varint {n x : Nat} {zz : Bool} (h : x < 256 ^ n) : Object env lt (.varint n zz) (.num x)
  | empty : Object env lt .empty .unit
  | struct {ok : Bool} {fs : List Ty} {vs : List Val} (h : Objects env lt fs vs) : Object env lt (.struct ok fs) (.list vs)
  | msg {sz : Option SizeTy} {ok : Bool} {maps : List (Nat × Nat)} {nums : List (Option Nat)} {fs : List Ty} {vs : List Val}
      (h : Objects env lt fs vs) : Object env lt (.msg sz ok maps nums fs) (.list vs)
  | array {n : Nat} {t : Ty} {vs : List Val} (hl : vs.length = n) (h : ∀ v ∈ vs, Object env lt t v) :
      Object env lt (.array n t) (.list vs)
  | seq {k : SeqKind} {sz : Option SizeTy} {t : Ty} {vs : List Val} (h : ∀ v ∈ vs, Object env lt t v) :
      Object env lt (.seq k sz t) (.list vs)
  | set {multi hashed : Bool} {sz : Option SizeTy} {key : Ty} {vs : List Val} (h : ∀ v ∈ vs, Object env lt key v)
      (ho : Ordered (lt key) multi hashed false vs) : Object env lt (.assoc multi hashed sz key none) (.list vs)
  | map {multi hashed : Bool} {sz : Option SizeTy} {key m : Ty} {vs : List Val}
      (h : ∀ v ∈ vs, Object env lt (.struct false [key, m]) v) (ho : Ordered (lt key) multi hashed true vs) :
      Object env lt (.assoc multi hashed sz key (some m)) (.list vs)
  | nullopt {dc : Bool} {t : Ty} : Object env lt (.optional dc t) .none
  | engaged {dc : Bool} {t : Ty} {v : Val} (h : Object env lt t v) : Object env lt (.optional dc t) (.some v)
  | nullPtr {t : Ty} : Object env lt (.optPtr t) .none
  | ptr {t : Ty} {v : Val} (h : Object env lt t v) : Object env lt (.optPtr t) (.some v)
  | nullOwner {t : Ty} : Object env lt (.uptr t) .none
  | owner {t : Ty} {v : Val} (h : Object env lt t v) : Object env lt (.uptr t) (.some v)
  | variant {idTy : Ty} {ids : List Val} {dcs : List Bool} {alts : List Ty} {i : Nat} {t : Ty} {v : Val}
      (hi : alts[i]? = some t) (h : Object env lt t v) : Object env lt (.variant idTy ids dcs alts) (.alt i v)
  | bitset {n : Nat} {bs : List Bool} (h : bs.length = n) : Object env lt (.bitset n) (.bits bs)
  | ref {i : Nat} {v : Val} (h : Object env lt (env i) v) : Object env lt (.ref i) v
/-- The members of an object, one for each type. -/
inductive Objects (env : Nat → Ty) (lt : Ty → Val → Val → Bool) : List Ty → List Val → Prop
  | nil : Objects env lt [] []
  | cons {t : Ty} {ts : List Ty} {v : Val} {vs : List Val} (h : Object env lt t v) (hs : Objects env lt ts vs) :
      Objects env lt (t :: ts) (v :: vs)
end

mutual
/-- Restrictions of C++ and the library on types: a view refers to bytes, a variant has at least one type. -/
def formed : Ty → Bool
  | .struct _ fs => formedL fs
  | .array _ t => formed t
  | .seq k _ t => (k != .view || byteTy t) && formed t
  | .assoc _ _ _ key none => formed key
  | .assoc _ _ _ key (some m) => formed key && formed m
  | .optional _ t => formed t
  | .optPtr t => formed t
  | .uptr t => formed t
  | .variant idTy _ _ alts => !alts.isEmpty && formed idTy && formedL alts
  | .msg _ _ _ _ fs => formedL fs
  | _ => true
/-- All types of a list. -/
def formedL : List Ty → Bool
  | [] => true
  | t :: ts => formed t && formedL ts
end

mutual
/-- The named classes of which an object of the type stores an object in its own memory (not on the heap). -/
def stored : Ty → List Nat
  | .struct _ fs => storedL fs
  | .msg _ _ _ _ fs => storedL fs
  | .array _ t => stored t
  | .optional _ t => stored t
  | .variant _ _ _ alts => storedL alts
  | .ref i => [i]
  | _ => []
/-- Of any type of a list. -/
def storedL : List Ty → List Nat
  | [] => []
  | t :: ts => stored t ++ storedL ts
end

/-- No class stores an object of itself in its own memory, directly or through other classes (a class is incomplete inside
its definition, so C++ rejects that): the classes can be layered below `L`. -/
structure Layered (env : Nat → Ty) (L : Nat) (layer : Nat → Nat) : Prop where
  below : ∀ i, layer i < L
  down : ∀ i, ∀ j ∈ stored (env i), layer j < layer i

end Zpp.Spec
