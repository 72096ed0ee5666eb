import Verif.Model.In
import Verif.Spec.Supported
/-!
# Specification: input archives
-/

namespace Zpp.Spec

/-- The outcomes a read may have: success, the documented error codes, an allocation exception, stack
exhaustion, or a destination type the library does not compile for. Undefined behaviour and endless loops are not
among them. -/
def InOutcome : Status → Prop
  | .ok => True
  | .err .resultOutOfRange => True
  | .err .valueTooLarge => True
  | .err .messageSize => True
  | .err .badMessage => True
  | .err .protocolError => True
  | .badAlloc => True
  | .stack => True
  | .illFormed => True
  | _ => False

mutual
/-- Scalars have a size and integers have one of the sizes of C++ integer types: true for every C++ type. -/
def widthsOk : Ty → Bool
  | .scalar k n => 0 < n && ((k != .enum && k != .byte) || intWidth n)
  | .varint n _ => intWidth n
  | .struct _ fs => widthsOkL fs
  | .array _ t => widthsOk t
  | .seq _ _ t => widthsOk t
  | .assoc _ _ _ key none => widthsOk key
  | .assoc _ _ _ key (some m) => widthsOk key && widthsOk m
  | .optional _ t => widthsOk t
  | .optPtr t => widthsOk t
  | .uptr t => widthsOk t
  | .variant idTy _ _ alts => widthsOk idTy && widthsOkL alts
  | .msg _ _ _ _ fs => widthsOkL fs
  | _ => true
/-- All types of a list. -/
def widthsOkL : List Ty → Bool
  | [] => true
  | t :: ts => widthsOk t && widthsOkL ts
end

end Zpp.Spec

namespace Zpp.Spec

mutual
/-- Reading such a type never looks at the previous contents of the destination: no protobuf message (members
absent from the input keep their value), no mutable span (its length is a capacity) and no container without size
prefix (it keeps its size), except behind pointers and in associative containers, which always read into fresh
objects. `dsz` is the archive's default size type. -/
def oldFree (dsz : SizeTy) : Ty → Bool
  | .struct _ fs => oldFreeL dsz fs
  | .array _ t => oldFree dsz t
  | .seq k sz t => (k == .view || (k != .span && sz.getD dsz != .none)) && oldFree dsz t
  | .optional _ t => oldFree dsz t
  | .variant _ _ _ alts => oldFreeL dsz alts
  | .msg _ _ _ _ _ => false
  | _ => true
/-- All types of a list. -/
def oldFreeL (dsz : SizeTy) : List Ty → Bool
  | [] => true
  | t :: ts => oldFree dsz t && oldFreeL dsz ts
end

mutual
/-- Types whose encodings carry their own extent: no protobuf message (a length beyond the input is clamped to the
input), no mutable span, no container without size prefix. -/
def selfDelimiting (dsz : SizeTy) : Ty → Bool
  | .struct _ fs => selfDelimitingL dsz fs
  | .array _ t => selfDelimiting dsz t
  | .seq k sz t => k != .span && sz.getD dsz != .none && selfDelimiting dsz t
  | .assoc _ _ _ key none => selfDelimiting dsz key
  | .assoc _ _ _ key (some m) => selfDelimiting dsz key && selfDelimiting dsz m
  | .optional _ t => selfDelimiting dsz t
  | .optPtr t => selfDelimiting dsz t
  | .uptr t => selfDelimiting dsz t
  | .variant idTy _ _ alts => selfDelimiting dsz idTy && selfDelimitingL dsz alts
  | .msg _ _ _ _ _ => false
  | _ => true
/-- All types of a list. -/
def selfDelimitingL (dsz : SizeTy) : List Ty → Bool
  | [] => true
  | t :: ts => selfDelimiting dsz t && selfDelimitingL dsz ts
end

end Zpp.Spec

namespace Zpp.Spec

/-- A container of `n` elements of `size` bytes is within the allocation limit (if one is set) and the host's
memory. -/
def Fits (g : Growth) (size n : Nat) : Prop :=
  (g.limit = sizeMax ∨ n ≤ g.limit / size) ∧ n * size ≤ g.maxMem

/-- The elements are in the iteration order of the container: ordered containers list keys in increasing order
(strictly unless `multi`); hashed containers have distinct keys (unless `multi`). `isMap`: elements are pairs, the
key comes first. -/
def Ordered (lt : Val → Val → Bool) (multi hashed isMap : Bool) (vs : List Val) : Prop :=
  let key (e : Val) : Val := if isMap then (match e with | .list (k :: _) => k | _ => .unit) else e
  vs.Pairwise fun x y =>
    if hashed then multi = true ∨ key x ≠ key y
    else lt (key y) (key x) = false ∧ (multi = true ∨ lt (key x) (key y) = true)

/-- The packed payload of a repeated protobuf member fits: fixed size elements are allocated at once and are subject
to the allocation limit; for varints in contiguous or hashed storage the reader reserves one element per byte. -/
def PackedFits (c : Cfg) (resize reserve : Bool) (t : Ty) (vs : List Val) : Prop :=
  ∀ body, wireNums (pbFmt c.env) (packedElem t) vs = some body →
    match packedElem t, resize with
    | .varint n zz, _ => reserve = true → body.length * c.sizeof (.varint n zz) ≤ c.g.maxMem
    | _, true => (c.g.limit = sizeMax ∨ body.length ≤ c.g.limit) ∧ body.length ≤ c.g.maxMem
    | e, false => reserve = true → body.length * c.sizeof e ≤ c.g.maxMem

mutual
/-- The reader can hold the object: containers fit the allocation limit and memory, associative containers are in
iteration order, containers and messages have a size prefix, and no mutable spans occur. -/
def Loadable (c : Cfg) : Ty → Val → Prop
  | .struct _ fs, .list vs => LoadableF c fs vs
  | .array _ t, .list vs => LoadableL c t vs
  | .seq k sz t, .list vs =>
    k ≠ .span ∧ sz.getD c.dsz ≠ .none ∧ (k ≠ .view → Fits c.g (c.sizeof t) vs.length) ∧ LoadableL c t vs
  | .assoc multi hashed sz key none, .list vs =>
    sz.getD c.dsz ≠ .none ∧ Ordered (c.keyLt key) multi hashed false vs ∧ LoadableL c key vs
  | .assoc multi hashed sz key (some m), .list vs =>
    sz.getD c.dsz ≠ .none ∧ Ordered (c.keyLt key) multi hashed true vs ∧ LoadableL c (.struct false [key, m]) vs
  | .optional _ t, .some v => Loadable c t v
  | .optPtr t, .some v => Loadable c t v
  | .uptr t, .some v => Loadable c t v
  | .variant _ _ _ alts, .alt i v => ∀ t, alts[i]? = some t → Loadable c t v
  | .msg sz _ _ _ fs, .list vs => sz.getD c.dsz ≠ .none ∧ LoadablePb (insideMsg c) fs vs
  | .ref i, .list vs =>
    match c.env i with
    | .struct _ fs => LoadableF c fs vs
    | .msg sz _ _ _ fs => sz.getD c.dsz ≠ .none ∧ LoadablePb (insideMsg c) fs vs
    | _ => True
  | _, _ => True
/-- Members. -/
def LoadableF (c : Cfg) : List Ty → List Val → Prop
  | t :: ts, v :: vs => Loadable c t v ∧ LoadableF c ts vs
  | _, _ => True
/-- Elements. -/
def LoadableL (c : Cfg) (t : Ty) : List Val → Prop
  | [] => True
  | v :: vs => Loadable c t v ∧ LoadableL c t vs
/-- Members of a protobuf message. -/
def LoadablePb (c : Cfg) : List Ty → List Val → Prop
  | t :: ts, v :: vs => LoadablePbField c t v ∧ LoadablePb c ts vs
  | _, _ => True
/-- One member of a protobuf message. -/
def LoadablePbField (c : Cfg) : Ty → Val → Prop
  | .seq k _ t, .list vs =>
    if isPacked t then PackedFits c true (k == .vector) t vs else LoadableL c t vs
  | .assoc multi hashed _ key none, .list vs =>
    Ordered (c.keyLt key) multi hashed false vs ∧
      if isPacked key then PackedFits c false hashed key vs else LoadableL c key vs
  | .assoc multi hashed _ key (some m), .list vs =>
    Ordered (c.keyLt key) multi hashed true vs ∧ LoadableL c (.msg none false [] [none, none] [key, m]) vs
  | .msg _ _ _ _ fs, .list vs => LoadablePb c fs vs
  | .ref i, .list vs =>
    match c.env i with
    | .msg _ _ _ _ fs => LoadablePb c fs vs
    | _ => True
  | _, _ => True
end

end Zpp.Spec

namespace Zpp.Spec

/-- State of an input archive: the position (the input bytes never change), over a history of calls (successful or
not, into any destinations) and repositionings (`reset(p)`, `position() = p`) inside the input. -/
inductive InReach (d : Nat) (c : Cfg) (data : List UInt8) : Nat → Nat → Prop
  | init (p : Nat) : InReach d c data p p
  | call {a b : Nat} (items : List (Ty × Val)) : (∀ it ∈ items, widthsOk it.1 = true) → InReach d c data a b →
      InReach d c data a (decMany d c data items b).p
  | seek {a b : Nat} (p : Nat) : InReach d c data a b → p ≤ data.length → InReach d c data a p

end Zpp.Spec

namespace Zpp.Spec

/-- What a theorem about reading `items` back with the archive configuration `c` assumes. -/
structure Readable (c : Cfg) (items : List (Ty × Val)) : Prop where
  abi : AbiOk c.sizeof
  env : EnvGood c
  types : ∀ x ∈ items, Good c x.1 = true
  load : ∀ x ∈ items, Loadable c x.1 x.2

/-- Successive input calls on one archive, up to the first that fails; the objects read are listed in order. -/
def inCalls (d : Nat) (c : Cfg) (data : List UInt8) : List (List (Ty × Val)) → Nat → ResL
  | [], p => ⟨.ok, [], p⟩
  | items :: calls, p =>
    match decMany d c data items p with
    | ⟨.ok, vs, p'⟩ => let r := inCalls d c data calls p'; ⟨r.s, vs ++ r.vs, r.p⟩
    | ⟨s, vs, p'⟩ => ⟨s, vs ++ (calls.flatten.map Prod.snd), p'⟩

end Zpp.Spec

namespace Zpp.Spec

/-- What the standard library requires of a comparator: a strict weak order. -/
structure WeakOrder (lt : Val → Val → Bool) : Prop where
  asymm : ∀ a b, lt a b = true → lt b a = false
  negTrans : ∀ a b c, lt a b = false → lt b c = false → lt a c = false

/-- Two elements have the same key: equal keys in hashed containers, equivalent keys in ordered ones. -/
def sameKey (lt : Val → Val → Bool) (hashed isMap : Bool) (x y : Val) : Bool :=
  let key (e : Val) : Val := if isMap then (match e with | .list (k :: _) => k | _ => .unit) else e
  if hashed then decide (key x = key y) else !lt (key x) (key y) && !lt (key y) (key x)

/-- The first element of each class. -/
def firsts (same : Val → Val → Bool) : List Val → List Val
  | [] => []
  | e :: es => e :: (firsts same es).filter fun x => !same e x

end Zpp.Spec

namespace Zpp.Spec

/-- Somewhere in the object `v` of type `t`, outside protobuf messages, a growing sequence container (`vector`, `string`,
`list`, `deque`) occupies more than `L` bytes. -/
inductive Exceeds (c : Cfg) (L : Nat) : Ty → Val → Prop
  | here {k sz t vs} : k = .vector ∨ k = .list → L < vs.length * c.sizeof t → Exceeds c L (.seq k sz t) (.list vs)
  | elem {k sz t vs v} : v ∈ vs → Exceeds c L t v → Exceeds c L (.seq k sz t) (.list vs)
  | member {ok fs vs t v} (i : Nat) : fs[i]? = some t → vs[i]? = some v → Exceeds c L t v →
      Exceeds c L (.struct ok fs) (.list vs)
  | array {n t vs v} : v ∈ vs → Exceeds c L t v → Exceeds c L (.array n t) (.list vs)
  | setElem {mu ha sz key vs v} : v ∈ vs → Exceeds c L key v → Exceeds c L (.assoc mu ha sz key none) (.list vs)
  | mapElem {mu ha sz key m vs v} : v ∈ vs → Exceeds c L (.struct false [key, m]) v →
      Exceeds c L (.assoc mu ha sz key (some m)) (.list vs)
  | optional {dc t v} : Exceeds c L t v → Exceeds c L (.optional dc t) (.some v)
  | optPtr {t v} : Exceeds c L t v → Exceeds c L (.optPtr t) (.some v)
  | uptr {t v} : Exceeds c L t v → Exceeds c L (.uptr t) (.some v)
  | alt {idTy ids dcs alts i t v} : alts[i]? = some t → Exceeds c L t v →
      Exceeds c L (.variant idTy ids dcs alts) (.alt i v)
  | ref {i v} : Exceeds c L (c.env i) v → Exceeds c L (.ref i) v

end Zpp.Spec

namespace Zpp.Spec

/-- A size prefix is an integer of the size type: `k` bytes, or a varint of `size_t`. -/
def sizeInt : SizeTy → Ty
  | .fixed k => .scalar .int k
  | .varint => .varint 8 false
  | .none => .empty

end Zpp.Spec
