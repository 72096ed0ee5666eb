import Verif.Spec.Input
import Verif.Spec.Supported
/-!
# Protobuf messages as sequences of records

A message body is a sequence of records in any order, with any number of records per field. `recsBytes` gives the bytes
of such a sequence, `recsEffect` what reading it does to the members.
-/

namespace Zpp.Spec

/-- A record, or a group of records of the same field, by the index of the member. -/
inductive Rec where
  /-- The whole value of a singular member; for a repeated member a group of elements: one packed record, or one
  record per element. -/
  | field (m : Nat) (v : Val)
  /-- One element of a packed repeated member in a record of its own. -/
  | one (m : Nat) (e : Val)
  /-- A packed record without elements (also an empty string). -/
  | blank (m : Nat)
  /-- A record of a nested message that itself is any sequence of records. -/
  | sub (m : Nat) (rs : List Rec)
  /-- One element of a repeated member, which is a message (of a map: one entry) that itself is any sequence of records;
  `o` is a new object of the element type. -/
  | elem (m : Nat) (o : Val) (rs : List Rec)
  /-- The tag of an undeclared field (without a payload). -/
  | unknown (num wt : Nat)

/-- The member a record belongs to. -/
def Rec.member : Rec → Option Nat
  | .field m _ => some m
  | .one m _ => some m
  | .blank m => some m
  | .sub m _ => some m
  | .elem m _ _ => some m
  | .unknown _ _ => none

/-- Mappings, numbers and members of a message type. -/
def msgOf (env : Nat → Ty) : Ty → Option (List (Nat × Nat) × List (Option Nat) × List Ty)
  | .msg none _ maps nums fs => some (maps, nums, fs)
  | .ref i =>
    match env i with
    | .msg none _ maps nums fs => some (maps, nums, fs)
    | _ => none
  | _ => none

/-- Members of a message type. -/
def members (env : Nat → Ty) (t : Ty) : List Ty := ((msgOf env t).map fun x => x.2.2).getD []

/-- Element type of a repeated member that is packed. -/
def packedOf : Ty → Option Ty
  | .seq _ _ e => if isPacked e then some e else none
  | .assoc _ _ _ e none => if isPacked e then some e else none
  | _ => none

/-- Key and mapped type in the entry of a map: enumerations are varints. -/
def entryMember : Ty → Ty
  | .scalar .enum n => .varint n false
  | t => t

/-- The type of the elements of a container. The elements of maps are messages with the key as field 1 and the mapped object as
field 2. -/
def elemTy : Ty → Ty
  | .seq _ _ e => e
  | .assoc _ _ _ key none => key
  | .assoc _ _ _ key (some m) => .msg none false [] [none, none] [entryMember key, entryMember m]
  | _ => .empty

mutual
/-- `o` is a new object (`T{}`) of the type: numbers are zero, containers and optionals empty, variants hold a new object of
their first type. -/
inductive Initial (env : Nat → Ty) : Ty → Val → Prop
  | scalar (k : SKind) (n : Nat) : Initial env (.scalar k n) (.num 0)
  | bool : Initial env .bool (.num 0)
  | varint (n : Nat) (zz : Bool) : Initial env (.varint n zz) (.num 0)
  | empty : Initial env .empty .unit
  | struct {ok : Bool} {fs : List Ty} {os : List Val} (h : InitialL env fs os) : Initial env (.struct ok fs) (.list os)
  | msg {sz : Option SizeTy} {ok : Bool} {maps : List (Nat × Nat)} {nums : List (Option Nat)} {fs : List Ty} {os : List Val}
      (h : InitialL env fs os) : Initial env (.msg sz ok maps nums fs) (.list os)
  | array {n : Nat} {t : Ty} {o : Val} (h : Initial env t o) : Initial env (.array (n + 1) t) (.list (List.replicate (n + 1) o))
  | seq (k : SeqKind) (sz : Option SizeTy) (t : Ty) : Initial env (.seq k sz t) (.list [])
  | assoc (multi hashed : Bool) (sz : Option SizeTy) (key : Ty) (mapped : Option Ty) :
      Initial env (.assoc multi hashed sz key mapped) (.list [])
  | optional (dc : Bool) (t : Ty) : Initial env (.optional dc t) .none
  | optPtr (t : Ty) : Initial env (.optPtr t) .none
  | uptr (t : Ty) : Initial env (.uptr t) .none
  | variant {idTy : Ty} {ids : List Val} {dcs : List Bool} {t : Ty} {ts : List Ty} {o : Val} (h : Initial env t o) :
      Initial env (.variant idTy ids dcs (t :: ts)) (.alt 0 o)
  | bitset (n : Nat) : Initial env (.bitset n) (.bits (List.replicate n false))
  | ref {i : Nat} {o : Val} (hi : ∀ j, env i ≠ .ref j) (h : Initial env (env i) o) : Initial env (.ref i) o
/-- New objects of several types. -/
inductive InitialL (env : Nat → Ty) : List Ty → List Val → Prop
  | nil : InitialL env [] []
  | cons {t : Ty} {ts : List Ty} {o : Val} {os : List Val} (h : Initial env t o) (hs : InitialL env ts os) :
      InitialL env (t :: ts) (o :: os)
end

/-- The number of the member with index `m`. -/
def numberAt (maps : List (Nat × Nat)) (nums : List (Option Nat)) (m : Nat) : Nat := fieldNumber maps (nums.getD m none) m

mutual
/-- Bytes of a record. -/
def recBytes (env : Nat → Ty) (maps : List (Nat × Nat)) (nums : List (Option Nat)) (fs : List Ty) : Rec → Option (List UInt8)
  | .field m v =>
    match fs[m]? with
    | some t => pbField env (numberAt maps nums m) t v
    | none => none
  | .one m e =>
    match fs[m]? with
    | some t =>
      match packedOf t, e with
      | some elem, .num x => pbScalar (numberAt maps nums m) elem x
      | _, _ => none
    | none => none
  | .blank m =>
    match fs[m]? with
    | some t => if (packedOf t).isSome then some (pbRecord (numberAt maps nums m) (.len [])) else none
    | none => none
  | .sub m rs =>
    match fs[m]? with
    | some t =>
      match msgOf env t with
      | some (maps', nums', fs') => pbLen (numberAt maps nums m) (recsBytes env maps' nums' fs' rs)
      | none => none
    | none => none
  | .elem m _ rs =>
    match fs[m]? with
    | some t =>
      match msgOf env (elemTy t) with
      | some (maps', nums', fs') => pbLen (numberAt maps nums m) (recsBytes env maps' nums' fs' rs)
      | none => none
    | none => none
  | .unknown num wt => some (leb (num * 8 + wt))
/-- Bytes of a sequence of records. -/
def recsBytes (env : Nat → Ty) (maps : List (Nat × Nat)) (nums : List (Option Nat)) (fs : List Ty) : List Rec → Option (List UInt8)
  | [] => some []
  | r :: rs => cat (recBytes env maps nums fs r) (recsBytes env maps nums fs rs)
end

/-- Value of a member before the first record, from its previous value: containers become empty, other members keep their
value. (`unit` is the only object of an empty class.) -/
def startValue (t : Ty) (o : Val) : Val :=
  match t with
  | .seq _ _ _ => .list []
  | .assoc _ _ _ _ _ => .list []
  | .empty => .unit
  | _ => o

/-- The members before the first record. -/
def emptied : List Ty → List Val → List Val
  | [], _ => []
  | t :: ts, os => startValue t (os.headD .unit) :: emptied ts os.tail

/-- Elements of fixed size. -/
def fixedElem : Ty → Bool
  | .scalar .enum _ => false
  | .scalar _ _ => true
  | .bool => true
  | _ => false

/-- An element inserted into a set or map: not at all if an element with the same key is there (unless `multi`), else
behind all elements with smaller or equivalent keys (ordered) or at the end (hashed, where the order is unspecified). -/
def insertElem (lt : Val → Val → Bool) (multi hashed isMap : Bool) (e : Val) (vs : List Val) : List Val :=
  let key (e : Val) : Val := if isMap then (match e with | .list (k :: _) => k | _ => .unit) else e
  if !multi && vs.any (fun x => sameKey lt hashed isMap x e) then vs
  else if hashed then vs ++ [e]
  else vs.takeWhile (fun x => !lt (key e) (key x)) ++ e :: vs.dropWhile (fun x => !lt (key e) (key x))

/-- Elements added to a container: at the end of sequences, inserted into sets and maps. -/
def addAll (c : Cfg) (t : Ty) (es vs : List Val) : List Val :=
  match t with
  | .assoc multi hashed _ key mapped => es.foldl (fun vs e => insertElem (c.keyLt key) multi hashed mapped.isSome e vs) vs
  | _ => vs ++ es

mutual
/-- Value of a member of type `t` after a record, from its value before. -/
def recEffect (c : Cfg) (t : Ty) : Rec → Val → Val
  | .field _ v, cur =>
    match t with
    | .seq _ _ e =>
      if v.elems.isEmpty then cur
      else if fixedElem e then v
      else .list (addAll c t v.elems cur.elems)
    | .assoc _ _ _ _ _ => if v.elems.isEmpty then cur else .list (addAll c t v.elems cur.elems)
    | .empty => cur
    | _ => v
  | .one _ e, cur => .list (addAll c t [e] cur.elems)
  | .blank _, cur =>
    match t with
    | .seq _ _ e => if fixedElem e then .list [] else .list cur.elems
    | _ => .list cur.elems
  | .sub _ rs, cur => .list (recsEffect c (members c.env t) rs (emptied (members c.env t) cur.elems))
  | .elem _ o rs, cur =>
    .list (addAll c t [.list (recsEffect c (members c.env (elemTy t)) rs (emptied (members c.env (elemTy t)) o.elems))] cur.elems)
  | .unknown _ _, cur => cur
/-- Members after a sequence of records. -/
def recsEffect (c : Cfg) (fs : List Ty) : List Rec → List Val → List Val
  | [], vs => vs
  | r :: rs, vs =>
    recsEffect c fs rs
      (match r.member with
       | some m => vs.set m (recEffect c (fs.getD m .empty) r (vs.getD m .unit))
       | none => vs)
end

/-- The reader can hold the value of a record: as `LoadablePbField`, without any condition on the order of the elements of
sets and maps. -/
def LoadableRec (c : Cfg) : Ty → Val → Prop
  | .assoc _ hashed _ key none, .list vs => if isPacked key then PackedFits c false hashed key vs else LoadableL c key vs
  | .assoc _ _ _ key (some m), .list vs => LoadableL c (.msg none false [] [none, none] [key, m]) vs
  | t, v => LoadablePbField c t v

mutual
/-- The record can be read into the message: its value can be held, elements are read into new objects, and
undeclared fields are really undeclared. -/
def RecOk (c : Cfg) (maps : List (Nat × Nat)) (nums : List (Option Nat)) (fs : List Ty) : Rec → Prop
  | .field m v => ∀ t, fs[m]? = some t → LoadableRec c t v
  | .one _ _ => True
  | .blank _ => True
  | .sub m rs =>
    ∀ t maps' nums' fs', fs[m]? = some t → msgOf c.env t = some (maps', nums', fs') → RecsOk c maps' nums' fs' rs
  | .elem m o rs =>
    ∀ t maps' nums' fs', fs[m]? = some t → msgOf c.env (elemTy t) = some (maps', nums', fs') →
      Initial c.env (elemTy t) o ∧ RecsOk c maps' nums' fs' rs
  | .unknown num wt => num ∉ fieldNumbers maps 0 nums ∧ 0 < num ∧ num < 2 ^ 29 ∧ wt < 8
/-- All records can be read. -/
def RecsOk (c : Cfg) (maps : List (Nat × Nat)) (nums : List (Option Nat)) (fs : List Ty) : List Rec → Prop
  | [] => True
  | r :: rs => RecOk c maps nums fs r ∧ RecsOk c maps nums fs rs
end

mutual
/-- Nesting depth of a record. -/
def recDepth : Rec → Nat
  | .field _ v => depth v
  | .one _ _ => 1
  | .blank _ => 1
  | .sub _ rs => recDepthL rs + 1
  | .elem _ o rs => max (depth o) (recDepthL rs + 1)
  | .unknown _ _ => 0
/-- Maximal nesting depth of a sequence of records. -/
def recDepthL : List Rec → Nat
  | [] => 0
  | r :: rs => max (recDepth r) (recDepthL rs)
end

/-- The records of one member, in their order. -/
def recsOf (m : Nat) (rs : List Rec) : List Rec := rs.filter fun r => r.member == some m

end Zpp.Spec

namespace Zpp.Spec

/-- At position `p` of `data` stands a message of type `.msg sz ok maps nums fs` that consists of the records `rs`, and
ends at `p'`. All records can be held by the reader. -/
structure StreamAt (c : Cfg) (sz : Option SizeTy) (ok : Bool) (maps : List (Nat × Nat)) (nums : List (Option Nat)) (fs : List Ty)
    (rs : List Rec) (data : List UInt8) (p p' : Nat) : Prop where
  abi : AbiOk c.sizeof
  env : EnvGood c
  good : Good c (.msg sz ok maps nums fs) = true
  small : data.length < 2 ^ 64
  loadable : RecsOk (insideMsg c) maps nums fs rs
  bytes : ∃ pre body rest, data = data.take p ++ (pre ++ (body ++ rest)) ∧ p ≤ data.length ∧
    sizePrefix (fmtOf c) (sz.getD c.dsz) body.length = some pre ∧ recsBytes c.env maps nums fs rs = some body ∧
    (sz.getD c.dsz = .none → rest = []) ∧ p' = p + pre.length + body.length

/-- Members with at most one value. -/
def singular : Ty → Bool
  | .seq _ _ _ => false
  | .assoc _ _ _ _ _ => false
  | .empty => false
  | _ => true

/-- Elements a record adds to a repeated member of type `t`. -/
def elementsOf (c : Cfg) (t : Ty) : Rec → List Val
  | .field _ v => v.elems
  | .one _ e => [e]
  | .elem _ o rs => [.list (recsEffect (insideMsg c) (members c.env (elemTy t)) rs (emptied (members c.env (elemTy t)) o.elems))]
  | _ => []

/-- The records of declared fields. -/
def declared (rs : List Rec) : List Rec := rs.filter fun r => r.member.isSome

/-- At position `p` of `data` stands a message of type `.msg sz ok maps nums fs` that consists of the records `rs`, which
the reader can hold, and then `tail`, up to the end of the message. -/
structure BrokenAt (c : Cfg) (sz : Option SizeTy) (ok : Bool) (maps : List (Nat × Nat)) (nums : List (Option Nat)) (fs : List Ty)
    (rs : List Rec) (tail : List UInt8) (data : List UInt8) (p : Nat) : Prop where
  abi : AbiOk c.sizeof
  env : EnvGood c
  good : Good c (.msg sz ok maps nums fs) = true
  small : data.length < 2 ^ 64
  loadable : RecsOk (insideMsg c) maps nums fs rs
  bytes : ∃ pre body rest, data = data.take p ++ (pre ++ (body ++ (tail ++ rest))) ∧ p ≤ data.length ∧
    sizePrefix (fmtOf c) (sz.getD c.dsz) (body.length + tail.length) = some pre ∧ recsBytes c.env maps nums fs rs = some body ∧
    (sz.getD c.dsz = .none → rest = [])

/-- The type as which a member of type `t` that is not a container is read: enumerations, and `std::byte`, are varints. -/
def readAs : Ty → Ty
  | .scalar .enum n => .varint n false
  | .scalar .byte n => .varint n false
  | t => t

/-- Containers. -/
def repeats : Ty → Bool
  | .seq _ _ _ => true
  | .assoc _ _ _ _ _ => true
  | _ => false

/-- Members whose packed records are read by a loop that nothing but the announced length ends: lists, spans and ordered sets of numbers
(vectors and hashed sets first reserve the announced length; lists of fixed size numbers are resized to it). -/
def unreserved : Ty → Bool
  | .seq .vector _ _ => false
  | .seq .list _ (.scalar k _) => k == .enum
  | .seq .list _ .bool => false
  | .seq _ _ e => isPacked e
  | .assoc _ hashed _ key none => !hashed && isPacked key
  | _ => false

/-- A member no record belongs to keeps its start value; the others have the value their records give. -/
def membersAfter (c : Cfg) (fs : List Ty) (rs : List Rec) (old : Val) : List Val :=
  recsEffect (insideMsg c) fs rs (emptied fs old.elems)

end Zpp.Spec
