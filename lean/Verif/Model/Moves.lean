import Verif.Model.Out
/-!
# Bytes moved while writing

A message with a varint length is written behind one byte for the length; if its length takes more bytes, the whole body is moved
ahead (zpp_bits.h:2365-2401). The functions of this file follow the functions of `Verif.Model.Out` and count the bytes moved.
-/

namespace Zpp

/-- Bytes moved by the second of two steps (follows `OutM.andThen`; the first moves nothing). -/
def movesAfter (a : OutM) (w : OutSt → Nat) (st : OutSt) : Nat :=
  match a st with
  | (.ok, st') => w st'
  | _ => 0

/-- Elements one by one (follows `encAll`, zpp_bits.h:2171-2177, 2242-2248). `w` counts one element. -/
def movesAll (rec : Val → OutM) (w : Val → OutSt → Nat) : List Val → OutSt → Nat
  | [], _ => 0
  | v :: vs, st => w v st + movesAfter (rec v) (movesAll rec w vs) st

/-- Members one by one (follows `encFields`, zpp_bits.h:2005-2019, 2252-2265). -/
def movesFields (rec : Ty → Val → OutM) (w : Ty → Val → OutSt → Nat) : List Ty → List Val → OutSt → Nat
  | t :: ts, v :: vs, st => w t v st + movesAfter (rec t v) (movesFields rec w ts vs) st
  | _, _, _ => 0

/-- The move itself (follows `moveAhead`, zpp_bits.h:2373-2401): the `message_size` of `memmove`. -/
def movedAhead (g : Growth) (sizePos : Nat) (st : OutSt) : Nat :=
  let msgSize := subSz (subSz st.pos sizePos) 1
  let ahead := varintSize 8 msgSize - 1
  if ahead = 0 then 0
  else
    match claim g ahead st with
    | (.ok, _) => msgSize
    | _ => 0

/-- A message (follows `encByProtocol`, zpp_bits.h:2341-2416). `w` counts the body. -/
def movesByProtocol (c : Cfg) (sz : SizeTy) (body : OutM) (w : OutSt → Nat) (st : OutSt) : Nat :=
  match sz with
  | .none => w st
  | .fixed _ => movesAfter (encHdr c sz 0) w st
  | .varint => movesAfter (encHdr c sz 0) w st + movesAfter ((encHdr c sz 0).andThen body) (movedAhead c.g st.pos) st

/-- A member of a message (follows `pbEncField`, zpp_bits.h:4787-4927). Packed numbers are not moved. -/
def movesField (c : Cfg) (rec : Ty → Val → OutM) (w : Ty → Val → OutSt → Nat) (maps : List (Nat × Nat)) (num : Option Nat)
    (i : Nat) (t : Ty) (v : Val) : OutSt → Nat :=
  match pbOutClass t with
  | .single => movesAfter (encTag c maps num i (pbWireType t)) (w t v)
  | .map key mapped =>
    match v with
    | .list vs => movesAll (fun e => (encTag c maps num i 2).andThen (rec (pbEntry key mapped) e))
        (fun e => movesAfter (encTag c maps num i 2) (w (pbEntry key mapped) e)) vs
    | _ => fun _ => 0
  | .repeated elem =>
    match v with
    | .list vs => movesAll (fun e => (encTag c maps none i (pbWireType elem)).andThen (rec elem e))
        (fun e => movesAfter (encTag c maps none i (pbWireType elem)) (w elem e)) vs
    | _ => fun _ => 0
  | _ => fun _ => 0

/-- All members of a message (follows `pbEncFields`, zpp_bits.h:4763-4785). -/
def movesMembers (c : Cfg) (rec : Ty → Val → OutM) (w : Ty → Val → OutSt → Nat) (maps : List (Nat × Nat)) :
    Nat → List (Option Nat) → List Ty → List Val → OutSt → Nat
  | i, num :: nums, t :: ts, v :: vs, st =>
    movesField c rec w maps num i t v st +
      movesAfter (pbEncField c rec maps num i t v) (movesMembers c rec w maps (i + 1) nums ts vs) st
  | _, _, _, _, _ => 0

/-- Bytes moved by `serialize_one(item)` (follows `encode`, zpp_bits.h:2042-2416). -/
def moves : Nat → Cfg → Ty → Val → (OutSt → Nat)
  | 0, _, _, _ => fun _ => 0
  | d + 1, c, t, v =>
    match t with
    | .struct ok fs =>
      match v with
      | .list vs => if asBytes c (.struct ok fs) then fun _ => 0 else movesFields (encode d c) (moves d c) fs vs
      | _ => fun _ => 0
    | .array n t' =>
      match v with
      | .list vs => if vs.length ≠ n then fun _ => 0 else if asBytes c t' then fun _ => 0 else movesAll (encode d c t') (moves d c t') vs
      | _ => fun _ => 0
    | .seq k sz t' =>
      match v with
      | .list vs =>
        if k ≠ .list ∧ asBytes c t' then fun _ => 0
        else movesAfter (encHdr c (effSz c sz) vs.length) (movesAll (encode d c t') (moves d c t') vs)
      | _ => fun _ => 0
    | .assoc _ _ sz key mapped =>
      match v with
      | .list vs =>
        match mapped with
        | none => movesAfter (encHdr c (effSz c sz) vs.length) (movesAll (encode d c key) (moves d c key) vs)
        | some m =>
          movesAfter (encHdr c (effSz c sz) vs.length)
            (movesAll
              (fun e => match e with | .list es => encFields (encode d c) [key, m] es | _ => OutM.fail .illFormed)
              (fun e => match e with | .list es => movesFields (encode d c) (moves d c) [key, m] es | _ => fun _ => 0) vs)
      | _ => fun _ => 0
    | .optional _ t' | .optPtr t' =>
      match v with
      | .some v => movesAfter (put c.g [1]) (moves d c t' v)
      | _ => fun _ => 0
    | .uptr t' =>
      match v with
      | .some v => moves d c t' v
      | _ => fun _ => 0
    | .variant idTy ids _ alts =>
      match v with
      | .alt i v =>
        match ids[i]?, alts[i]? with
        | some id, some t' => fun st => moves d c idTy id st + movesAfter (encode d c idTy id) (moves d c t' v) st
        | _, _ => fun _ => 0
      | _ => fun _ => 0
    | .msg sz _ maps nums fs =>
      match v with
      | .list vs =>
        movesByProtocol c (effSz c sz) (pbEncFields (pbOutCfg c) (encode d (pbOutCfg c)) maps 0 nums fs vs)
          (movesMembers (pbOutCfg c) (encode d (pbOutCfg c)) (moves d (pbOutCfg c)) maps 0 nums fs vs)
      | _ => fun _ => 0
    | .ref i => moves d c (c.env i) v
    | _ => fun _ => 0

/-- Bytes moved by `serialize_many(items...)` (follows `encMany`, zpp_bits.h:2005-2019). -/
def movesMany (d : Nat) (c : Cfg) : List (Ty × Val) → OutSt → Nat
  | [], _ => 0
  | (t, v) :: rest, st => moves d c t v st + movesAfter (encode d c t v) (movesMany d c rest) st

end Zpp
