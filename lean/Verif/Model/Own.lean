import Verif.Model.Located
import Verif.Model.Out
/-!
# Writing objects whose views may show the archive's own buffer

`Model/Out` takes objects as values. Here the bytes of a view are read when they are copied, from memory that the archive itself
changes: the buffer `b` is the one the archive writes to.
-/

namespace Zpp

/-- The memory while the bytes of buffer `b` are `data`. -/
def Memory.with (m : Memory) (b : Nat) (data : List UInt8) : Memory := fun i => if i = b then data else m i

/-- The bytes `memcpy` finds at a place (zpp_bits.h:2133-2135). Undefined: a place outside of its buffer; a place in the archive's own
buffer `b` if the buffer has become longer than the capacity `cap` it had when the call began (the vector has moved, and the view
dangles); a place in it that overlaps with the target bytes. -/
def viewSource (m : Memory) (b cap : Nat) (pl : Place) (st : OutSt) : Option (List UInt8) :=
  if pl.buf = b then
    if st.data.length ≤ cap ∧ pl.off + pl.len ≤ st.data.length ∧ (pl.off + pl.len ≤ st.pos ∨ st.pos + pl.len ≤ pl.off) then
      some ((st.data.drop pl.off).take pl.len)
    else none
  else if pl.off + pl.len ≤ (m pl.buf).length then some (m.bytes pl) else none

/-- Serialization of the bytes of a view (`putBytes`; zpp_bits.h:2087-2141): the buffer is enlarged before the bytes are copied. -/
def putView (g : Growth) (m : Memory) (b cap : Nat) (pl : Place) : OutM :=
  if pl.len = 0 then OutM.skip
  else (claim g pl.len).andThen fun st =>
    match viewSource m b cap pl st with
    | some bs => memcpyAt bs st
    | none => (.ub, st)

/-- Elements one by one (`encAll`; zpp_bits.h:2171-2177, 2242-2248). -/
def encAllL (rec : LVal → OutM) : List LVal → OutM
  | [] => OutM.skip
  | v :: vs => (rec v).andThen (encAllL rec vs)

/-- Members one by one (`encFields`; zpp_bits.h:2005-2019, 2252-2265). -/
def encFieldsL (rec : Ty → LVal → OutM) : List Ty → List LVal → OutM
  | [], [] => OutM.skip
  | t :: ts, v :: vs => (rec t v).andThen (encFieldsL rec ts vs)
  | _, _ => OutM.fail .illFormed

/-- Objects that are read as a whole when their serialization begins: numbers, bitsets, what is copied as bytes, and protobuf
messages (simplified: a view in a message is read when the message begins; zpp_bits.h:2042-2416). -/
def encWhole (d : Nat) (c : Cfg) (m : Memory) (b : Nat) (t : Ty) (v : LVal) : OutM := fun st =>
  encode d c t (v.look (m.with b st.data)) st

/-- `serialize_one(item)` of an output archive over the buffer `b`, as `encode` (zpp_bits.h:2042-2416), for objects whose views have
places; `cap` is the capacity of the buffer when the call began. -/
def encodeL : Nat → Cfg → Memory → Nat → Nat → Ty → LVal → OutM
  | 0, _, _, _, _, _, _ => OutM.fail .stack
  | d + 1, c, m, b, cap, t, v =>
    match t with
    | .struct ok fs =>
      match v with
      | .list vs =>
        if asBytes c (.struct ok fs) then encWhole (d + 1) c m b t v
        else encFieldsL (encodeL d c m b cap) fs vs
      | _ => encWhole (d + 1) c m b t v
    | .array n t' =>
      match v with
      | .list vs =>
        if vs.length ≠ n then OutM.fail .illFormed
        else if asBytes c t' then encWhole (d + 1) c m b t v
        else encAllL (encodeL d c m b cap t') vs
      | _ => encWhole (d + 1) c m b t v
    | .seq k sz t' =>
      match v with
      | .view pl =>
        if k = .view ∧ isViewElem t' then (encHdr c (effSz c sz) pl.len).andThen (putView c.g m b cap pl)
        else encWhole (d + 1) c m b t v
      | .list vs =>
        if k ≠ .list ∧ asBytes c t' then encWhole (d + 1) c m b t v
        else (encHdr c (effSz c sz) vs.length).andThen (encAllL (encodeL d c m b cap t') vs)
      | _ => encWhole (d + 1) c m b t v
    | .assoc _ _ sz key mapped =>
      match v with
      | .list vs =>
        (encHdr c (effSz c sz) vs.length).andThen
          (encAllL (fun e =>
            match mapped with
            | none => encodeL d c m b cap key e
            | some m' =>
              match e with
              | .list es => encFieldsL (encodeL d c m b cap) [key, m'] es
              | e => encWhole (d + 1) c m b (.struct false [key, m']) e) vs)
      | _ => encWhole (d + 1) c m b t v
    | .optional _ t' =>
      match v with
      | .some w => (put c.g [1]).andThen (encodeL d c m b cap t' w)
      | _ => encWhole (d + 1) c m b t v
    | .optPtr t' =>
      match v with
      | .some w => (put c.g [1]).andThen (encodeL d c m b cap t' w)
      | _ => encWhole (d + 1) c m b t v
    | .uptr t' =>
      match v with
      | .some w => encodeL d c m b cap t' w
      | _ => encWhole (d + 1) c m b t v
    | .variant idTy ids dcs alts =>
      match v with
      | .alt i w =>
        match ids[i]?, alts[i]? with
        | some id, some t' => (encode d c idTy id).andThen (encodeL d c m b cap t' w)
        | _, _ => OutM.fail .illFormed
      | _ => encWhole (d + 1) c m b t v
    | .ref i => encodeL d c m b cap (c.env i) v
    | t => encWhole (d + 1) c m b t v

/-- `serialize_many(items...)` (`encMany`; zpp_bits.h:1925-1928, 2005-2019). -/
def encManyL (d : Nat) (c : Cfg) (m : Memory) (b cap : Nat) : List (Ty × LVal) → OutM
  | [] => OutM.skip
  | (t, v) :: rest => (encodeL d c m b cap t v).andThen (encManyL d c m b cap rest)

/-- `out(items...)` of an archive that writes to the buffer `b` (`outCall`; zpp_bits.h:2443-2456), whose `capacity()` is `cap`, or its size if
that is more (for arrays and spans: the size). -/
def outCallL (d : Nat) (c : Cfg) (noFit : Bool) (m : Memory) (b cap : Nat) (items : List (Ty × LVal)) : OutM := fun st =>
  fitCall c noFit (encManyL d c m b (max cap st.data.length) items) st

end Zpp
