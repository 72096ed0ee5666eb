import Verif.Model.In
/-!
# The work done by an input archive

The functions of this file follow the functions of `Verif.Model.In` and count what they do: one for every object visited
(every call of `serialize_one` for an object, and every field tag of a message), and `q` for every element a container
is resized to. Positions and outcomes are those of the functions they follow. Size prefixes, presence bytes and ids of
variants belong to the object they introduce, except that ids are objects themselves. Bytes copied are not counted: they
are consumed from the input.
-/

namespace Zpp

/-- Elements read one after the other, until one fails (follows `decAll`, zpp_bits.h:2715-2721, 2841-2847). `w` counts one
element. -/
def workAll (rec : Val → Nat → Res) (w : Val → Nat → Nat) : List Val → Nat → Nat
  | [], _ => 0
  | v :: vs, p =>
    match rec v p with
    | ⟨.ok, _, p'⟩ => w v p + workAll rec w vs p'
    | _ => w v p

/-- Members read one after the other (follows `decFields`, zpp_bits.h:2585-2599). -/
def workFields (rec : Ty → Val → Nat → Res) (w : Ty → Val → Nat → Nat) : List Ty → List Val → Nat → Nat
  | [], _, _ => 0
  | t :: ts, os, p =>
    match rec t (os.headD .unit) p with
    | ⟨.ok, _, p'⟩ => w t (os.headD .unit) p + workFields rec w ts os.tail p'
    | _ => w t (os.headD .unit) p

/-- Entries of a set or map (follows `decAssoc`, zpp_bits.h:2870-2901). -/
def workAssoc (elem : Nat → Res) (w : Nat → Nat) : Nat → Nat → Nat
  | 0, _ => 0
  | n + 1, p =>
    match elem p with
    | ⟨.ok, _, p'⟩ => w p + workAssoc elem w n p'
    | _ => w p

/-- Elements of a sequence container whose size is settled (follows `seqBody`): nothing but a copy for contiguous storage of
byte-serializable elements (zpp_bits.h:2785-2801, 2804-2847). -/
def workBody (c : Cfg) (k : SeqKind) (t : Ty) (rec : Val → Nat → Res) (w : Val → Nat → Nat) (olds : List Val) (p : Nat) : Nat :=
  if k ≠ .list ∧ asBytes c t then 0 else workAll rec w olds p

/-- A sequence container after its size prefix gave `n` (follows `seqFill`, zpp_bits.h:2756-2847). -/
def workFill (q : Nat) (c : Cfg) (k : SeqKind) (t : Ty) (rec : Val → Nat → Res) (w : Val → Nat → Nat) (dv old : Val) (n p : Nat) : Nat :=
  match k with
  | .view => 0
  | .span => if old.elems.length < n then 0 else workBody c .span t rec w (old.elems.take n) p
  | k =>
    if c.g.limit ≠ sizeMax ∧ c.g.limit / c.sizeof t < n then 0
    else if c.g.maxMem < n * c.sizeof t then 0
    else q * n + workBody c k t rec w (resizeVals old.elems n dv) p

/-- The loop over the elements of a packed field (follows `pbPacked`, zpp_bits.h:5140-5148). -/
def workPacked (fetch : List Val → Nat → ResL) (w : Nat → Nat) (endPos : Nat) : Nat → List Val → Nat → Nat
  | 0, _, _ => 0
  | f + 1, vs, p =>
    if p < endPos then
      match fetch vs p with
      | ⟨.ok, vs', p'⟩ => w p + workPacked fetch w endPos f vs' p'
      | _ => w p
    else 0

/-- Packed or single elements of a repeated scalar member (follows `pbDecPacked`, zpp_bits.h:5091-5149). -/
def workPackedField (q : Nat) (c : Cfg) (rec : Ty → Val → Nat → Res) (w : Ty → Val → Nat → Nat) (t elemTy : Ty) (fix : Bool)
    (wt : Nat) (old : Val) (data : List UInt8) (p : Nat) : Nat :=
  if wt ≠ 2 then w elemTy .unit p
  else
    match decHdr c .varint data p with
    | (.ok, len, p1) =>
      if hasResize t && fix then
        if c.g.limit ≠ sizeMax ∧ c.g.limit < len then 0
        else if c.g.maxMem < len / c.sizeof elemTy * c.sizeof elemTy then 0
        else q * (len / c.sizeof elemTy) + w (unsizedTy t) (.list (resizeVals old.elems (len / c.sizeof elemTy) (.num 0))) p1
      else if hasReserve t ∧ c.g.maxMem < len * c.sizeof elemTy then 0
      else workPacked (pbFetch c t (rec elemTy .unit)) (w elemTy .unit) (wrap (len + p1)) (data.length + 1) old.elems p1
    | _ => 0

/-- One member of a message (follows `pbDecField`, zpp_bits.h:5026-5172). -/
def workField (q : Nat) (c : Cfg) (rec : Ty → Val → Nat → Res) (w : Ty → Val → Nat → Nat) (fresh : Ty → Val) (t : Ty) (wt : Nat)
    (old : Val) (data : List UInt8) (p : Nat) : Nat :=
  match pbInClass t with
  | .enumV _ => 1
  | .map key mapped => w (pbEntry key mapped) (fresh (pbEntry key mapped)) p
  | .packedFix elem => workPackedField q c rec w t elem true wt old data p
  | .packedVar n zz => workPackedField q c rec w t (.varint n zz) false wt old data p
  | .packedEnum n => workPackedField q c rec w t (.varint n false) false wt old data p
  | .repeated elem => w elem (fresh elem) p
  | .single => w t old p
  | .skip => 0

/-- The member with a field number (follows `pbDispatch`, zpp_bits.h:4985-5024). Comparing the numbers of the members, at
most one comparison each, is not counted. -/
def workDispatch (wf : Ty → Nat → Val → Nat → Nat) (maps : List (Nat × Nat)) (num wt : Nat) :
    Nat → List (Option Nat) → List Ty → List Val → Nat → Nat
  | i, n :: nums, t :: ts, os, p =>
    if pbNumber maps n i = num then wf t wt (os.headD .unit) p
    else workDispatch wf maps num wt (i + 1) nums ts os.tail p
  | _, _, _, _, _ => 0

/-- The loop over the records of a message (follows `pbLoop`, zpp_bits.h:4969-4982). -/
def workLoop (field : Ty → Nat → Val → Nat → Res) (wf : Ty → Nat → Val → Nat → Nat) (maps : List (Nat × Nat))
    (nums : List (Option Nat)) (fs : List Ty) (data : List UInt8) : Nat → List Val → Nat → Nat
  | 0, _, _ => 0
  | f + 1, vs, p =>
    if p < data.length then
      match getVarint 4 false (.num 0) data p with
      | ⟨.ok, .num tag, p1⟩ =>
        1 + workDispatch wf maps (tag >>> 3) (tag &&& 7) 0 nums fs vs p1 +
        match pbDispatch field maps (tag >>> 3) (tag &&& 7) 0 nums fs vs p1 with
        | ⟨.ok, vs', p2⟩ => workLoop field wf maps nums fs data f vs' p2
        | _ => 0
      | _ => 1
    else 0

/-- The records of a message of `size` bytes at `p` (follows `msgRun`, zpp_bits.h:4929-4983). -/
def workMsg (q : Nat) (c' : Cfg) (rec : Ty → Val → List UInt8 → Nat → Res) (w : Ty → Val → List UInt8 → Nat → Nat) (fresh : Ty → Val)
    (maps : List (Nat × Nat)) (nums : List (Option Nat)) (fs : List Ty) (old : Val) (data : List UInt8) (size p : Nat) : Nat :=
  if data.length < p then 0
  else
    let sub := msgSub data p size
    workLoop (fun t wt v q => pbDecField c' (fun t v q => rec t v sub q) fresh t wt v sub q)
      (fun t wt v r => workField q c' (fun t v r => rec t v sub r) (fun t v r => w t v sub r) fresh t wt v sub r)
      maps nums fs sub (sub.length + 1) (pbClear fs old.elems) 0

/-- The work of `serialize_one(item)` of an input archive (follows `decode`, zpp_bits.h:2601-3122). -/
def work (q : Nat) : Nat → Cfg → Ty → Val → List UInt8 → Nat → Nat
  | 0, _, _, _, _, _ => 1
  | d + 1, c, t, old, data, p =>
    match t with
    | .struct ok fs =>
      if asBytes c (.struct ok fs) then 1
      else 1 + workFields (fun t v p => decode d c t v data p) (fun t v p => work q d c t v data p) fs old.elems p
    | .array n t' =>
      if asBytes c t' then 1
      else 1 + workAll (fun v p => decode d c t' v data p) (fun v p => work q d c t' v data p) (resizeVals old.elems n .unit) p
    | .seq k sz t' =>
      match effSz c sz with
      | .none =>
        match k with
        | .view => 1
        | k => 1 + workBody c k t' (fun v p => decode d c t' v data p) (fun v p => work q d c t' v data p) old.elems p
      | s =>
        match decHdr c s data p with
        | (.ok, n, p1) =>
          1 + workFill q c k t' (fun v p => decode d c t' v data p) (fun v p => work q d c t' v data p) (dflt c d t') old n p1
        | _ => 1
    | .assoc _ _ sz key mapped =>
      match decHdr c (effSz c sz) data p with
      | (.ok, n, p1) =>
        match mapped with
        | none => 1 + workAssoc (fun p => decode d c key (dflt c d key) data p) (fun p => work q d c key (dflt c d key) data p) n p1
        | some m =>
          1 + workAssoc
            (fun p => (decFields (fun t v p => decode d c t v data p) [key, m] [dflt c d key, dflt c d m] p).toRes)
            (fun p => workFields (fun t v p => decode d c t v data p) (fun t v p => work q d c t v data p) [key, m]
              [dflt c d key, dflt c d m] p) n p1
      | _ => 1
    | .optional dc t' =>
      match getBytes data p 1 with
      | (.ok, bs, p1) =>
        if leNat bs = 0 then 1
        else if dc then
          1 + work q d c t' (match old with
            | .some v => v
            | _ => dflt c d t') data p1
        else 1 + work q d c t' (dflt c d t') data p1
      | _ => 1
    | .optPtr t' =>
      match getBytes data p 1 with
      | (.ok, bs, p1) => if leNat bs = 0 then 1 else 1 + work q d c t' (dflt c d t') data p1
      | _ => 1
    | .uptr t' => 1 + work q d c t' (dflt c d t') data p
    | .variant idTy ids dcs alts =>
      1 + work q d c idTy (dflt c d idTy) data p +
      match decode d c idTy (dflt c d idTy) data p with
      | ⟨.ok, id, p1⟩ =>
        match findId id ids 0 with
        | none => 0
        | some i =>
          match alts[i]?, dcs[i]? with
          | some t', some dc =>
            work q d c t' (if dc then
              match old with
              | .alt j v => if j = i then v else dflt c d t'
              | _ => dflt c d t'
              else dflt c d t') data p1
          | _, _ => 0
      | _ => 0
    | .msg sz _ maps nums fs =>
      match effSz c sz with
      | .none => 1 + workMsg q (pbCfg c) (decode d (pbCfg c)) (work q d (pbCfg c)) (dflt (pbCfg c) d) maps nums fs old data sizeMax p
      | s =>
        match decHdr c s data p with
        | (.ok, n, p1) =>
          1 + workMsg q (pbCfg c) (decode d (pbCfg c)) (work q d (pbCfg c)) (dflt (pbCfg c) d) maps nums fs old data n p1
        | _ => 1
    | .ref i => 1 + work q d c (c.env i) old data p
    | _ => 1

/-- The work of `in::operator()(items...)` (follows `decMany`, zpp_bits.h:2532-2535, 2585-2599). -/
def workMany (q d : Nat) (c : Cfg) (data : List UInt8) : List (Ty × Val) → Nat → Nat
  | [], _ => 0
  | (t, o) :: rest, p =>
    match decode d c t o data p with
    | ⟨.ok, _, p'⟩ => work q d c t o data p + workMany q d c data rest p'
    | _ => work q d c t o data p

end Zpp
