import Verif.Model.Types
/-!
# Objects created and destroyed while reading

Which heap objects and temporaries an input archive creates, and when each is destroyed (zpp_bits.h:2601-3122, 395-406,
4929-5178, 3625-3742). Data only matters through the decisions it causes: whether a read succeeds, how many elements follow,
which alternative, which member. All of these, and every exception (allocation, a constructor, a move, a user function), are
answers of an arbitrary `script`; a run on any input, in any environment, is a run for some script.
-/

namespace Zpp

/-- An object as far as ownership matters: nothing owned, parts, or an object of its own (the pointee of an owning pointer)
with identity `id`. -/
inductive OVal
  | leaf
  | node (vs : List OVal)
  | own (id : Nat) (v : OVal)
deriving Repr, Inhabited

mutual
/-- The identities of the objects owned, directly or indirectly. -/
def OVal.ids : OVal → List Nat
  | .leaf => []
  | .node vs => idsAll vs
  | .own id v => id :: v.ids
/-- The same for several objects. -/
def idsAll : List OVal → List Nat
  | [] => []
  | v :: vs => v.ids ++ idsAll vs
end

/-- The parts of an object. -/
def OVal.kids : OVal → List OVal
  | .node vs => vs
  | .leaf => []
  | v => [v]

/-- The next unused identity, the objects destroyed so far (one entry for each destructor call), and the number of questions
answered by the script. -/
structure Heap where
  next : Nat
  freed : List Nat
  tick : Nat
deriving DecidableEq, Repr, Inhabited

/-- How a function is left. `stack`: the stack is exhausted and the process ends. -/
inductive Exit
  | ok
  | err
  | thrown
  | stack
deriving DecidableEq, Repr, Inhabited

/-- Result of reading into an object. -/
structure RunO where
  x : Exit
  v : OVal
  h : Heap
deriving Repr, Inhabited

/-- Result of reading into several objects. -/
structure RunL where
  x : Exit
  vs : List OVal
  h : Heap
deriving Repr, Inhabited

/-- The script's next answer. -/
def ask (s : Nat → Nat) (h : Heap) : Nat × Heap := (s h.tick, { h with tick := h.tick + 1 })

/-- Something that succeeds, fails, or throws. -/
def attempt (s : Nat → Nat) (h : Heap) : Exit × Heap :=
  match ask s h with
  | (0, h) => (.ok, h)
  | (1, h) => (.err, h)
  | (_, h) => (.thrown, h)

/-- The destructors of an object and of all it owns. -/
def destroy (v : OVal) (h : Heap) : Heap := { h with freed := v.ids ++ h.freed }

/-- A new object on the heap or in local storage. -/
def create (h : Heap) : Nat × Heap := (h.next, { h with next := h.next + 1 })

/-- Elements in place: the first `n` of `vs` (zpp_bits.h:2717-2723, 2840-2846). -/
def readElems (rec : OVal → Heap → RunO) : Nat → List OVal → Heap → RunL
  | 0, vs, h => ⟨.ok, vs, h⟩
  | n + 1, vs, h =>
    match rec (vs.headD .leaf) h with
    | ⟨.ok, v, h⟩ => let r := readElems rec n vs.tail h; ⟨r.x, v :: r.vs, r.h⟩
    | ⟨x, v, h⟩ => ⟨x, v :: vs.tail, h⟩

/-- Members in place (zpp_bits.h:2585-2599, 2686-2702). -/
def readFields (rec : Ty → OVal → Heap → RunO) : List Ty → List OVal → Heap → RunL
  | [], vs, h => ⟨.ok, vs, h⟩
  | t :: ts, vs, h =>
    match rec t (vs.headD .leaf) h with
    | ⟨.ok, v, h⟩ => let r := readFields rec ts vs.tail h; ⟨r.x, v :: r.vs, r.h⟩
    | ⟨x, v, h⟩ => ⟨x, v :: vs.tail, h⟩

/-- What becomes of a temporary that was read successfully: a move leaves it without anything it owned; a refused insertion
(the key is there already) leaves it as it is; so does an exception. -/
inductive Commit
  | moved
  | refused
  | thrown
deriving DecidableEq, Repr, Inhabited

/-- The script decides; `insertion`: whether refusal is possible. -/
def commit (s : Nat → Nat) (insertion : Bool) (h : Heap) : Commit × Heap :=
  match ask s h with
  | (0, h) => (.moved, h)
  | (1, h) => (if insertion then .refused else .moved, h)
  | (_, h) => (.thrown, h)

/-- A temporary in local storage: `placement_new`, a `destructor_guard`, reading, and moving it on (zpp_bits.h:2873-2901,
2943-2957, 2988-3002, 3035-3047, 5071-5084, 5150-5168, 395-406). The guard runs at every exit. `store` puts the content into the
destination `dest`. -/
def withTemp (s : Nat → Nat) (insertion : Bool) (rec : OVal → Heap → RunO) (store : OVal → Heap → OVal × Heap)
    (dest : OVal) (h : Heap) : RunO :=
  match attempt s h with
  | (.ok, h) =>
    let (id, h) := create h
    match rec .leaf h with
    | ⟨.ok, v, h⟩ =>
      match commit s insertion h with
      | (.moved, h) =>
        let (dest', h) := store v h
        ⟨.ok, dest', destroy (.own id .leaf) h⟩
      | (.refused, h) => ⟨.ok, dest, destroy (.own id v) h⟩
      | (.thrown, h) => ⟨.thrown, dest, destroy (.own id v) h⟩
    | ⟨x, v, h⟩ => ⟨x, dest, destroy (.own id v) h⟩
  | (_, h) => ⟨.thrown, dest, h⟩

/-- Assignment: what the destination held is destroyed. -/
def assignTo (dest : OVal) (v : OVal) (h : Heap) : OVal × Heap := (.node [v], destroy dest h)

/-- The first `i` of `vs`, with empty-handed objects where there are fewer. -/
def padTake (i : Nat) (vs : List OVal) : List OVal := vs.take i ++ List.replicate (i - vs.length) .leaf

/-- Insertion into a container; the place (the end for `push_back`, by key for sets and maps) is the script's. -/
def insertInto (s : Nat → Nat) (dest : OVal) (v : OVal) (h : Heap) : OVal × Heap :=
  let (i, h) := ask s h
  (.node (padTake i dest.kids ++ v :: dest.kids.drop i), h)

/-- `serialize_one(concepts::owning_pointer)` (zpp_bits.h:3058-3071): `make_unique`, reading the new object, and
`pointer.reset(loaded.release())`, which destroys the old pointee (for `std::shared_ptr` it can throw, which deletes the new
one; the model's pointers are sole owners). -/
def readPtr (s : Nat → Nat) (rec : OVal → Heap → RunO) (old : OVal) (h : Heap) : RunO :=
  match attempt s h with
  | (.ok, h) =>
    let (id, h) := create h
    match rec .leaf h with
    | ⟨.ok, v, h⟩ =>
      match attempt s h with
      | (.thrown, h) => ⟨.thrown, old, destroy (.own id v) h⟩
      | (_, h) => ⟨.ok, .own id v, destroy old h⟩
    | ⟨x, v, h⟩ => ⟨x, old, destroy (.own id v) h⟩
  | (_, h) => ⟨.thrown, old, h⟩

/-- `container.resize(n)` (zpp_bits.h:2764): elements beyond are destroyed. An exception leaves the container as it was. -/
def resizeO (n : Nat) (vs : List OVal) (h : Heap) : List OVal × Heap := (vs.take n, destroy (.node (vs.drop n)) h)

/-- `n` insertions of temporaries (zpp_bits.h:2869-2902). -/
def insertN (s : Nat → Nat) (rec : OVal → Heap → RunO) : Nat → OVal → Heap → RunO
  | 0, dest, h => ⟨.ok, dest, h⟩
  | n + 1, dest, h =>
    match withTemp s true rec (insertInto s dest) dest h with
    | ⟨.ok, dest, h⟩ => insertN s rec n dest h
    | r => r

/-- Containers among the members are cleared (zpp_bits.h:4954-4967). -/
def clearO : List Ty → List OVal → Heap → List OVal × Heap
  | [], vs, h => (vs, h)
  | t :: ts, vs, h =>
    let (v, h) : OVal × Heap := match t with
      | .seq _ _ _ => (.leaf, destroy (vs.headD .leaf) h)
      | .assoc _ _ _ _ _ => (.leaf, destroy (vs.headD .leaf) h)
      | _ => (vs.headD .leaf, h)
    let (rest, h) := clearO ts vs.tail h
    (v :: rest, h)

/-- Whether the type is a view. -/
def isView : Ty → Bool
  | .seq .view _ _ => true
  | _ => false

/-- One member of a message (zpp_bits.h:5026-5172). Numbers own nothing. Views have no `push_back` and do not compile here. -/
def readMember (s : Nat → Nat) (rec : Ty → OVal → Heap → RunO) (t : Ty) (old : OVal) (h : Heap) : RunO :=
  if isView t then
    let (x, h) := attempt s h
    ⟨x, old, h⟩
  else
  match pbInClass t with
  | .map key mapped => withTemp s true (rec (pbEntry key mapped)) (insertInto s old) old h
  | .repeated elem => withTemp s true (rec elem) (insertInto s old) old h
  | .single => rec t old h
  | .skip => ⟨.ok, old, h⟩
  | _ => let (x, h) := attempt s h; ⟨x, old, h⟩

/-- The member the script names (zpp_bits.h:4985-5024). -/
def readNth (s : Nat → Nat) (rec : Ty → OVal → Heap → RunO) : Nat → List Ty → List OVal → Heap → RunL
  | _, [], vs, h => let (x, h) := attempt s h; ⟨x, vs, h⟩
  | 0, t :: _, vs, h => let r := readMember s rec t (vs.headD .leaf) h; ⟨r.x, r.v :: vs.tail, r.h⟩
  | i + 1, _ :: ts, vs, h => let r := readNth s rec i ts vs.tail h; ⟨r.x, vs.headD .leaf :: r.vs, r.h⟩

/-- The records of a message, as many as the script says (zpp_bits.h:4969-4982). -/
def readRecords (s : Nat → Nat) (rec : Ty → OVal → Heap → RunO) (fs : List Ty) : Nat → List OVal → Heap → RunL
  | 0, vs, h => ⟨.ok, vs, h⟩
  | n + 1, vs, h =>
    match attempt s h with
    | (.ok, h) =>
      let (i, h) := ask s h
      match readNth s rec i fs vs h with
      | ⟨.ok, vs, h⟩ => readRecords s rec fs n vs h
      | r => r
    | (x, h) => ⟨x, vs, h⟩

/-- The elements of a container or an array; byte-copied elements own nothing (zpp_bits.h:2713-2715, 2801, 2837). -/
def readBody (c : Cfg) (s : Nat → Nat) (rec : Ty → OVal → Heap → RunO) (block : Bool) (t : Ty) (n : Nat) (vs : List OVal)
    (h : Heap) : RunO :=
  if block && asBytes c t then
    let (x, h) := attempt s h
    ⟨x, .node vs, h⟩
  else
    let r := readElems (rec t) n vs h
    ⟨r.x, .node r.vs, r.h⟩

/-- Reading one alternative of a variant (zpp_bits.h:3015-3050). -/
def readAlt (s : Nat → Nat) (rec : OVal → Heap → RunO) (dc : Bool) (old : OVal) (h : Heap) : RunO :=
  if dc then
    match ask s h with
    | (0, h) =>
      -- the alternative is held already
      match old.kids with
      | [] => let r := rec .leaf h; ⟨r.x, .node [r.v], r.h⟩
      | v :: vs => let r := rec v h; ⟨r.x, .node (r.v :: vs), r.h⟩
    | (1, h) =>
      -- `variant = Types{}`
      let h := destroy old h
      let r := rec .leaf h
      ⟨r.x, .node [r.v], r.h⟩
    | (_, h) => ⟨.thrown, old, h⟩
  else withTemp s false rec (assignTo old) old h

/-- `basic_in::serialize_one` (zpp_bits.h:2601-3122, 1492-1515). The first argument is the remaining stack depth. -/
def readO (s : Nat → Nat) : Nat → Cfg → Ty → OVal → Heap → RunO
  | 0, _, _, old, h => ⟨.stack, old, h⟩
  | d + 1, c, t, old, h =>
    match t with
    | .struct ok fs =>
      if asBytes c (.struct ok fs) then
        let (x, h) := attempt s h
        ⟨x, old, h⟩
      else
        let r := readFields (readO s d c) fs old.kids h
        ⟨r.x, .node r.vs, r.h⟩
    | .array n t' => readBody c s (readO s d c) true t' n old.kids h
    | .seq k sz t' =>
      if effSz c sz = .none then
        if k = .view then
          let (x, h) := attempt s h
          ⟨x, old, h⟩
        else
          let (n, h) := ask s h
          readBody c s (readO s d c) (k ≠ .list) t' n old.kids h
      else
        match attempt s h with
        | (.ok, h) =>
          let (n, h) := ask s h
          match k with
          | .view =>
            let (x, h) := attempt s h
            ⟨x, old, h⟩
          | .span =>
            -- the check that the span is large enough
            match attempt s h with
            | (.ok, h) => readBody c s (readO s d c) true t' n old.kids h
            | (x, h) => ⟨x, old, h⟩
          | k =>
            -- the allocation limit, and exceptions of `resize`
            match attempt s h with
            | (.ok, h) =>
              let (vs, h) := resizeO n old.kids h
              readBody c s (readO s d c) (k ≠ .list) t' n vs h
            | (x, h) => ⟨x, old, h⟩
        | (x, h) => ⟨x, old, h⟩
    | .assoc _ _ _ key mapped =>
      match attempt s h with
      | (.ok, h) =>
        let (n, h) := ask s h
        insertN s (fun v h =>
          match mapped with
          | none => readO s d c key v h
          | some m => let r := readFields (readO s d c) [key, m] v.kids h; ⟨r.x, .node r.vs, r.h⟩) n .leaf (destroy old h)
      | (x, h) => ⟨x, old, h⟩
    | .optional dc t' =>
      match attempt s h with
      | (.ok, h) =>
        match ask s h with
        | (0, h) => ⟨.ok, .leaf, destroy old h⟩
        | (_, h) =>
          if dc then
            match old.kids with
            | [] =>
              match attempt s h with
              | (.ok, h) => let r := readO s d c t' .leaf h; ⟨r.x, .node [r.v], r.h⟩
              | (_, h) => ⟨.thrown, old, h⟩
            | v :: vs => let r := readO s d c t' v h; ⟨r.x, .node (r.v :: vs), r.h⟩
          else withTemp s false (readO s d c t') (assignTo old) old h
      | (x, h) => ⟨x, old, h⟩
    | .optPtr t' =>
      match attempt s h with
      | (.ok, h) =>
        match ask s h with
        | (0, h) => ⟨.ok, .leaf, destroy old h⟩
        | (_, h) => readPtr s (readO s d c t') old h
      | (x, h) => ⟨x, old, h⟩
    | .uptr t' => readPtr s (readO s d c t') old h
    | .variant idTy _ dcs alts =>
      match readO s d c idTy .leaf h with
      | ⟨.ok, id, h⟩ =>
        let (i, h) := ask s h
        match alts[i]?, dcs[i]? with
        | some t', some dc =>
          let r := readAlt s (readO s d c t') dc old h
          ⟨r.x, r.v, destroy id r.h⟩
        | _, _ => ⟨.err, old, destroy id h⟩
      | ⟨x, id, h⟩ => ⟨x, old, destroy id h⟩
    | .msg _ _ _ _ fs =>
      match attempt s h with
      | (.ok, h) =>
        let (n, h) := ask s h
        let (vs, h) := clearO fs old.kids h
        let r := readRecords s (readO s d (pbCfg c)) fs n vs h
        ⟨r.x, .node r.vs, r.h⟩
      | (x, h) => ⟨x, old, h⟩
    | .ref i => readO s d c (c.env i) old h
    | _ =>
      let (x, h) := attempt s h
      ⟨x, old, h⟩

/-- `in::operator()(items...)` (zpp_bits.h:2532-2535, 2585-2599). -/
def readMany (s : Nat → Nat) (d : Nat) (c : Cfg) (ts : List Ty) (olds : List OVal) (h : Heap) : RunL :=
  readFields (readO s d c) ts olds h

/-- `apply(function, archive)` (zpp_bits.h:3625-3742): the parameters are a local tuple, destroyed at every exit; the call moves
them on to the function, which keeps what it wants (`v`, `leaf` if it was not called). -/
def applyO (s : Nat → Nat) (d : Nat) (c : Cfg) (ts : List Ty) (h : Heap) : RunO :=
  withTemp s false (fun v h => let r := readMany s d c ts v.kids h; ⟨r.x, .node r.vs, r.h⟩) (fun v h => (v, h)) .leaf h

end Zpp
