import Verif.Model.User
/-!
# User-written `serialize` functions anywhere inside an object

`Model/User.lean` has a class with a user-written `serialize` function as the outermost object. Here such classes are
elements of containers, contents of optionals, owning pointers, variants and maps, members of each other, and may be
recursive.
-/

namespace Zpp

/-- What a user-written `serialize` does (called from zpp_bits.h:2047-2050 and 2606-2609), as `Script`, but members may
have types of any kind `T`. `archive(a, b)` is `archive(a)` followed by `archive(b)` (zpp_bits.h:2005-2019,
2585-2599). A class or tuple the library itself takes apart into its members, some of which are of classes with such a
function, serializes as with the function that lists all of them (zpp_bits.h:2076-2084, 2252-2265, 2631-2639,
2906-2919): it is not copied as bytes, since the members are not. -/
inductive ScriptOf (T : Type) where
  | done
  | fail (e : Errc)
  | archive (m : Nat) (t : T) (next : Val → ScriptOf T)

/-- Types that may contain classes with a user-written `serialize` function. Simplified: elements of containers are assumed to
be of such classes or to contain them (containers without them are library types). -/
inductive UTy where
  /-- A type without such classes. -/
  | lib (t : Ty)
  /-- A class with such a function; `fresh` are the members of a value-initialized object. -/
  | user (fresh : List Val) (s : ScriptOf UTy)
  /-- `std::vector`, `std::list`, `std::deque`, `std::span` of such objects. -/
  | seq (k : SeqKind) (sz : Option SizeTy) (t : UTy)
  /-- C arrays and `std::array`. -/
  | array (n : Nat) (t : UTy)
  /-- (Multi)sets of such objects. -/
  | set (multi hashed : Bool) (sz : Option SizeTy) (t : UTy)
  /-- (Multi)maps with such objects as keys, or mapped to. -/
  | map (multi hashed : Bool) (sz : Option SizeTy) (key t : UTy)
  /-- `std::optional`; `dc`: the content is default constructible. -/
  | optional (dc : Bool) (t : UTy)
  /-- `zpp::bits::optional_ptr`. -/
  | optPtr (t : UTy)
  /-- Owning pointers. -/
  | uptr (t : UTy)
  /-- `std::variant`. -/
  | variant (idTy : Ty) (ids : List Val) (dcs : List Bool) (alts : List UTy)
  /-- The class with this number (recursive classes). -/
  | ref (i : Nat)

/-- Configuration: that of the archive, the numbered classes, `sizeof` of types with such classes, and the order of such
classes in sets and maps. -/
structure UCfg where
  c : Cfg
  env : Nat → UTy
  sizeof : UTy → Nat
  keyLt : UTy → Val → Val → Bool := fun _ _ _ => false

/-- The order of elements of sets and of keys of maps. -/
def UCfg.lt (u : UCfg) : UTy → Val → Val → Bool
  | .lib t => u.c.keyLt t
  | t => u.keyLt t

/-- Member `m` of an object. -/
def memberOf (vs : List Val) (m : Nat) : Val := vs[m]?.getD .unit

/-- The function called by an output archive (zpp_bits.h:2047-2050); `rec` serializes one object. -/
def uScriptOut {T : Type} (rec : T → Val → OutM) (self : List Val) : ScriptOf T → OutM
  | .done => OutM.skip
  | .fail e => OutM.fail (.err e)
  | .archive m t next => (rec t (memberOf self m)).andThen (uScriptOut rec self (next (memberOf self m)))

/-- The function called by an input archive (zpp_bits.h:2606-2609); `rec` reads one object. Every member handed over is
overwritten, also when reading it fails. -/
def uScriptIn {T : Type} (rec : T → Val → Nat → Res) : ScriptOf T → List Val → Nat → ResL
  | .done, vs, p => ⟨.ok, vs, p⟩
  | .fail e, vs, p => ⟨.err e, vs, p⟩
  | .archive m t next, vs, p =>
    match rec t (memberOf vs m) p with
    | ⟨.ok, v, p'⟩ => uScriptIn rec (next v) (vs.set m v) p'
    | ⟨s, v, p'⟩ => ⟨s, vs.set m v, p'⟩

/-- An entry of a map (`std::pair<const Key, T>`, zpp_bits.h:2234-2250, 2252-2265). Pairs have two members; what is said
about other objects agrees with `encFields`. -/
def uEntryOut (key mapped : Val → OutM) : Val → OutM
  | .list [k, x] => (key k).andThen (mapped x)
  | .list (k :: x :: _) => ((key k).andThen (mapped x)).andThen (OutM.fail .illFormed)
  | .list [k] => (key k).andThen (OutM.fail .illFormed)
  | _ => OutM.fail .illFormed

/-- `serialize_one(item)` of an output archive, as `encode` (zpp_bits.h:2042-2416), with one more rule: a class with a
user-written function is serialized by that function (2047-2050). The first argument is the remaining stack depth. -/
def uEncode : Nat → UCfg → UTy → Val → OutM
  | 0, _, _, _ => OutM.fail .stack
  | d + 1, u, t, v =>
    match t with
    | .lib t' => encode (d + 1) u.c t' v
    | .user _ s =>
      match v with
      | .list vs => uScriptOut (uEncode d u) vs s
      | _ => OutM.fail .illFormed
    | .seq _ sz t' =>
      match v with
      | .list vs => (encHdr u.c (effSz u.c sz) vs.length).andThen (encAll (uEncode d u t') vs)
      | _ => OutM.fail .illFormed
    | .array n t' =>
      match v with
      | .list vs => if vs.length ≠ n then OutM.fail .illFormed else encAll (uEncode d u t') vs
      | _ => OutM.fail .illFormed
    | .set _ _ sz t' =>
      match v with
      | .list vs => (encHdr u.c (effSz u.c sz) vs.length).andThen (encAll (uEncode d u t') vs)
      | _ => OutM.fail .illFormed
    | .map _ _ sz key t' =>
      match v with
      | .list vs =>
        (encHdr u.c (effSz u.c sz) vs.length).andThen
          (encAll (uEntryOut (uEncode d u key) (uEncode d u t')) vs)
      | _ => OutM.fail .illFormed
    | .optional _ t' => encOptional u.c.g (uEncode d u t') v
    | .optPtr t' => encOptional u.c.g (uEncode d u t') v
    | .uptr t' => encUptr (uEncode d u t') v
    | .variant idTy ids _ alts =>
      match v with
      | .valueless => OutM.fail (.err .invalidArgument)
      | .alt i x =>
        match ids[i]?, alts[i]? with
        | some id, some t' => (encode d u.c idTy id).andThen (uEncode d u t' x)
        | _, _ => OutM.fail .illFormed
      | _ => OutM.fail .illFormed
    | .ref i => uEncode d u (u.env i) v

/-- `out(object)` (zpp_bits.h:2443-2456). -/
def uCall (d : Nat) (u : UCfg) (noFit : Bool) (t : UTy) (v : Val) : OutM := fitCall u.c noFit (uEncode d u t v)

/-- Value initialization; the first argument bounds the recursion into numbered classes and arrays, as for `dflt`. -/
def uFresh : Nat → UCfg → UTy → Val
  | 0, _, _ => .unit
  | d + 1, u, t =>
    match t with
    | .lib t' => dflt u.c (d + 1) t'
    | .user fresh _ => .list fresh
    | .seq _ _ _ => .list []
    | .array n t' => .list (List.replicate n (uFresh d u t'))
    | .set _ _ _ _ => .list []
    | .map _ _ _ _ _ => .list []
    | .optional _ _ => .none
    | .optPtr _ => .none
    | .uptr _ => .none
    | .variant _ _ _ alts =>
      match alts with
      | [] => .valueless
      | t' :: _ => .alt 0 (uFresh d u t')
    | .ref i => uFresh d u (u.env i)

/-- A sequence container after its size prefix gave `n` (zpp_bits.h:2756-2847, as `seqFill`): the elements are not
copied as bytes, so there are no views; spans must be large enough and are shortened, containers are resized within the
allocation limit. `size` is the size of an element, `dv` a value-initialized element. -/
def uSeqFill (g : Growth) (k : SeqKind) (size : Nat) (rec : Val → Nat → Res) (dv old : Val) (n p : Nat) : Res :=
  match k with
  | .view => ⟨.illFormed, old, p⟩
  | .span =>
    if old.elems.length < n then ⟨.err .resultOutOfRange, old, p⟩
    else (decAll rec (old.elems.take n) p).toRes
  | _ =>
    if g.limit ≠ sizeMax ∧ g.limit / size < n then ⟨.err .messageSize, old, p⟩
    else if g.maxMem < n * size then ⟨.badAlloc, old, p⟩
    else (decAll rec (resizeVals old.elems n dv) p).toRes

/-- Reading an entry of a map into a fresh pair (zpp_bits.h:2870-2886, 2906-2919). -/
def uEntryIn (key mapped : Nat → Res) (p : Nat) : Res :=
  match key p with
  | ⟨.ok, k, p1⟩ =>
    let r := mapped p1
    ⟨r.s, .list [k, r.v], r.p⟩
  | ⟨s, k, p1⟩ => ⟨s, .list [k], p1⟩

/-- Reading the content of an optional (zpp_bits.h:2921-2962, optional_ptr 1492-1515): in place if there is one and it
is default constructible (`cur` is the content, or a fresh one), otherwise a fresh object (`dv`) that is moved in. -/
def uOptIn (inPlace : Bool) (rec : Val → Nat → Res) (cur dv old : Val) (data : List UInt8) (p : Nat) : Res :=
  match getBytes data p 1 with
  | (.ok, bs, p1) =>
    if leNat bs = 0 then ⟨.ok, .none, p1⟩
    else if inPlace then
      let r := rec cur p1
      ⟨r.s, .some r.v, r.p⟩
    else
      match rec dv p1 with
      | ⟨.ok, v, p2⟩ => ⟨.ok, .some v, p2⟩
      | ⟨s, _, p2⟩ => ⟨s, old, p2⟩
  | (s, _, p1) => ⟨s, old, p1⟩

/-- `serialize_one(item)` of an input archive, as `decode` (zpp_bits.h:2601-3122), with one more rule: a class with a
user-written function is read by that function (2606-2609). The first argument is the remaining stack depth. -/
def uDecode : Nat → UCfg → UTy → Val → List UInt8 → Nat → Res
  | 0, _, _, old, _, p => ⟨.stack, old, p⟩
  | d + 1, u, t, old, data, p =>
    match t with
    | .lib t' => decode (d + 1) u.c t' old data p
    | .user fresh s =>
      (uScriptIn (fun t v p => uDecode d u t v data p) s (resizeVals old.elems fresh.length .unit) p).toRes
    | .seq k sz t' =>
      match effSz u.c sz with
      | .none =>
        if k = .view then ⟨.illFormed, old, p⟩
        else (decAll (fun v p => uDecode d u t' v data p) old.elems p).toRes
      | s =>
        match decHdr u.c s data p with
        | (.ok, n, p1) =>
          uSeqFill u.c.g k (u.sizeof t') (fun v p => uDecode d u t' v data p) (uFresh d u t') old n p1
        | (s', _, p1) => ⟨s', old, p1⟩
    | .array n t' =>
      (decAll (fun v p => uDecode d u t' v data p) (resizeVals old.elems n .unit) p).toRes
    | .set multi hashed sz t' =>
      match decHdr u.c (effSz u.c sz) data p with
      | (.ok, n, p1) =>
        (decAssoc (fun p => uDecode d u t' (uFresh d u t') data p) (assocInsert (u.lt t') multi hashed false) n [] p1).toRes
      | (s, _, p1) => ⟨s, old, p1⟩
    | .map multi hashed sz key t' =>
      match decHdr u.c (effSz u.c sz) data p with
      | (.ok, n, p1) =>
        (decAssoc (uEntryIn (fun p => uDecode d u key (uFresh d u key) data p)
            (fun p => uDecode d u t' (uFresh d u t') data p))
          (assocInsert (u.lt key) multi hashed true) n [] p1).toRes
      | (s, _, p1) => ⟨s, old, p1⟩
    | .optional dc t' =>
      uOptIn dc (fun v p => uDecode d u t' v data p) (match old with | .some v => v | _ => uFresh d u t')
        (uFresh d u t') old data p
    | .optPtr t' =>
      uOptIn false (fun v p => uDecode d u t' v data p) (uFresh d u t') (uFresh d u t') old data p
    | .uptr t' =>
      match uDecode d u t' (uFresh d u t') data p with
      | ⟨.ok, v, p1⟩ => ⟨.ok, .some v, p1⟩
      | ⟨s, _, p1⟩ => ⟨s, old, p1⟩
    | .variant idTy ids dcs alts =>
      match decode d u.c idTy (dflt u.c d idTy) data p with
      | ⟨.ok, id, p1⟩ =>
        match findId id ids 0 with
        | none => ⟨.err .badMessage, old, p1⟩
        | some i =>
          match alts[i]?, dcs[i]? with
          | some t', some dc => decAlt (fun v p => uDecode d u t' v data p) dc i (uFresh d u t') old p1
          | _, _ => ⟨.illFormed, old, p1⟩
      | ⟨s, _, p1⟩ => ⟨s, old, p1⟩
    | .ref i => uDecode d u (u.env i) old data p

end Zpp
