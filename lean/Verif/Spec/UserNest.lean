import Verif.Model.UserNest
import Verif.Spec.Archive
import Verif.Spec.Input
/-!
# Objects that contain classes with a user-written `serialize` function

Everything here is defined by recursion on a number that bounds how deep such classes and containers are nested;
theorems hold for every such number.
-/

namespace Zpp.Spec
open Zpp

/-- The members a function hands over for the object with the members `self`, in order, with their types. -/
def uVisits {T : Type} (self : List Val) : ScriptOf T → List (Nat × T)
  | .archive m t next => (m, t) :: uVisits self (next (memberOf self m))
  | _ => []

/-- Encodings one after the other. -/
def catAll (w : Val → Option (List UInt8)) : List Val → Option (List UInt8)
  | [] => some []
  | v :: vs => cat (w v) (catAll w vs)

/-- The encodings of the members a function hands over, in order. There is none if the function returns an error. -/
def uSays {T : Type} (w : T → Val → Option (List UInt8)) (self : List Val) : ScriptOf T → Option (List UInt8)
  | .done => some []
  | .fail _ => none
  | .archive m t next =>
    if m < self.length then cat (w t (memberOf self m)) (uSays w self (next (memberOf self m))) else none

/-- Encoding of an entry of a map: key, mapped object. -/
def uEntry (key mapped : Val → Option (List UInt8)) : Val → Option (List UInt8)
  | .list [k, x] => cat (key k) (mapped x)
  | _ => none

/-- Encoding of an object: containers, optionals, pointers, variants and maps as for library types, an object with a
user-written function as the members this function hands over. -/
def uWire (f : Fmt) (env : Nat → UTy) : Nat → UTy → Val → Option (List UInt8)
  | 0, _, _ => none
  | d + 1, t, v =>
    match t, v with
    | .lib t', v => wire f t' v
    | .user _ s, .list vs => uSays (uWire f env d) vs s
    | .seq _ sz t', .list vs => cat (sizePrefix f (sz.getD f.dsz) vs.length) (catAll (uWire f env d t') vs)
    | .array n t', .list vs => if vs.length = n then catAll (uWire f env d t') vs else none
    | .set _ _ sz t', .list vs => cat (sizePrefix f (sz.getD f.dsz) vs.length) (catAll (uWire f env d t') vs)
    | .map _ _ sz key t', .list vs =>
      cat (sizePrefix f (sz.getD f.dsz) vs.length) (catAll (uEntry (uWire f env d key) (uWire f env d t')) vs)
    | .optional _ _, .none => some [0]
    | .optional _ t', .some x => cat (some [1]) (uWire f env d t' x)
    | .optPtr _, .none => some [0]
    | .optPtr t', .some x => cat (some [1]) (uWire f env d t' x)
    | .uptr t', .some x => uWire f env d t' x
    | .variant idTy ids _ alts, .alt i x =>
      match ids[i]?, alts[i]? with
      | some id, some t' => cat (wire f idTy id) (uWire f env d t' x)
      | _, _ => none
    | .ref i, v => uWire f env d (env i) v
    | _, _ => none

/-- Two lists agree element by element. -/
def Pairwise2 (R : Val → Val → Prop) : List Val → List Val → Prop
  | [], [] => True
  | v :: vs, w :: ws => R v w ∧ Pairwise2 R vs ws
  | _, _ => False

/-- Two entries of a map agree in the key and in the mapped object. -/
def sameEntry (K R : Val → Val → Prop) : Val → Val → Prop
  | .list [k, x], .list [k', y] => K k k' ∧ R x y
  | _, _ => False

/-- Two objects agree in everything that is handed to the archive for the first one. Members that are not handed over
may differ. -/
def uSame (env : Nat → UTy) : Nat → UTy → Val → Val → Prop
  | 0, _, _, _ => False
  | d + 1, t, v, w =>
    match t, v, w with
    | .lib _, v, w => v = w
    | .user _ s, .list vs, .list ws =>
      ws.length = vs.length ∧ ∀ x ∈ uVisits vs s, uSame env d x.2 (memberOf vs x.1) (memberOf ws x.1)
    | .seq _ _ t', .list vs, .list ws => Pairwise2 (uSame env d t') vs ws
    | .array _ t', .list vs, .list ws => Pairwise2 (uSame env d t') vs ws
    | .set _ _ _ t', .list vs, .list ws => Pairwise2 (uSame env d t') vs ws
    | .map _ _ _ key t', .list vs, .list ws => Pairwise2 (sameEntry (uSame env d key) (uSame env d t')) vs ws
    | .optional _ _, .none, .none => True
    | .optional _ t', .some v, .some w => uSame env d t' v w
    | .optPtr _, .none, .none => True
    | .optPtr t', .some v, .some w => uSame env d t' v w
    | .uptr t', .some v, .some w => uSame env d t' v w
    | .variant _ _ _ alts, .alt i v, .alt j w => i = j ∧ ∃ t', alts[i]? = some t' ∧ uSame env d t' v w
    | .ref i, v, w => uSame env d (env i) v w
    | _, _, _ => False

/-- `P` holds for every object of a library type that is handed to the archive, `N` for every other object on the way
there. Both also get the bound on the nesting of what is left. -/
def uEach (env : Nat → UTy) (P : Nat → Ty → Val → Prop) (N : Nat → UTy → Val → Prop) : Nat → UTy → Val → Prop
  | 0, _, _ => True
  | d + 1, t, v =>
    match t, v with
    | .lib t', v => P (d + 1) t' v
    | .user fresh s, .list vs =>
      N d (.user fresh s) (.list vs) ∧ ∀ x ∈ uVisits vs s, uEach env P N d x.2 (memberOf vs x.1)
    | .seq k sz t', .list vs => N d (.seq k sz t') (.list vs) ∧ ∀ v ∈ vs, uEach env P N d t' v
    | .array n t', .list vs => N d (.array n t') (.list vs) ∧ ∀ v ∈ vs, uEach env P N d t' v
    | .set multi hashed sz t', .list vs =>
      N d (.set multi hashed sz t') (.list vs) ∧ ∀ v ∈ vs, uEach env P N d t' v
    | .map multi hashed sz key t', .list vs =>
      N d (.map multi hashed sz key t') (.list vs) ∧
        ∀ k x, .list [k, x] ∈ vs → uEach env P N d key k ∧ uEach env P N d t' x
    | .optional _ t', .some x => uEach env P N d t' x
    | .optPtr t', .some x => uEach env P N d t' x
    | .uptr t', .some x => uEach env P N d t' x
    | .variant idTy ids dcs alts, .alt i x =>
      N d (.variant idTy ids dcs alts) (.alt i x) ∧
        (∀ id, ids[i]? = some id → P d idTy id) ∧ ∀ t', alts[i]? = some t' → uEach env P N d t' x
    | .ref i, v => uEach env P N d (env i) v
    | _, _ => True

/-- The function takes its decisions on what it has handed over: for any other object that agrees in the members
handed over so far it goes on in the same way. -/
def uDecides {T : Type} (same : T → Val → Val → Prop) (self : List Val) : ScriptOf T → Prop
  | .archive m t next =>
    (∀ w, same t (memberOf self m) w → next w = next (memberOf self m)) ∧
      uDecides same self (next (memberOf self m))
  | _ => True

/-- What writing an object into the archive `u.c` assumes. `clean`: all bytes from the position on are zero (needed for
bitsets only). -/
structure UWritable (u : UCfg) (d : Nat) (t : UTy) (v : Val) (clean : Bool) : Prop where
  growth : GrowthOk u.c.g
  abi : AbiOk u.c.sizeof
  env : EnvGood u.c
  parts : uEach u.env (fun n t v => Good u.c t = true ∧ 2 * depth v ≤ n ∧ (clean = true ∨ noBits v = true))
    (fun _ _ _ => True) d t v

/-- The elements are in the iteration order of the container, and stay so whatever the members are that are not handed to the
archive. -/
def StaysOrdered (lt : Val → Val → Bool) (multi hashed isMap : Bool) (same : Val → Val → Prop) (vs : List Val) : Prop :=
  Ordered lt multi hashed isMap vs ∧ ∀ ws, Pairwise2 same vs ws → Ordered lt multi hashed isMap ws

/-- The node of an object can be read back: containers have a size prefix and fit the allocation limit and memory,
sets and maps are in iteration order, ids of variants are distinct, functions hand over no member twice and decide on what they
have handed over. -/
def uReads (u : UCfg) (d : Nat) : UTy → Val → Prop
  | .user fresh s, .list vs =>
    vs.length = fresh.length ∧ ((uVisits vs s).map Prod.fst).Nodup ∧ uDecides (uSame u.env d) vs s
  | .seq k sz t, .list vs =>
    k ≠ .span ∧ k ≠ .view ∧ sz.getD u.c.dsz ≠ .none ∧ Fits u.c.g (u.sizeof t) vs.length
  | .set multi hashed sz t, .list vs =>
    sz.getD u.c.dsz ≠ .none ∧ StaysOrdered (u.lt t) multi hashed false (uSame u.env d t) vs
  | .map multi hashed sz key t, .list vs =>
    sz.getD u.c.dsz ≠ .none ∧
      StaysOrdered (u.lt key) multi hashed true (sameEntry (uSame u.env d key) (uSame u.env d t)) vs
  | .variant _ ids dcs alts, _ => nodup ids = true ∧ dcs.length = alts.length
  | _, _ => True

/-- What reading an object from the archive `u.c` assumes. -/
structure UReadable (u : UCfg) (d : Nat) (t : UTy) (v : Val) : Prop where
  abi : AbiOk u.c.sizeof
  env : EnvGood u.c
  parts : uEach u.env (fun n t v => Good u.c t = true ∧ Loadable u.c t v ∧ 2 * depth v ≤ n) (uReads u) d t v

/-- Every function hands over all members of the object. -/
def uComplete (env : Nat → UTy) (d : Nat) (t : UTy) (v : Val) : Prop :=
  uEach env (fun _ _ _ => True) (fun _ t v =>
    match t, v with
    | .user _ s, .list vs => ∀ m, m < vs.length → m ∈ (uVisits vs s).map Prod.fst
    | _, _ => True) d t v

mutual
/-- All library types in the type satisfy `P`, and functions return only errors that satisfy `E`. -/
inductive UAll (P : Ty → Prop) (E : Errc → Prop) : UTy → Prop where
  | lib {t : Ty} (h : P t) : UAll P E (.lib t)
  | user {fresh : List Val} {s : ScriptOf UTy} (h : UAllS P E s) : UAll P E (.user fresh s)
  | seq {k : SeqKind} {sz : Option SizeTy} {t : UTy} (h : UAll P E t) : UAll P E (.seq k sz t)
  | array {n : Nat} {t : UTy} (h : UAll P E t) : UAll P E (.array n t)
  | set {multi hashed : Bool} {sz : Option SizeTy} {t : UTy} (h : UAll P E t) : UAll P E (.set multi hashed sz t)
  | map {multi hashed : Bool} {sz : Option SizeTy} {key t : UTy} (hk : UAll P E key) (h : UAll P E t) :
      UAll P E (.map multi hashed sz key t)
  | optional {dc : Bool} {t : UTy} (h : UAll P E t) : UAll P E (.optional dc t)
  | optPtr {t : UTy} (h : UAll P E t) : UAll P E (.optPtr t)
  | uptr {t : UTy} (h : UAll P E t) : UAll P E (.uptr t)
  | variant {idTy : Ty} {ids : List Val} {dcs : List Bool} {alts : List UTy} (hid : P idTy)
      (h : ∀ t ∈ alts, UAll P E t) : UAll P E (.variant idTy ids dcs alts)
  | ref (i : Nat) : UAll P E (.ref i)
/-- The same for what a function can ever hand over and return. -/
inductive UAllS (P : Ty → Prop) (E : Errc → Prop) : ScriptOf UTy → Prop where
  | done : UAllS P E .done
  | fail {e : Errc} (h : E e) : UAllS P E (.fail e)
  | archive {m : Nat} {t : UTy} {next : Val → ScriptOf UTy} (h : UAll P E t) (hn : ∀ v, UAllS P E (next v)) :
      UAllS P E (.archive m t next)
end

end Zpp.Spec
