import Verif.Model.Out
import Verif.Model.In
/-!
# Variants with a known id

`known_id<Id>(variant)` and `known_id(id, variant)` (zpp_bits.h:3306-3360) as arguments of archive calls.
-/

namespace Zpp

/-- An argument of a call `archive(args...)`.
* `obj t v` : an object;
* `known id … v` : `known_id<Id>(variant)` for a variant with the given ids and alternatives (zpp_bits.h:3306-3328);
* `knownDyn id … v` : `known_id(id, variant)` (zpp_bits.h:3330-3360).
For input, `v` is the destination's previous object. -/
inductive Arg
  | obj (t : Ty) (v : Val)
  | known (id : Val) (ids : List Val) (dcs : List Bool) (alts : List Ty) (v : Val)
  | knownDyn (id : Val) (ids : List Val) (dcs : List Bool) (alts : List Ty) (v : Val)
deriving Repr, Inhabited

/-- `serialize_one` of an output archive for an argument. `known_id<Id>` selects the alternative at compile time
(`index<Id>()`, zpp_bits.h:490-500; an id that is not listed does not compile) and dereferences
`std::get_if<index>(&variant)` (zpp_bits.h:2283-2287), which is null if the variant holds another alternative or is
valueless. There is no output overload for `known_id(id, variant)`: it does not compile.
Simplification: the forwarding `serialize` function (zpp_bits.h:3314-3318) is not charged to the stack. -/
def encArg (d : Nat) (c : Cfg) : Arg → OutM
  | .obj t v => encode d c t v
  | .known id ids _ alts v =>
    match findId id ids 0 with
    | none => OutM.fail .illFormed
    | some i =>
      match alts[i]?, v with
      | some t, .alt j w => if j = i then encode d c t w else OutM.fail .ub
      | some _, .valueless => OutM.fail .ub
      | _, _ => OutM.fail .illFormed
  | .knownDyn _ _ _ _ _ => OutM.fail .illFormed

/-- `serialize_many(args...)` of an output archive (zpp_bits.h:2005-2019). -/
def encArgs (d : Nat) (c : Cfg) : List Arg → OutM
  | [] => OutM.skip
  | a :: rest => (encArg d c a).andThen (encArgs d c rest)

/-- `out::operator()(args...)` (zpp_bits.h:2443-2456). -/
def outArgs (d : Nat) (c : Cfg) (noFit : Bool) (args : List Arg) : OutM := fitCall c noFit (encArgs d c args)

/-- `serialize_one<Id>(variant)` of an input archive (zpp_bits.h:2974-3001). A default constructible alternative is
read in place. Otherwise a fresh object is read and moved into the variant, and then the function ends without a
`return` statement (line 3001). -/
def decKnown (rec : Val → Nat → Res) (dc : Bool) (i : Nat) (dv old : Val) (p : Nat) : Res :=
  if dc then decAlt rec true i dv old p
  else
    match rec dv p with
    | ⟨.ok, v, p'⟩ => ⟨.ub, .alt i v, p'⟩
    | ⟨s, _, p'⟩ => ⟨s, old, p'⟩

/-- `serialize_one` of an input archive for an argument; the run time id is looked up by `index(id)` and rejected with
`bad_message` if it is not listed (zpp_bits.h:3013-3056). -/
def decArg (d : Nat) (c : Cfg) (data : List UInt8) : Arg → Nat → Res
  | .obj t v, p => decode d c t v data p
  | .known id ids dcs alts v, p =>
    match findId id ids 0 with
    | none => ⟨.illFormed, v, p⟩
    | some i =>
      match alts[i]?, dcs[i]? with
      | some t, some dc => decKnown (fun v p => decode d c t v data p) dc i (dflt c d t) v p
      | _, _ => ⟨.illFormed, v, p⟩
  | .knownDyn id ids dcs alts v, p =>
    match findId id ids 0 with
    | none => ⟨.err .badMessage, v, p⟩
    | some i =>
      match alts[i]?, dcs[i]? with
      | some t, some dc => decAlt (fun v p => decode d c t v data p) dc i (dflt c d t) v p
      | _, _ => ⟨.illFormed, v, p⟩

/-- The destination object of an argument. -/
def Arg.val : Arg → Val
  | .obj _ v => v
  | .known _ _ _ _ v => v
  | .knownDyn _ _ _ _ v => v

/-- `in::operator()(args...)` (zpp_bits.h:2532-2535, 2585-2599). -/
def inArgs (d : Nat) (c : Cfg) (data : List UInt8) : List Arg → Nat → ResL
  | [], p => ⟨.ok, [], p⟩
  | a :: rest, p =>
    match decArg d c data a p with
    | ⟨.ok, v, p'⟩ => let r := inArgs d c data rest p'; ⟨r.s, v :: r.vs, r.p⟩
    | ⟨s, v, p'⟩ => ⟨s, v :: rest.map Arg.val, p'⟩

end Zpp
