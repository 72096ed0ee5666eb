import Verif.Model.In
import Verif.Model.Out
/-!
# Classes with a user-written `serialize` function

`static auto serialize(auto & archive, auto & self)` decides by itself what it hands to the archive and may decide on
the values it has handed over before (for example: archive a tag, then the member this tag selects, or return an
error).
-/

namespace Zpp

/-- What a user-written `serialize` does (called from zpp_bits.h:2047-2050 and 2606-2609): end successfully, return an
error, or hand one member to `archive(...)` (zpp_bits.h:1925-1928, 2532-2535), return that call's error if it fails,
and go on depending on the value of the member. `Ty` is the type of the member, which is a number for short: the
members an object can hand over are numbered, those of nested objects with such a function and the elements of
containers the function loops over included. `archive(a, b)` is `archive(a)` followed by `archive(b)`
(zpp_bits.h:2005-2019, 2585-2599), so a call with several objects is such a function, too.
Simplified: the function may not depend on anything else; stack used by the function itself is not counted; all
members are handed over as objects of library types (which cannot contain such objects). -/
inductive Script where
  | done
  | fail (e : Errc)
  | archive (m : Nat) (t : Ty) (next : Val → Script)

/-- The members of an object. -/
abbrev Obj := Nat → Val

/-- The function called by an output archive (zpp_bits.h:2047-2050): members are written by
`basic_out::operator()` (zpp_bits.h:1925-1928), which unlike `out::operator()` never fits the buffer. -/
def scriptOut (d : Nat) (c : Cfg) (self : Obj) : Script → OutM
  | .done => OutM.skip
  | .fail e => OutM.fail (.err e)
  | .archive m t next => (encode d c t (self m)).andThen (scriptOut d c self (next (self m)))

/-- `out(object)` (zpp_bits.h:2443-2456). -/
def scriptCall (d : Nat) (c : Cfg) (noFit : Bool) (s : Script) (self : Obj) : OutM :=
  fitCall c noFit (scriptOut d c self s)

/-- The outcome of reading an object: status, the object afterwards, the position. -/
structure ResU where
  s : Status
  obj : Obj
  p : Nat

/-- Replace member `m`. -/
def Obj.set (o : Obj) (m : Nat) (v : Val) : Obj := fun k => if k = m then v else o k

/-- The function called by an input archive (zpp_bits.h:2606-2609): every member handed over is overwritten, also when
reading it fails. -/
def scriptIn (d : Nat) (c : Cfg) (data : List UInt8) : Script → Obj → Nat → ResU
  | .done, o, p => ⟨.ok, o, p⟩
  | .fail e, o, p => ⟨.err e, o, p⟩
  | .archive m t next, o, p =>
    match decode d c t (o m) data p with
    | ⟨.ok, v, p'⟩ => scriptIn d c data (next v) (o.set m v) p'
    | ⟨s, v, p'⟩ => ⟨s, o.set m v, p'⟩

end Zpp
