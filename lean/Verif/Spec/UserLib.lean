import Verif.Spec.UserNest
import Verif.Spec.Records
/-!
# Classes whose `serialize` function lists their members

For such a class the library would do the same without the function (unless it would copy the object as bytes).
-/

namespace Zpp.Spec
open Zpp

/-- `archive(m_i); archive(m_i+1); ...` for members of the given types, from member `i` on. -/
def listing : Nat → List UTy → ScriptOf UTy
  | _, [] => .done
  | i, t :: ts => .archive i t fun _ => listing (i + 1) ts

mutual
/-- The second type is the first one with every class that has a function listing all of its members, in order, replaced
by the class without the function. A new object of such a class has new members, nested at most `D / 2` levels deep.
`R`: the numbers of the replaced named classes. Elements of containers are not copied as bytes.
Sets and maps have the same order. -/
inductive AsLib (u : UCfg) (D : Nat) (R : Nat → Nat → Prop) : UTy → Ty → Prop
  | lib (t : Ty) : AsLib u D R (.lib t) t
  | user {ts : List UTy} {fs : List Ty} {fresh : List Val} (h : AsLibL u D R ts fs) (hi : InitialL u.c.env fs fresh)
      (hd : 2 * depthL fresh ≤ D) : AsLib u D R (.user fresh (listing 0 ts)) (.struct false fs)
  | seq {k : SeqKind} (sz : Option SizeTy) {t : UTy} {e : Ty} (h : AsLib u D R t e) (hk : k ≠ .view)
      (hb : asBytes u.c e = false) (hs : u.sizeof t = u.c.sizeof e) : AsLib u D R (.seq k sz t) (.seq k sz e)
  | array (n : Nat) {t : UTy} {e : Ty} (h : AsLib u D R t e) (hb : asBytes u.c e = false) :
      AsLib u D R (.array n t) (.array n e)
  | set (multi hashed : Bool) (sz : Option SizeTy) {t : UTy} {e : Ty} (h : AsLib u D R t e) (hl : u.lt t = u.c.keyLt e) :
      AsLib u D R (.set multi hashed sz t) (.assoc multi hashed sz e none)
  | map (multi hashed : Bool) (sz : Option SizeTy) {k t : UTy} {key e : Ty} (hk : AsLib u D R k key)
      (hl : u.lt k = u.c.keyLt key) (h : AsLib u D R t e) :
      AsLib u D R (.map multi hashed sz k t) (.assoc multi hashed sz key (some e))
  | optional (dc : Bool) {t : UTy} {e : Ty} (h : AsLib u D R t e) : AsLib u D R (.optional dc t) (.optional dc e)
  | optPtr {t : UTy} {e : Ty} (h : AsLib u D R t e) : AsLib u D R (.optPtr t) (.optPtr e)
  | uptr {t : UTy} {e : Ty} (h : AsLib u D R t e) : AsLib u D R (.uptr t) (.uptr e)
  | variant (idTy : Ty) (ids : List Val) (dcs : List Bool) {ts : List UTy} {es : List Ty} (h : AsLibL u D R ts es) :
      AsLib u D R (.variant idTy ids dcs ts) (.variant idTy ids dcs es)
  | ref {i j : Nat} (h : R i j) : AsLib u D R (.ref i) (.ref j)
/-- The same for lists of types. -/
inductive AsLibL (u : UCfg) (D : Nat) (R : Nat → Nat → Prop) : List UTy → List Ty → Prop
  | nil : AsLibL u D R [] []
  | cons {t : UTy} {e : Ty} {ts : List UTy} {es : List Ty} (h : AsLib u D R t e) (hs : AsLibL u D R ts es) :
      AsLibL u D R (t :: ts) (e :: es)
end

mutual
/-- The object has the right number of members and of array elements, also inside the objects it holds. Whatever the
archive replaces without looking at it may be anything. -/
def Built : UTy → Val → Prop
  | .user fresh s, v => v.elems.length = fresh.length ∧ BuiltS s v.elems
  | .seq _ _ t, v => ∀ x ∈ v.elems, Built t x
  | .array n t, v => v.elems.length = n ∧ ∀ x ∈ v.elems, Built t x
  | .optional _ t, v => ∀ x, v = .some x → Built t x
  | .variant _ _ _ alts, v => ∀ i x, v = .alt i x → BuiltAlt alts i x
  | _, _ => True
/-- All members a function hands over. -/
def BuiltS : ScriptOf UTy → List Val → Prop
  | .archive m t next, vs => Built t (memberOf vs m) ∧ ∀ v, BuiltS (next v) vs
  | _, _ => True
/-- The alternative with this index. -/
def BuiltAlt : List UTy → Nat → Val → Prop
  | t :: _, 0, x => Built t x
  | _ :: ts, i + 1, x => BuiltAlt ts i x
  | [], _, _ => True
end

end Zpp.Spec
