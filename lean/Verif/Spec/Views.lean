import Verif.Model.Types
/-!
# Views inside objects
-/

namespace Zpp.Spec

/-- `bs` occurs in the input between the positions `p` and `p'`. -/
def Window (data : List UInt8) (p p' : Nat) (bs : List UInt8) : Prop :=
  ∃ q, p ≤ q ∧ q + bs.length ≤ p' ∧ q + bs.length ≤ data.length ∧ (data.drop q).take bs.length = bs

/-- Somewhere in the object `v` of type `t` there is a byte view (`string_view`, `span<const byte>`) that shows the bytes `bs`:
the object is the view, or it is in an element, member, entry, content or alternative of it. Views inside
protobuf messages are not counted; members of messages that are views or containers of views do not compile (`C67_refused`,
zpp_bits.h:4584-4622), only C arrays of views do. -/
inductive HasView (env : Nat → Ty) : Ty → Val → List UInt8 → Prop
  | here {sz t bs} : t = .scalar .byte 1 ∨ t = .scalar .chr 1 →
      HasView env (.seq .view sz t) (.list (bs.map fun b => .num b.toNat)) bs
  | elem {k sz t vs v bs} : k ≠ .view → v ∈ vs → HasView env t v bs → HasView env (.seq k sz t) (.list vs) bs
  | member {ok fs vs t v bs} (i : Nat) : fs[i]? = some t → vs[i]? = some v → HasView env t v bs →
      HasView env (.struct ok fs) (.list vs) bs
  | array {n t vs v bs} : v ∈ vs → HasView env t v bs → HasView env (.array n t) (.list vs) bs
  | setElem {mu ha sz key vs v bs} : v ∈ vs → HasView env key v bs → HasView env (.assoc mu ha sz key none) (.list vs) bs
  | mapElem {mu ha sz key m vs v bs} : v ∈ vs → HasView env (.struct false [key, m]) v bs →
      HasView env (.assoc mu ha sz key (some m)) (.list vs) bs
  | optional {dc t v bs} : HasView env t v bs → HasView env (.optional dc t) (.some v) bs
  | optPtr {t v bs} : HasView env t v bs → HasView env (.optPtr t) (.some v) bs
  | uptr {t v bs} : HasView env t v bs → HasView env (.uptr t) (.some v) bs
  | alt {idTy ids dcs alts i t v bs} : alts[i]? = some t → HasView env t v bs →
      HasView env (.variant idTy ids dcs alts) (.alt i v) bs
  | ref {i v bs} : HasView env (env i) v bs → HasView env (.ref i) v bs

end Zpp.Spec
