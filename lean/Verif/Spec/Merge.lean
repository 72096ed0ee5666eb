import Verif.Spec.Records
/-!
# Objects written one behind the other as protobuf messages
-/

namespace Zpp.Spec

/-- A member with the value `before` when a further message, in which the member has the value `v`, is read: sequences get longer,
those of numbers of fixed size (and strings) are replaced unless the new one is empty, sets and maps get the elements whose keys
they do not have yet, and everything else is replaced. -/
def mergeValue (c : Cfg) (t : Ty) (before v : Val) : Val :=
  match t with
  | .seq _ _ e =>
    if fixedElem e then (if v.elems.isEmpty then before else v) else .list (before.elems ++ v.elems)
  | .assoc multi hashed _ key mapped =>
    .list (v.elems.foldl (fun xs e => insertElem (c.keyLt key) multi hashed mapped.isSome e xs) before.elems)
  | _ => v

/-- One item for each object, as messages without size. -/
def unsizedItems (ok : Bool) (maps : List (Nat × Nat)) (nums : List (Option Nat)) (fs : List Ty) (vss : List (List Val)) :
    List (Ty × Val) :=
  vss.map fun vs => (.msg (some .none) ok maps nums fs, .list vs)

end Zpp.Spec
