import Verif.Model.In
/-!
# Specification: levels of messages

How many messages with a varint length are around the innermost one in an object. An entry of a map member of a message is a
message. `n` bounds the depth to which the object is searched, `dsz` is the default size type of the archive.
-/

namespace Zpp.Spec

/-- The largest of the numbers. -/
def maxOf : List Nat → Nat
  | [] => 0
  | n :: ns => max n (maxOf ns)

/-- Levels of messages in a member of a message: in its elements, if there are any, and in its entries, which are messages. `lv`
tells the levels of other objects. -/
def memberLevels (lv : Ty → Val → Nat) : Ty → Val → Nat
  | .seq _ _ t, v => maxOf (v.elems.map (lv t))
  | .assoc _ _ _ key none, v => maxOf (v.elems.map (lv key))
  | .assoc _ _ _ key (some m), v => maxOf (v.elems.map fun e =>
      1 + max (memberLevels lv key (e.elems.headD .unit)) (memberLevels lv m (e.elems.getD 1 .unit)))
  | t, v => lv t v

/-- Levels of messages in an object; inside messages lengths are varints. -/
def levels : Nat → (Nat → Ty) → SizeTy → Ty → Val → Nat
  | 0, _, _, _, _ => 0
  | n + 1, env, dsz, t, v =>
    match t with
    | .struct _ fs => maxOf ((fs.zip v.elems).map fun x => levels n env dsz x.1 x.2)
    | .array _ t' => maxOf (v.elems.map (levels n env dsz t'))
    | .seq _ _ t' => maxOf (v.elems.map (levels n env dsz t'))
    | .assoc _ _ _ key none => maxOf (v.elems.map (levels n env dsz key))
    | .assoc _ _ _ key (some m) =>
      maxOf (v.elems.map fun e => maxOf (([key, m].zip e.elems).map fun x => levels n env dsz x.1 x.2))
    | .optional _ t' | .optPtr t' | .uptr t' =>
      match v with
      | .some v => levels n env dsz t' v
      | _ => 0
    | .variant idTy ids _ alts =>
      match v with
      | .alt i v => max ((ids[i]?).elim 0 (levels n env dsz idTy)) ((alts[i]?).elim 0 fun t' => levels n env dsz t' v)
      | _ => 0
    | .msg sz _ _ _ fs =>
      (if sz.getD dsz = .varint then 1 else 0) +
        maxOf ((fs.zip v.elems).map fun x => memberLevels (levels n env .varint) x.1 x.2)
    | .ref i => levels n env dsz (env i) v
    | _ => 0

/-- `struct node { std::vector<node> children; };` as a message; `.ref 0` is the class itself. -/
def node : Ty := .msg none false [] [none] [.seq .vector none (.ref 0)]

/-- A node below `n` other nodes that have one child each. -/
def chain : Nat → Val
  | 0 => .list [.list []]
  | n + 1 => .list [.list [chain n]]

end Zpp.Spec
