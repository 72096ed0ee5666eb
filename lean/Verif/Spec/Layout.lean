import Verif.Spec.Wire
/-!
# Specification: where the parts of an object are

Objects of some types always take the same number of bytes, so parts behind them can be found without reading what is in front.
-/

namespace Zpp.Spec

mutual
/-- The number of bytes of every object of the type, if all take the same. -/
def layout : Ty → Option Nat
  | .scalar _ n => some n
  | .bool => some 1
  | .empty => some 0
  | .bitset n => some ((n + 7) / 8)
  | .struct _ fs => layouts fs
  | .array n t => (layout t).map (n * ·)
  | .uptr t => layout t
  | _ => none
/-- Members one behind the other. -/
def layouts : List Ty → Option Nat
  | [] => some 0
  | t :: ts =>
    match layout t, layouts ts with
    | some a, some b => some (a + b)
    | _, _ => none
end

/-- Offset and type of a part of an object. A path is a list of indices: of a member, of an element of an array or container (with a
size prefix of fixed size, or none), or 0 for the object an optional or pointer holds. The members in front of it, and the elements
of arrays and containers, must have a fixed layout. -/
def place (f : Fmt) : List Nat → Ty → Option (Nat × Ty)
  | [], t => some (0, t)
  | i :: path, .struct _ fs =>
    match layouts (fs.take i), fs[i]? with
    | some o, some t => (place f path t).map fun r => (o + r.1, r.2)
    | _, _ => none
  | i :: path, .array _ t =>
    match layout t with
    | some s => (place f path t).map fun r => (i * s + r.1, r.2)
    | none => none
  | i :: path, .seq _ sz t =>
    match sz.getD f.dsz, layout t with
    | .fixed k, some s => (place f path t).map fun r => (k + i * s + r.1, r.2)
    | .none, some s => (place f path t).map fun r => (i * s + r.1, r.2)
    | _, _ => none
  | 0 :: path, .optional _ t => (place f path t).map fun r => (1 + r.1, r.2)
  | 0 :: path, .optPtr t => (place f path t).map fun r => (1 + r.1, r.2)
  | 0 :: path, .uptr t => place f path t
  | _ :: _, _ => none

/-- The part of an object at a path. -/
def partAt : List Nat → Val → Option Val
  | [], v => some v
  | i :: path, .list vs =>
    match vs[i]? with
    | some v => partAt path v
    | none => none
  | 0 :: path, .some v => partAt path v
  | _ :: _, _ => none

/-- The object with the part at a path replaced. -/
def withPart (w : Val) : List Nat → Val → Val
  | [], _ => w
  | i :: path, .list vs =>
    match vs[i]? with
    | some v => .list (vs.set i (withPart w path v))
    | none => .list vs
  | 0 :: path, .some v => .some (withPart w path v)
  | _ :: _, v => v

end Zpp.Spec
