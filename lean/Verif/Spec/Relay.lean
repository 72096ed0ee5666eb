import Verif.Spec.Input
import Verif.Spec.Objects
import Verif.Spec.Reread
/-!
# Specification: objects small enough to be passed on
-/

namespace Zpp.Spec

mutual
/-- The number of values an object consists of: numbers, containers, classes. -/
def cells : Val → Nat
  | .list vs => 1 + cellsL vs
  | .some v => 1 + cells v
  | .alt _ v => 1 + cells v
  | .bits bs => 1 + bs.length
  | _ => 1
/-- Of several objects. -/
def cellsL : List Val → Nat
  | [] => 0
  | v :: vs => cells v + cellsL vs
end

mutual
/-- The elements of packed members have at most `W` bytes in memory. -/
def narrow (so : Ty → Nat) (W : Nat) : Ty → Bool
  | .seq _ _ t => (!isPacked t || so (packedElem t) ≤ W) && narrow so W t
  | .assoc _ _ _ key none => (!isPacked key || so (packedElem key) ≤ W) && narrow so W key
  | .assoc _ _ _ key (some m) => narrow so W key && narrow so W m
  | .msg _ _ _ _ fs => narrowL so W fs
  | _ => true
/-- Of several members. -/
def narrowL (so : Ty → Nat) (W : Nat) : List Ty → Bool
  | [] => true
  | t :: ts => narrow so W t && narrowL so W ts
end

/-- Thirty bytes and the largest packed element for each value are a length protobuf can express, and memory suffices for
`W` times as much. -/
structure Roomy (g : Growth) (W n : Nat) : Prop where
  len : (W + 30) * n < 2 ^ 56
  mem : (W + 1) * ((W + 30) * n) ≤ g.maxMem
  limit : g.limit = sizeMax

/-- A message class with a size prefix that has room for the object. -/
def prefixRoom (c : Cfg) (W : Nat) : Ty → Val → Prop
  | .msg sz _ _ _ _, v =>
    match sz.getD c.dsz with
    | .fixed k => (W + 30) * cells v < 256 ^ k
    | .varint => True
    | .none => False
  | _, _ => False

/-- What is asked of a message object to be passed on: its class is supported, its `bool`s are 0 or 1, and it is not larger
than sizes and memory allow. -/
structure Sendable (c : Cfg) (W : Nat) (t : Ty) (v : Val) : Prop where
  good : Good c t = true
  bools : Bools c.env t v
  narrow : narrow c.sizeof W t = true
  room : Roomy c.g W (cells v)
  pre : prefixRoom c W t v

end Zpp.Spec
