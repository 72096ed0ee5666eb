import Verif.Model.Out
import Verif.Model.In
/-!
# An input and an output archive over one buffer

`in_out(view, options...)` and `data_in_out(options...)` (zpp_bits.h:3155-3180): both archives hold a reference to the
same buffer and have their own position.
-/

namespace Zpp

/-- The shared buffer, the position of the output archive and the position of the input archive
(zpp_bits.h:3155-3180; `m_data`, `m_position` of `basic_out` 2415-2416 and `in` 3124-3125). -/
structure Duplex where
  data : List UInt8
  wpos : Nat
  rpos : Nat
deriving DecidableEq, Repr, Inhabited

/-- A call of the output archive. The input archive sees the new buffer (it holds a reference). -/
def Duplex.write (d : Nat) (c : Cfg) (noFit : Bool) (items : List (Ty × Val)) (x : Duplex) : Status × Duplex :=
  let r := outCall d c noFit items ⟨x.data, x.wpos⟩
  (r.1, ⟨r.2.data, r.2.pos, x.rpos⟩)

/-- A call of the input archive. -/
def Duplex.read (d : Nat) (c : Cfg) (dests : List (Ty × Val)) (x : Duplex) : Status × List Val × Duplex :=
  let r := decMany d c x.data dests x.rpos
  (r.s, r.vs, ⟨x.data, x.wpos, r.p⟩)

/-- A call on one of the two archives: `out(items...)` or `in(dests...)`. -/
inductive Op
  | write (items : List (Ty × Val))
  | read (dests : List (Ty × Val))
deriving Repr, Inhabited

/-- One call: outcome, objects read, new state. -/
def Duplex.step (d : Nat) (c : Cfg) (noFit : Bool) (x : Duplex) : Op → (Status × List Val) × Duplex
  | .write items => let r := x.write d c noFit items; ((r.1, []), r.2)
  | .read dests => let r := x.read d c dests; ((r.1, r.2.1), r.2.2)

/-- A history of calls: the outcomes in order, and the final state. -/
def Duplex.run (d : Nat) (c : Cfg) (noFit : Bool) : List Op → Duplex → List (Status × List Val) × Duplex
  | [], x => ([], x)
  | op :: ops, x =>
    let r := x.step d c noFit op
    let rs := Duplex.run d c noFit ops r.2
    (r.1 :: rs.1, rs.2)

end Zpp
