import Verif.Model.Out
import Verif.Model.In
/-!
# The model against the literals in the project's own tests

Each `example` evaluates the model on a vector that appears in `/repo/test/src`. These are sanity checks of
the model (tests, not proofs).
-/

namespace Zpp.Checks

/-- `sizeof` of the types used in examples: packed, no padding. -/
def so : Ty → Nat
  | .scalar _ n => max 1 n
  | .bool => 1
  | .varint n _ => max 1 n
  | .empty => 1
  | .struct _ fs => max 1 (soL fs)
  | .array n t => max 1 n * so t
  | .msg _ _ _ _ fs => max 1 (soL fs)
  | .bitset _ => 8
  | _ => 24
where
  soL : List Ty → Nat
    | [] => 0
    | t :: ts => so t + soL ts

/-- A growing output buffer with the default enlarger `3/2`. -/
def grow : Growth := ⟨true, 3, 2, sizeMax, false, 2 ^ 40⟩
/-- A fixed output buffer. -/
def fixed : Growth := ⟨false, 3, 2, sizeMax, false, 2 ^ 40⟩

/-- Numeric order on keys (other objects come first). -/
def numLt : Ty → Val → Val → Bool
  | _, .num a, .num b => a < b
  | _, .num _, _ => false
  | _, _, .num _ => true
  | _, _, _ => false

/-- Default configuration on a little-endian host. -/
def le (g : Growth) (sz : SizeTy) : Cfg := ⟨.little, false, sz, g, so, fun _ => .empty, numLt⟩
/-- `endian::big` on a little-endian host. -/
def be (g : Growth) (sz : SizeTy) : Cfg := { le g sz with aware := true }

def chr : Ty := .scalar .chr 1
def str : Ty := .seq .vector none chr
def i32 : Ty := .scalar .int 4
def vint32 : Ty := .varint 4 false
def msg (fs : List Ty) : Ty := .msg none false [] (fs.map fun _ => none) fs

def strV (s : List UInt8) : Val := .list (s.map fun b => .num b.toNat)

/-- Bytes produced into an empty growing buffer. -/
def run (c : Cfg) (t : Ty) (v : Val) : Status × List UInt8 :=
  let r := outCall 20 c false [(t, v)] ⟨[], 0⟩
  (r.1, r.2.data)

-- test_pb_protocol.cpp:17-23
example : run (le grow .none) (msg [vint32]) (.list [.num 150]) = (.ok, [0x08, 0x96, 0x01]) := by decide +kernel
-- test_pb_protocol.cpp:33-38
example : run (le grow .none) (msg [msg [vint32]]) (.list [.list [.num 150]]) =
    (.ok, [0x0a, 0x03, 0x08, 0x96, 0x01]) := by decide +kernel
-- test_pb_protocol.cpp:51-58
example : run (le grow .none) (msg [.empty, .empty, msg [vint32]]) (.list [.unit, .unit, .list [.num 150]]) =
    (.ok, [0x1a, 0x03, 0x08, 0x96, 0x01]) := by decide +kernel
-- test_pb_protocol.cpp:69-76
example : run (le grow .none) (.msg none false [] [some 3] [msg [vint32]]) (.list [.list [.num 150]]) =
    (.ok, [0x1a, 0x03, 0x08, 0x96, 0x01]) := by decide +kernel
-- test_pb_protocol.cpp:88-96
example : run (le grow .none) (.msg none false [(1, 3)] [none] [msg [vint32]]) (.list [.list [.num 150]]) =
    (.ok, [0x1a, 0x03, 0x08, 0x96, 0x01]) := by decide +kernel

/-- "John Doe" -/
def sName : List UInt8 := [74, 111, 104, 110, 32, 68, 111, 101]
/-- "jdoe@example.com" -/
def sMail : List UInt8 := [106, 100, 111, 101, 64, 101, 120, 97, 109, 112, 108, 101, 46, 99, 111, 109]
/-- "555-4321" -/
def sPhone : List UInt8 := [53, 53, 53, 45, 52, 51, 50, 49]
def phone : Ty := msg [str, .scalar .enum 4]
def person : Ty := msg [str, vint32, str, .seq .vector none phone]
def john : Val := .list [strV sName, .num 1234, strV sMail, .list [.list [strV sPhone, .num 1]]]
def johnBytes : List UInt8 :=
  [0x0a, 0x08] ++ sName ++ [0x10, 0xd2, 0x09, 0x1a, 0x10] ++ sMail ++
  [0x22, 0x0c, 0x0a, 0x08] ++ sPhone ++ [0x10, 0x01]

set_option maxRecDepth 4000
-- test_pb_protocol.cpp:285-307
example : johnBytes.length = 45 := by decide +kernel
example : run (le grow .none) person john = (.ok, johnBytes) := by decide +kernel
example : encode 20 (le fixed .none) person john ⟨List.replicate 45 0, 0⟩ = (.ok, ⟨johnBytes, 45⟩) := by decide +kernel
example : decode 20 (le grow .none) person (dflt (le grow .none) 9 person) johnBytes 0 = ⟨.ok, john, 45⟩ := by
  decide +kernel
-- test_pb_protocol.cpp:491-510
example : decode 20 (le grow .none) (msg [.seq .vector none person]) (.list [.list []]) [0x0a, 0x00] 0 =
    ⟨.ok, .list [.list [.list [.list [], .num 0, .list [], .list []]]], 2⟩ := by decide +kernel
example : run (le grow .none) (msg [.seq .vector none person])
    (.list [.list [.list [.list [], .num 0, .list [], .list []]]]) = (.ok, [0x0a, 0x02, 0x10, 0x00]) := by decide +kernel
-- test_pb_protocol.cpp:530-548
example : run (le grow .none) person (.list [.list [], .num 0, .list [], .list []]) = (.ok, [0x10, 0x00]) := by
  decide +kernel

end Zpp.Checks
