import Verif.Checks
import Verif.Model.Options
import Verif.Model.Bytes
import Verif.Model.KnownId
import Verif.Model.Numbers
/-!
# More literals of the project's own tests

As in `Verif.Checks`: the model evaluated on vectors of `/repo/test/src` (tests of the model, not proofs).
-/

namespace Zpp.Checks

set_option maxRecDepth 8000

/-- Numbers as `int` objects. -/
def ints (xs : List Nat) : Val := .list (xs.map .num)
/-- The bytes of `int`s. -/
def intBytes (xs : List Nat) : List UInt8 := xs.flatMap (leBytes 4)
def vec (t : Ty) : Ty := .seq .vector none t
def c4 : Cfg := le grow (.fixed 4)

/-- Written into an empty buffer gives these bytes, which read back into a default object give the object again. -/
def both (c : Cfg) (t : Ty) (v : Val) (bs : List UInt8) : Bool :=
  decide (run c t v = (.ok, bs)) &&
  (let r := decode 20 c t (dflt c 9 t) bs 0
   decide (r.s = .ok) && decide (r.v = v) && decide (r.p = bs.length))

-- test_vector.cpp: integer, const_integer, string, const_string
example : both c4 (vec i32) (ints [1, 2, 3, 4]) (intBytes [4, 1, 2, 3, 4]) := by decide +kernel
example : both c4 (vec str) (.list [strV [0x31], strV [0x32], strV [0x33], strV [0x34]])
    ([4, 0, 0, 0] ++ [1, 0, 0, 0, 0x31] ++ [1, 0, 0, 0, 0x32] ++ [1, 0, 0, 0, 0x33] ++ [1, 0, 0, 0, 0x34]) := by
  decide +kernel
-- test_vector.cpp: sized_1b_integer, sized_t_1b_integer, vector1b
example : both c4 (.seq .vector (some (.fixed 1)) i32) (ints [1, 2, 3, 4]) (4 :: intBytes [1, 2, 3, 4]) := by decide +kernel
-- test_vector.cpp: unsized_integer, unsized_t_integer, static_vector (read into a vector of four elements)
example : run c4 (.seq .vector (some .none) i32) (ints [1, 2, 3, 4]) = (.ok, intBytes [1, 2, 3, 4]) := by decide +kernel
example : decode 20 c4 (.seq .vector (some .none) i32) (ints [0, 0, 0, 0]) (intBytes [1, 2, 3, 4]) 0 =
    ⟨.ok, ints [1, 2, 3, 4], 16⟩ := by decide +kernel
-- test_default_size_type.cpp
example : both (le grow (.fixed 1)) (vec i32) (ints [1, 2, 3, 4]) (4 :: intBytes [1, 2, 3, 4]) := by decide +kernel
example : both (le grow (.fixed 2)) (vec i32) (ints [1, 2, 3, 4]) ([4, 0] ++ intBytes [1, 2, 3, 4]) := by decide +kernel
example : both (le grow (.fixed 8)) (vec i32) (ints [1, 2, 3, 4]) ([4, 0, 0, 0, 0, 0, 0, 0] ++ intBytes [1, 2, 3, 4]) := by
  decide +kernel
-- test_list.cpp
example : both c4 (.seq .list none i32) (ints [1, 2, 3, 4]) (intBytes [4, 1, 2, 3, 4]) := by decide +kernel
-- test_array.cpp, test_stdarray.cpp, test_span_extent.cpp
example : both c4 (.array 4 i32) (ints [1, 2, 3, 4]) (intBytes [1, 2, 3, 4]) := by decide +kernel
example : both c4 (.array 4 str) (.list [strV [0x31], strV [0x32], strV [0x33], strV [0x34]])
    ([1, 0, 0, 0, 0x31] ++ [1, 0, 0, 0, 0x32] ++ [1, 0, 0, 0, 0x33] ++ [1, 0, 0, 0, 0x34]) := by decide +kernel
-- test_span.cpp: integer, string_input_out_of_range
example : run c4 (.seq .span none i32) (ints [1, 2, 3, 4]) = (.ok, intBytes [4, 1, 2, 3, 4]) := by decide +kernel
example : decode 20 c4 (.seq .span none i32) (ints [0, 0, 0, 0]) (intBytes [4, 1, 2, 3, 4]) 0 =
    ⟨.ok, ints [1, 2, 3, 4], 20⟩ := by decide +kernel
example : (decode 20 c4 (.seq .span none str) (.list []) ([4, 0, 0, 0] ++ [1, 0, 0, 0, 0x31]) 0).s =
    .err .resultOutOfRange := by decide +kernel
example : (decode 20 c4 (.seq .span none str) (.list [strV [], strV [], strV []]) ([4, 0, 0, 0] ++ [1, 0, 0, 0, 0x31]) 0).s =
    .err .resultOutOfRange := by decide +kernel
-- test_optional.cpp
example : both c4 (.optional true (vec i32)) (.some (ints [1, 2, 3, 4])) (1 :: intBytes [4, 1, 2, 3, 4]) := by decide +kernel
example : decode 20 c4 (.optional true (vec i32)) (.some (ints [1, 2, 3])) [0] 0 = ⟨.ok, Val.none, 1⟩ := by decide +kernel
example : run c4 (.optional true (vec i32)) Val.none = (.ok, [0]) := by decide +kernel
-- test_optional_ptr.cpp
example : both c4 (.optPtr i32) (.some (.num 0x1337)) [0x01, 0x37, 0x13, 0, 0] := by decide +kernel
example : run c4 (.optPtr i32) Val.none = (.ok, [0]) := by decide +kernel
example : decode 20 c4 (.optPtr i32) (.some (.num 1337)) [0] 0 = ⟨.ok, Val.none, 1⟩ := by decide +kernel
-- test_variant.cpp: int, string, private_default_constructible
def intOrStr : Ty := .variant (.scalar .byte 1) [.num 0, .num 1] [true, true] [i32, str]
example : both c4 intOrStr (.alt 0 (.num 0x1337)) [0x00, 0x37, 0x13, 0, 0] := by decide +kernel
example : both c4 intOrStr (.alt 1 (strV [0x31, 0x32, 0x33, 0x34])) [0x01, 4, 0, 0, 0, 0x31, 0x32, 0x33, 0x34] := by
  decide +kernel
example : both c4 (.variant (.scalar .byte 1) [.num 0, .num 1] [true, false] [str, str])
    (.alt 1 (strV [0x31, 0x32, 0x33, 0x34])) [0x01, 4, 0, 0, 0, 0x31, 0x32, 0x33, 0x34] := by decide +kernel
-- test_variant.cpp: int_versioning
def personV1 : Ty := .struct false [str, i32]
def personV2 : Ty := .struct false [str, i32, str]
/-- "Person1" -/
def sPerson1 : List UInt8 := [80, 101, 114, 115, 111, 110, 49]
/-- "Person2" -/
def sPerson2 : List UInt8 := [80, 101, 114, 115, 111, 110, 50]
/-- "Basketball" -/
def sHobby : List UInt8 := [66, 97, 115, 107, 101, 116, 98, 97, 108, 108]
def persons : Ty := .variant i32 [.num 1337, .num 1338] [true, true] [personV1, personV2]
example : both c4 persons (.alt 0 (.list [strV sPerson1, .num 25])) (intBytes [1337, 7] ++ sPerson1 ++ intBytes [25]) := by
  decide +kernel
example : both c4 persons (.alt 1 (.list [strV sPerson2, .num 35, strV sHobby]))
    (intBytes [1338, 7] ++ sPerson2 ++ intBytes [35, 10] ++ sHobby) := by decide +kernel
-- test_map.cpp, test_set.cpp
example : both c4 (.assoc false false none i32 none) (ints [1, 2, 3, 4]) (intBytes [4, 1, 2, 3, 4]) := by decide +kernel
example : both c4 (.assoc false false none i32 (some i32)) (.list [ints [1, 1], ints [2, 2], ints [3, 3], ints [4, 4]])
    (intBytes [4, 1, 1, 2, 2, 3, 3, 4, 4]) := by decide +kernel
-- test_bitset.cpp: 0x7f
example : both c4 (.bitset 8) (.bits [true, true, true, true, true, true, true, false]) [0x7f] := by decide +kernel
-- test_unique_ptr.cpp, test_shared_ptr.cpp
example : run c4 (.uptr i32) (.some (.num 0x1337)) = (.ok, [0x37, 0x13, 0, 0]) := by decide +kernel
-- test_append.cpp
example :
    let h : Host := ⟨.little, 2 ^ 40, so, fun _ => .empty, numLt⟩
    let o := openOut h true [.append] [0xff]
    outCall 20 (cfgOf h true [.append]) false [(vec i32, ints [1, 2, 3, 4])] o.2 =
      (.ok, ⟨0xff :: intBytes [4, 1, 2, 3, 4], 21⟩) := by decide +kernel
-- test_alloc_limit.cpp
def lim128 : Cfg := le { grow with limit := 128 } (.fixed 4)
example :
    let r := outCall 20 lim128 false [(i32, .num 1), (i32, .num 2), (i32, .num 3), (i32, .num 4)] ⟨[], 0⟩
    r.1 = .ok ∧ (outCall 20 lim128 false [(.array 50 i32, ints (List.replicate 50 0))] r.2).1 = .err .noBufferSpace := by
  decide +kernel
example :
    (decode 20 lim128 (vec i32) (.list []) (intBytes (32 :: List.replicate 32 0)) 0).s = .ok ∧
    (decode 20 lim128 (vec i32) (.list []) (intBytes (33 :: List.replicate 33 0)) 0).s = .err .messageSize ∧
    (decode 20 lim128 str (.list []) (intBytes [128] ++ List.replicate 128 0) 0).s = .ok ∧
    (decode 20 lim128 str (.list []) (intBytes [129] ++ List.replicate 129 0) 0).s = .err .messageSize := by decide +kernel
-- test_endian.cpp: big, big_out, big_in
def fourInts : Ty := .struct true [.scalar .int 1, .scalar .int 2, .scalar .int 4, .scalar .int 8]
def fourVals : Val := .list [.num 0x12, .num 0x1234, .num 0x12345678, .num 0x123456789abcdef0]
def fourSwapped : Val := .list [.num 0x12, .num 0x3412, .num 0x78563412, .num 0xf0debc9a78563412]
example : both (be grow (.fixed 4)) fourInts fourVals
    [0x12, 0x12, 0x34, 0x12, 0x34, 0x56, 0x78, 0x12, 0x34, 0x56, 0x78, 0x9a, 0xbc, 0xde, 0xf0] := by decide +kernel
example : (decode 20 c4 fourInts (dflt c4 9 fourInts) (run (be grow (.fixed 4)) fourInts fourVals).2 0).v = fourSwapped := by
  decide +kernel
example : (decode 20 (be grow (.fixed 4)) fourInts (dflt c4 9 fourInts) (run c4 fourInts fourVals).2 0).v = fourSwapped := by
  decide +kernel
-- test_byte_serializable.cpp: padding (sizeof 8 for a byte and an int)
def padded : Ty := .struct true [.scalar .byte 1, i32]
def padCfg : Cfg := { c4 with sizeof := fun t => match t with | .struct _ _ => 8 | t => so t }
example : Ty.byteSer padCfg.sizeof padded = false ∧ both padCfg padded (.list [.num 0x25, .num 0x1337]) [0x25, 0x37, 0x13, 0, 0] := by
  decide +kernel
example : Ty.byteSer so (.struct true [i32, i32]) ∧ Ty.byteSer so (.array 5 i32) ∧ Ty.byteSer so (.array 2 chr) ∧
    Ty.byteSer so (.struct true [.array 5 i32, i32]) ∧ Ty.byteSer so (.array 1 (.struct true [.array 5 i32, i32])) ∧
    Ty.byteSer so (.struct true [.array 5 (.array 5 i32), i32]) ∧ !Ty.byteSer so str ∧
    !Ty.byteSer so (.struct true [str, i32]) ∧ !Ty.byteSer so (.seq .view none chr) ∧ !Ty.byteSer so (.seq .span none chr) ∧
    !Ty.byteSer so (.struct false [.array 5 i32, i32]) ∧ !Ty.byteSer so (.array 1 (.struct false [.array 5 i32, i32])) := by
  decide +kernel
-- test_varint.cpp: to_bytes, from_bytes, varint_size
example : both c4 vint32 (.num 150) [0x96, 0x01] := by decide +kernel
example : both c4 (.varint 4 false) (.num 0) [0x00] := by decide +kernel
example : both c4 vint32 (.num (2 ^ 32 - 1)) [0xff, 0xff, 0xff, 0xff, 0x0f] := by decide +kernel
example : both c4 (.varint 8 false) (.num (2 ^ 64 - 1)) [0xff, 0xff, 0xff, 0xff, 0xff, 0xff, 0xff, 0xff, 0xff, 0x01] := by
  decide +kernel
example : (decode 20 c4 vint32 (.num 0) [0x96, 0x01, 0, 0, 0, 0, 0, 0, 0, 0, 0, 0] 0) = ⟨.ok, .num 150, 2⟩ := by decide +kernel
example : (decode 20 c4 (.varint 8 false) (.num 0) [0x96, 0x01, 0, 0, 0, 0, 0, 0, 0, 0, 0, 0] 0) = ⟨.ok, .num 150, 2⟩ := by
  decide +kernel
example : (decode 20 c4 vint32 (.num 0) [0x96, 0x81, 0x80, 0x00] 0).v = .num 150 := by decide +kernel
example : (decode 20 c4 (.varint 8 false) (.num 0) [0x96, 0x81, 0x80, 0x00] 0).v = .num 150 := by decide +kernel
example : [(4, 2 ^ 32 - 1), (8, 2 ^ 64 - 1), (4, 0), (4, 0x7f), (4, 0x80), (4, 0x3fff), (4, 0x1fffff), (4, 0x3fffff),
    (4, 0xfffffff), (4, 0x1fffffff), (4, 0xffffffff)].map (fun x => varintSize x.1 x.2) =
    [5, 10, 1, 1, 2, 2, 3, 4, 4, 5, 5] := by decide +kernel
example : both c4 (.varint 4 true) (.num 0) [0] ∧ both c4 (.varint 4 true) (.num (2 ^ 32 - 1)) [1] ∧
    both c4 (.varint 4 true) (.num 1) [2] ∧ both c4 (.varint 4 true) (.num (2 ^ 32 - 2)) [3] ∧
    both c4 (.varint 4 true) (.num 2147483647) [0xfe, 0xff, 0xff, 0xff, 0x0f] ∧
    both c4 (.varint 4 true) (.num 2147483648) [0xff, 0xff, 0xff, 0xff, 0x0f] ∧
    both c4 (.varint 8 true) (.num 2147483647) [0xfe, 0xff, 0xff, 0xff, 0x0f] ∧
    both c4 (.varint 8 true) (.num (2 ^ 64 - 2147483648)) [0xff, 0xff, 0xff, 0xff, 0x0f] := by decide +kernel
example : both c4 (.varint 1 false) (.num 0x7f) [0x7f] := by decide +kernel
-- test_varint.cpp: varint_size
example : both (le grow .varint) (vec vint32) (.list [.num 0x13, .num 0x80, .num 0x82, .num 0x1000, .num (2 ^ 32 - 1)])
    ([5] ++ [0x13] ++ [0x80, 1] ++ [0x82, 1] ++ [0x80, 0x20] ++ [0xff, 0xff, 0xff, 0xff, 0x0f]) := by decide +kernel
-- test_pb_protocol.cpp: test_repeated_integers (round trip)
example : both (le grow .none) (msg [vec (.varint 4 true)])
    (.list [.list [.num 1, .num 2, .num 3, .num 4, .num (2 ^ 32 - 1), .num (2 ^ 32 - 2), .num (2 ^ 32 - 3), .num (2 ^ 32 - 4)]])
    [0x0a, 8, 2, 4, 6, 8, 1, 3, 5, 7] := by decide +kernel
-- test_pb_protocol.cpp: address_book
/-- "John Doe 2" -/
def sName2 : List UInt8 := sName ++ [32, 50]
/-- "jdoe2@example.com" -/
def sMail2 : List UInt8 := [106, 100, 111, 101, 50, 64, 101, 120, 97, 109, 112, 108, 101, 46, 99, 111, 109]
def book : Val := .list [.list [john, .list [strV sName2, .num 1235, strV sMail2,
  .list [.list [strV [53, 53, 53, 45, 52, 51, 50, 50], .num 1], .list [strV [53, 53, 53, 45, 52, 51, 50, 51], .num 2]]]]]
def bookBytes : List UInt8 :=
  [0x0a, 45] ++ johnBytes ++ [0x0a, 62, 0x0a, 0x0a] ++ sName2 ++ [0x10, 0xd3, 0x09, 0x1a, 0x11] ++ sMail2 ++
  [0x22, 0x0c, 0x0a, 0x08, 53, 53, 53, 45, 52, 51, 50, 50, 0x10, 0x01] ++
  [0x22, 0x0c, 0x0a, 0x08, 53, 53, 53, 45, 52, 51, 50, 51, 0x10, 0x02]
example : bookBytes.length = 111 := by decide +kernel
example : both (le grow .none) (msg [vec person]) book bookBytes := by decide +kernel
-- test_pb_protocol.cpp: person_explicit (members declared in another order, with numbers)
def phoneX : Ty := .msg none false [] [some 1, some 2] [str, .scalar .enum 4]
def personX : Ty := .msg none false [] [some 10, some 1, some 2, some 3, some 4] [str, str, vint32, str, vec phoneX]
example : decode 20 (le grow .none) personX (dflt (le grow .none) 9 personX) johnBytes 0 =
    ⟨.ok, .list [strV [], strV sName, .num 1234, strV sMail, .list [.list [strV sPhone, .num 1]]], 45⟩ := by decide +kernel
-- test_pb_protocol.cpp: person_map
def personM : Ty := msg [str, vint32, str, .assoc false false none str (some (.scalar .enum 4))]
example : both (le grow .none) personM (.list [strV sName, .num 1234, strV sMail, .list [.list [strV sPhone, .num 1]]])
    johnBytes := by decide +kernel

end Zpp.Checks
