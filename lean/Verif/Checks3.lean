import Verif.Checks2
import Verif.Model.Rpc
/-!
# Calls, hashes, recursive types and data sources of the project's own tests

As in `Verif.Checks`: the model evaluated on cases of `/repo/test/src` (tests of the model, not proofs).
-/

namespace Zpp.Checks

set_option maxRecDepth 8000

/-- "hello" -/
def hello : Val := strV [104, 101, 108, 108, 111]
/-- "1338" -/
def s1338 : Val := strV [0x31, 0x33, 0x33, 0x38]
/-- "1340" -/
def s1340 : Val := strV [0x31, 0x33, 0x34, 0x30]

/-! ## test_rpc.cpp

The ids stand for the hashes `"foo"_sha256_int` etc. (which are `int`s). The world records the calls; for member functions it
holds the member `i2` of the context object. -/

abbrev Calls := List (Nat × List Val)

/-- `foo`, `bar`, `foo_str`, `foo_str_move`, `foo_str_no_params`, `foo_void`, `a::foo`, `a::foo_str` of the test. -/
def testFns : List (Binding Calls) := [
  .bind (.num 101) [i32, str] (.value i32 fun w a => (.num 1338, w ++ [(101, a)])),
  .bind (.num 102) [i32, str] (.value i32 fun w a => (.num 1339, w ++ [(102, a)])),
  .bind (.num 103) [i32, str] (.value str fun w a => (s1338, w ++ [(103, a)])),
  .bind (.num 104) [i32, .uptr str] (.value (.uptr str) fun w a => (.some s1338, w ++ [(104, a)])),
  .bind (.num 105) [] (.value str fun w a => (s1338, w ++ [(105, a)])),
  .bind (.num 106) [i32, str] (.void fun w a => w ++ [(106, a)]),
  .bind (.num 107) [i32, str] (.value i32 fun w a => (.num 1340, w ++ [(107, a)])),
  .bind (.num 108) [i32, str] (.value str fun w a => (s1340, w ++ [(108, a)]))]

/-- `data_in_out()`: client and server over one buffer. -/
def testNet (bs : List (Binding Calls)) : Net Calls := ⟨20, c4, c4, false, .one, .one, i32, bs⟩
def netStart : NetSt Calls := ⟨[], fun _ => ⟨[], 0, 0⟩⟩

/-- A request, `serve()`, the response: what the three gave, and the calls. -/
def rpcCall (bs : List (Binding Calls)) (ops : List NetOp) : List NetRes × Calls :=
  let r := netRun (testNet bs) ops netStart
  (r.1, r.2.world)

-- normal_function, normal_function_implicit_conversion, member_function_mix
example : rpcCall testFns [.request true 0 [.num 1337, hello], .serve, .response 0] =
    ([(.ok, none), (.ok, none), (.ok, some (.num 1338))], [(101, [.num 1337, hello])]) := by decide +kernel
-- normal_function_str
example : rpcCall testFns [.request true 2 [.num 1337, hello], .serve, .response 2] =
    ([(.ok, none), (.ok, none), (.ok, some s1338)], [(103, [.num 1337, hello])]) := by decide +kernel
-- function_str_move
example : rpcCall testFns [.request true 3 [.num 1337, .some hello], .serve, .response 3] =
    ([(.ok, none), (.ok, none), (.ok, some (.some s1338))], [(104, [.num 1337, .some hello])]) := by decide +kernel
-- normal_function_str_no_params
example : rpcCall testFns [.request true 4 [], .serve, .response 4] =
    ([(.ok, none), (.ok, none), (.ok, some s1338)], [(105, [])]) := by decide +kernel
-- normal_function_str_no_id
example : rpcCall testFns [.request false 2 [.num 1337, hello], .serveId 2, .response 2] =
    ([(.ok, none), (.ok, none), (.ok, some s1338)], [(103, [.num 1337, hello])]) := by decide +kernel
-- normal_function_void, member_function_void
example : rpcCall testFns [.request true 5 [.num 1337, hello], .serve, .response 5] =
    ([(.ok, none), (.ok, none), (.ok, none)], [(106, [.num 1337, hello])]) := by decide +kernel
-- member_function, member_function_str
example : rpcCall testFns [.request true 6 [.num 1337, hello], .serve, .response 6] =
    ([(.ok, none), (.ok, none), (.ok, some (.num 1340))], [(107, [.num 1337, hello])]) := by decide +kernel
example : rpcCall testFns [.request true 7 [.num 1337, hello], .serve, .response 7] =
    ([(.ok, none), (.ok, none), (.ok, some s1340)], [(108, [.num 1337, hello])]) := by decide +kernel

/-! ## test_rpc_opaque.cpp -/

/-- `foo` (reads an `int` and a string of its span, which it gets by value), `foo_partial` (reads an `int`, and leaves the
part it read), `bar`. -/
def opaqueFns : List (Binding Calls) := [
  .opaque (.num 101) (.value i32) (.bytes fun w bs =>
    let r := decMany 20 c4 bs [(i32, .num 0), (str, .list [])] 0
    (.value i32 (.num 1338), w ++ [(101, r.vs)], bs.length)),
  .opaque (.num 109) (.value i32) (.bytes fun w bs =>
    let r := decMany 20 c4 bs [(i32, .num 0)] 0
    (.value i32 (.num 1338), w ++ [(109, r.vs)], r.p)),
  .bind (.num 102) [i32, str] (.value i32 fun w a => (.num 1339, w ++ [(102, a)]))]

-- opaque_function, opaque_member_function
example : rpcCall opaqueFns [.requestOpaque true 0 [(i32, .num 1337), (str, hello)], .serve, .response 0] =
    ([(.ok, none), (.ok, none), (.ok, some (.num 1338))], [(101, [.num 1337, hello])]) := by decide +kernel
-- opaque_function_partial: the position is behind the id and the int, the string is read by hand, then the response
example :
    let r := netRun (testNet opaqueFns) [.requestOpaque true 1 [(i32, .num 1337), (str, hello)], .serve] netStart
    r.1 = [(.ok, none), (.ok, none)] ∧ r.2.world = [(109, [.num 1337])] ∧ (r.2.buf .one).rpos = 8 ∧
    (let s := (r.2.buf .one).read 20 c4 [(str, .list [])]
     s.1 = .ok ∧ s.2.1 = [hello] ∧
     (netRun (testNet opaqueFns) [.response 1] (r.2.set .one s.2.2)).1 = [(.ok, some (.num 1338))]) := by decide +kernel

/-! ## test_function.cpp: data holds "hello" and 1337 -/

def helloArgs : List UInt8 := [5, 0, 0, 0, 104, 101, 108, 108, 111, 0x39, 5, 0, 0]

-- normal_function, normal_function_ret, member_function, lambda
example : (apply 20 c4 [str, i32] (.value i32 fun w a => (.num 1338, w ++ [a])) helloArgs 0 []).2 =
    ([[hello, .num 1337]], 13) := by decide +kernel
example : (match (apply 20 c4 [str, i32] (.value i32 fun w a => (.num 1338, w ++ [a])) helloArgs 0 []).1 with
    | .value _ v => decide (v = .num 1338) | _ => false) = true := by decide +kernel
-- function_void, member_function_void
example : (match apply 20 c4 [str, i32] (.void fun w a => w ++ [a]) helloArgs 0 [] with
    | (.code .ok, w, p) => decide (w = [[hello, .num 1337]]) && decide (p = 13) | _ => false) = true := by decide +kernel
-- function_return_move, move_only
example : (match apply 20 c4 [str, i32] (.value (.uptr i32) fun w a => (.some (.num 1338), w ++ [a])) helloArgs 0 [] with
    | (.value _ v, w, _) => decide (v = .some (.num 1338)) && decide (w = [[hello, .num 1337]]) | _ => false) = true := by
  decide +kernel
-- function_no_parameters, function_void_no_parameters (no data)
example : (match apply 20 c4 [] (.value i32 fun w a => (.num 1338, w ++ [a])) [] 0 [] with
    | (.value _ v, w, _) => decide (v = .num 1338) && decide (w = [[]]) | _ => false) = true := by decide +kernel
example : (match apply 20 c4 [] (.void fun w a => w ++ [a]) [] 0 [] with
    | (.code .ok, w, _) => decide (w = [[]]) | _ => false) = true := by decide +kernel

/-! ## test_hash.cpp -/

def fox : List UInt8 := "The quick brown fox jumps over the lazy dog".toUTF8.toList

example : sha1 .little [] = some [0xda, 0x39, 0xa3, 0xee, 0x5e, 0x6b, 0x4b, 0x0d, 0x32, 0x55, 0xbf, 0xef, 0x95, 0x60, 0x18,
    0x90, 0xaf, 0xd8, 0x07, 0x09] := by decide +kernel
example : sha256 .little [] = some [0xe3, 0xb0, 0xc4, 0x42, 0x98, 0xfc, 0x1c, 0x14, 0x9a, 0xfb, 0xf4, 0xc8, 0x99, 0x6f, 0xb9,
    0x24, 0x27, 0xae, 0x41, 0xe4, 0x64, 0x9b, 0x93, 0x4c, 0xa4, 0x95, 0x99, 0x1b, 0x78, 0x52, 0xb8, 0x55] := by decide +kernel
example : sha1 .little fox = some [0x2f, 0xd4, 0xe1, 0xc6, 0x7a, 0x2d, 0x28, 0xfc, 0xed, 0x84, 0x9e, 0xe1, 0xbb, 0x76, 0xe7,
    0x39, 0x1b, 0x93, 0xeb, 0x12] := by decide +kernel
example : sha256 .little fox = some [0xd7, 0xa8, 0xfb, 0xb3, 0x07, 0xd7, 0x80, 0x94, 0x69, 0xca, 0x9a, 0xbc, 0xb0, 0x08, 0x2e,
    0x4f, 0x8d, 0x56, 0x51, 0xe4, 0x6d, 0x3c, 0xdb, 0x76, 0x2d, 0x02, 0xd0, 0xbf, 0x37, 0xc9, 0xe5, 0x92] := by decide +kernel

/-! ## test_graph.cpp: a tree of nodes `{int value; std::vector<node> nodes}` -/

def nodeTy : Ty := .struct true [i32, vec (.ref 0)]
def treeCfg : Cfg := { c4 with env := fun _ => nodeTy }
def node (n : Nat) (l : List Val) : Val := .list [.num n, .list l]
example : both treeCfg (.ref 0) (node 1 [node 2 [node 3 [node 4 []]], node 5 []])
    (intBytes [1, 2, 2, 1, 3, 1, 4, 0, 5, 0]) := by decide +kernel

/-! ## test_data_sources.cpp: a vector of ints in growing and in fixed buffers -/

example : outCall 20 (le fixed (.fixed 4)) false [(vec i32, ints [1, 2, 3, 4])] ⟨List.replicate 128 0, 0⟩ =
    (.ok, ⟨intBytes [4, 1, 2, 3, 4] ++ List.replicate 108 0, 20⟩) := by decide +kernel
example : decode 20 c4 (vec i32) (.list []) (intBytes [4, 1, 2, 3, 4] ++ List.replicate 108 0) 0 =
    ⟨.ok, ints [1, 2, 3, 4], 20⟩ := by decide +kernel

/-! ## test_unordered_set.cpp, test_unordered_map.cpp: one of the possible orders -/

example : both c4 (.assoc false false none i32 none) (ints [1, 2, 3, 4]) (intBytes [4, 1, 2, 3, 4]) := by decide +kernel
example : both c4 (.assoc false false none i32 (some i32)) (.list [ints [1, 2], ints [3, 4]]) (intBytes [2, 1, 2, 3, 4]) := by
  decide +kernel

/-! ## test_constexpr.cpp -/

-- integers: five numbers in a buffer of 0x1000 bytes
example : (outCall 20 (le fixed (.fixed 4)) false (([1, 2, 3, 4, 5] : List Nat).map fun n => (i32, .num n))
    ⟨List.replicate 0x1000 0, 0⟩).2.pos = 20 := by decide +kernel
-- tuple
example : both c4 (.struct false [i32, i32, i32, i32, i32]) (ints [1, 2, 3, 4, 5]) (intBytes [1, 2, 3, 4, 5]) := by
  decide +kernel
-- string_view, unsized, into an array of 11 characters
example :
    let s : List UInt8 := "Hello World".toUTF8.toList
    outCall 20 (le fixed (.fixed 4)) false [(.seq .view (some .none) chr, strV s)] ⟨List.replicate 11 0, 0⟩ = (.ok, ⟨s, 11⟩) ∧
    decode 20 c4 (.array 11 chr) (strV (List.replicate 11 0)) s 0 = ⟨.ok, strV s, 11⟩ := by decide +kernel

/-! ## test_zero_copy_byte_types.cpp: a `string_view` written, views of bytes and characters read -/

example :
    let s : List UInt8 := "hello".toUTF8.toList
    outCall 20 c4 false [(.seq .view none chr, strV s)] ⟨[], 0⟩ = (.ok, ⟨[5, 0, 0, 0] ++ s, 9⟩) ∧
    decode 20 c4 (.seq .view none (.scalar .byte 1)) (.list []) ([5, 0, 0, 0] ++ s) 0 = ⟨.ok, strV s, 9⟩ ∧
    decode 20 c4 (.seq .view none chr) (.list []) ([5, 0, 0, 0] ++ s) 0 = ⟨.ok, strV s, 9⟩ := by decide +kernel
example :
    let s : List UInt8 := "hello".toUTF8.toList
    outCall 20 c4 false [(.seq .view (some .none) chr, strV s)] ⟨[], 0⟩ = (.ok, ⟨s, 5⟩) ∧
    decode 20 c4 (.seq .view (some .none) (.scalar .byte 1)) (.list []) s 0 = ⟨.ok, strV s, 5⟩ ∧
    decode 20 c4 (.seq .view (some .none) chr) (.list []) s 0 = ⟨.ok, strV s, 5⟩ := by decide +kernel

/-! ## test_members_serialize.cpp, test_detect_members_serialize.cpp, test_sanity.cpp: persons, points and numbers -/

example :
    let person : Ty := .struct true [str, i32]
    let p1 : Val := .list [strV "Person1".toUTF8.toList, .num 25]
    let p2 : Val := .list [strV "Person2".toUTF8.toList, .num 35]
    let bs : List UInt8 := [7, 0, 0, 0, 80, 101, 114, 115, 111, 110, 49, 25, 0, 0, 0,
      7, 0, 0, 0, 80, 101, 114, 115, 111, 110, 50, 35, 0, 0, 0]
    outCall 20 c4 false [(person, p1), (person, p2)] ⟨[], 0⟩ = (.ok, ⟨bs, 30⟩) ∧
    decMany 20 c4 bs [(person, .list [.list [], .num 0]), (person, .list [.list [], .num 0])] 0 = ⟨.ok, [p1, p2], 30⟩ := by
  decide +kernel
example : both c4 (.struct true [i32, i32]) (ints [1337, 1338]) (intBytes [1337, 1338]) := by decide +kernel
example : both c4 (.struct true [i32]) (ints [1337]) (intBytes [1337]) := by decide +kernel

/-- Subtraction of sizes is that of 64-bit machine words. -/
theorem subSz_machine (a b : Nat) (ha : a < 2 ^ 64) (hb : b < 2 ^ 64) :
    subSz a b = (UInt64.ofNat a - UInt64.ofNat b).toNat := by
  rw [UInt64.toNat_sub, UInt64.toNat_ofNat', UInt64.toNat_ofNat', Nat.mod_eq_of_lt ha, Nat.mod_eq_of_lt hb]
  unfold subSz
  split <;> omega
/-- Products of sizes are those of 64-bit machine words. -/
theorem wrap_machine (a b : Nat) (ha : a < 2 ^ 64) (hb : b < 2 ^ 64) :
    wrap (a * b) = (UInt64.ofNat a * UInt64.ofNat b).toNat := by
  rw [UInt64.toNat_mul, UInt64.toNat_ofNat', UInt64.toNat_ofNat', Nat.mod_eq_of_lt ha, Nat.mod_eq_of_lt hb]
  rfl

end Zpp.Checks
