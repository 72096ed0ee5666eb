import Verif.Proof.UserLib
import Verif.Checks
/-!
# A `serialize` function that lists the members changes nothing

A user may give a class a `serialize` function that hands over all members in order, or leave it to the library to find
them. Both are the same, on every input and for every object, wherever the class is used.
-/

namespace Zpp.Props
open Zpp Zpp.Spec

/-- C70, functions that list all members, reading. Reading an object that contains such classes is, on any input, the
same as reading it with classes that leave it to the library: same outcome, same object (also after an error), same
position. Everything proved about library types therefore holds for it. -/
theorem C70_as_library_in (d D : Nat) (u : UCfg) (t : UTy) (e : Ty) (dest : Val) (data : List UInt8) (p : Nat)
    (h : AsLib u D (fun _ _ => False) t e) (hd : D + height e ≤ d) (hb : Built t dest) :
    uDecode d u t dest data p = decode d u.c e dest data p :=
  uDecode_asLib h data d hd dest p hb

/-- C70, functions that list all members, writing; the classes may be recursive. Writing an object of the type is the
same as with classes that leave it to the library: same outcome, same buffer, same position. -/
theorem C70_as_library_out (d D : Nat) (u : UCfg) (noFit : Bool) (R : Nat → Nat → Prop) (t : UTy) (e : Ty) (v : Val)
    (st : OutSt) (hR : ∀ i j, R i j → AsLib u D R (u.env i) (u.c.env j)) (h : AsLib u D R t e)
    (hv : (encode d u.c e v st).1 ≠ .illFormed) :
    uCall d u noFit t v st = outCall d u.c noFit [(e, v)] st := by
  have h1 : encMany d u.c [(e, v)] st = encode d u.c e v st := by
    simp only [encMany, OutM.andThen, OutM.skip]
    generalize encode d u.c e v st = r
    obtain ⟨s, st'⟩ := r
    cases s <;> rfl
  simp only [uCall, outCall, fitCall, h1, uEncode_asLib hR d t e h v st hv]

/-- `class point { int x; std::string name; }` with `archive(self.x, self.name)`, and the class without the function. -/
def pointU : UTy := .user [.num 0, .list []] (listing 0 [.lib Checks.i32, .lib Checks.str])
def pointL : Ty := .struct false [Checks.i32, Checks.str]
/-- `std::variant<std::vector<point>, std::map<int, std::optional<point>>, std::unique_ptr<std::array<point, 2>>>`. -/
def shapeU : UTy := .variant Checks.chr [.num 0, .num 1, .num 2] [true, true, true]
  [.seq .vector none pointU, .map false false none (.lib Checks.i32) (.optional true pointU), .uptr (.array 2 pointU)]
def shapeL : Ty := .variant Checks.chr [.num 0, .num 1, .num 2] [true, true, true]
  [.seq .vector none pointL, .assoc false false none Checks.i32 (some (.optional true pointL)), .uptr (.array 2 pointL)]
/-- A tree: `class tree { point at; std::vector<tree> below; }` (class 0), again with and without such a function. -/
def treeU : UTy := .user [.list [.num 0, .list []], .list []] (listing 0 [pointU, .seq .vector none (.ref 0)])
def treeL : Ty := .struct false [pointL, .seq .vector none (.ref 0)]
def treeCfg : UCfg := ⟨{ Checks.le Checks.grow (.fixed 1) with env := fun _ => treeL }, fun _ => treeU, fun
  | .ref _ => Checks.so (.ref 0)
  | _ => Checks.so pointL, fun _ _ _ => false⟩

theorem point_asLib {R : Nat → Nat → Prop} : AsLib treeCfg 8 R pointU pointL :=
  .user (.cons (.lib _) (.cons (.lib _) .nil)) (.cons (.scalar _ _) (.cons (.seq _ _ _) .nil)) (by decide)
theorem shape_asLib : AsLib treeCfg 8 (fun _ _ => False) shapeU shapeL :=
  .variant _ _ _ (.cons (.seq _ point_asLib (by decide) rfl rfl) (.cons (.map _ _ _ (.lib _) rfl (.optional _ point_asLib))
    (.cons (.uptr (.array _ point_asLib rfl)) .nil)))
theorem tree_asLib : AsLib treeCfg 8 (fun i j => i = 0 ∧ j = 0) treeU treeL :=
  .user (.cons point_asLib (.cons (.seq _ (.ref ⟨rfl, rfl⟩) (by decide) rfl rfl) .nil))
    (.cons (.struct (.cons (.scalar _ _) (.cons (.seq _ _ _) .nil))) (.cons (.seq _ _ _) .nil)) (by decide)

-- A vector of two points, read over a vector of one.
example : uDecode 20 treeCfg shapeU (.alt 0 (.list [.list [.num 5, Checks.strV [1, 2, 3]]]))
      [0, 2, 7, 0, 0, 0, 1, 65, 8, 0, 0, 0, 0] 0 =
    ⟨.ok, .alt 0 (.list [.list [.num 7, Checks.strV [65]], .list [.num 8, .list []]]), 13⟩ := by decide +kernel
example : 8 + height shapeL ≤ 20 := by decide
example : Built shapeU (.alt 0 (.list [.list [.num 5, Checks.strV [1, 2, 3]]])) := by
  rw [shapeU, Built]
  intro i x hx
  cases hx
  rw [BuiltAlt, Built]
  intro x hx
  cases List.mem_singleton.mp hx
  rw [pointU, Built]
  exact ⟨rfl, by simp [listing, BuiltS, Built]⟩
example : ∀ i j, (i = 0 ∧ j = 0) → AsLib treeCfg 8 (fun i j => i = 0 ∧ j = 0) (treeCfg.env i) (treeCfg.c.env j) :=
  fun _ _ _ => tree_asLib
-- A tree with one subtree.
example : uCall 20 treeCfg false (.ref 0) (.list [.list [.num 1, .list []], .list [.list [.list [.num 2, Checks.strV [9]], .list []]]])
      ⟨[], 0⟩ = (.ok, ⟨[1, 0, 0, 0, 0, 1, 2, 0, 0, 0, 1, 9, 0], 13⟩) := by decide +kernel
example : (encode 20 treeCfg.c (.ref 0)
    (.list [.list [.num 1, .list []], .list [.list [.list [.num 2, Checks.strV [9]], .list []]]]) ⟨[], 0⟩).1 = .ok := by
  decide +kernel

end Zpp.Props
