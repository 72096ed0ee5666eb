import Verif.Model.Out
/-!
# Objects that point to each other

Model of an output archive writing a class

    struct node { T value; std::vector<std::shared_ptr<node>> next; };

from the memory of the program, where several pointers may point to the same object, and pointers may lead back to an object they started from.
-/

namespace Zpp

/-- An object of class `node`: its value and its pointers; `none` is the null pointer. -/
structure GNode where
  value : Val
  next : List (Option Nat)

/-- The objects of the program by address. -/
abbrev Graph := Nat → GNode

/-- `serialize_one(node)` for the object at the address `a`: the members in turn (zpp_bits.h:2252-2265); the vector as its size and its elements (zpp_bits.h:2221-2250);
an owning pointer by refusing null and otherwise `serialize_one(*pointer)` (zpp_bits.h:2304-2312; `owning_pointer` contains `std::shared_ptr`, zpp_bits.h:828-831). The
archive keeps no record of the addresses it has seen. The first argument is the remaining stack: four nested calls per object. -/
def graphEnc : Nat → Cfg → Ty → Option SizeTy → Graph → Nat → OutM
  | 0, _, _, _, _, _ => OutM.fail .stack
  | 1, _, _, _, _, _ => OutM.fail .stack
  | 2, _, _, _, _, _ => OutM.fail .stack
  | 3, c, t, sz, H, a =>
    (encode 1 c t (H a).value).andThen ((encHdr c (effSz c sz) (H a).next.length).andThen
      (if (H a).next = [] then OutM.skip else OutM.fail .stack))
  | d + 4, c, t, sz, H, a =>
    (encode (d + 2) c t (H a).value).andThen ((encHdr c (effSz c sz) (H a).next.length).andThen
      ((H a).next.foldr (fun p rest =>
        (match p with
          | none => OutM.fail (.err .invalidArgument)
          | some b => graphEnc d c t sz H b).andThen rest) OutM.skip))

/-- `out(object)` (zpp_bits.h:2443-2456) for the object at the address `a`. -/
def graphCall (d : Nat) (c : Cfg) (noFit : Bool) (t : Ty) (sz : Option SizeTy) (H : Graph) (a : Nat) : OutM :=
  fitCall c noFit (graphEnc d c t sz H a)

end Zpp
