import Verif.Spec.Supported
import Verif.Spec.Input
/-!
# Specification of ids, and of the members a protobuf message can have
-/

namespace Zpp.Spec

/-- The id of alternative `i` of a variant, as documented: its `serialize_id`, if it declares one, else its index as a
`std::byte` (so there are at most 256 such alternatives). An alternative is given by what it declares. -/
inductive HasId (alts : List (Option (Ty × Val))) (i : Nat) : Ty → Val → Prop
  | declared {t : Ty} {v : Val} : alts[i]? = some (some (t, v)) → HasId alts i t v
  | byIndex : alts[i]? = some none → i < 256 → HasId alts i (.scalar .byte 1) (.num i)

/-- The types of ids covered: scalars, `bool`, and arrays of bytes, characters or numbers. -/
def idType : Ty → Bool
  | .scalar _ _ => true
  | .bool => true
  | .array _ (.scalar .enum _) => false
  | .array _ (.scalar _ _) => true
  | _ => false

mutual
/-- Every scalar has a size that a C++ type of its kind can have. -/
def cppScalars : Ty → Bool
  | .scalar k n => scalarOk k n && (k != .enum || intWidth n)
  | .varint n _ => intWidth n
  | .struct _ fs => cppScalarsL fs
  | .array _ t => cppScalars t
  | .seq _ _ t => cppScalars t
  | .assoc _ _ _ key none => cppScalars key
  | .assoc _ _ _ key (some m) => cppScalars key && cppScalars m
  | .optional _ t => cppScalars t
  | .optPtr t => cppScalars t
  | .uptr t => cppScalars t
  | .variant idTy _ _ alts => cppScalars idTy && cppScalarsL alts
  | .msg _ _ _ _ fs => cppScalarsL fs
  | _ => true
/-- All types of a list. -/
def cppScalarsL : List Ty → Bool
  | [] => true
  | t :: ts => cppScalars t && cppScalarsL ts
end

/-- Key or mapped object of a map for which the library does not write protobuf: `std::byte`, C arrays, empty classes,
containers that are not strings; messages as keys. -/
def oddPart (isKey : Bool) : Ty → Bool
  | .scalar .byte _ => true
  | .array _ _ => true
  | .empty => true
  | .seq k sz t => !isStr (.seq k sz t)
  | .assoc _ _ _ _ _ => true
  | .msg _ _ _ _ _ => isKey
  | .ref _ => isKey
  | _ => false

/-- Elements of a repeated member for which the library does not write protobuf: containers other than strings, C arrays,
empty classes. -/
def oddElem : Ty → Bool
  | .array _ _ => true
  | .empty => true
  | .seq k sz t => !isStr (.seq k sz t)
  | .assoc _ _ _ _ _ => true
  | _ => false

/-- Members of a message for which the library does not write protobuf although the program compiles: `std::byte` (`D14`), C
arrays (`D23`), containers of containers, of C arrays, of empty classes (`D24`), repeated strings and messages whose explicit
number is not the default one (`D13`), maps with odd keys or mapped objects. -/
def oddMember (maps : List (Nat × Nat)) (num : Option Nat) (i : Nat) : Ty → Bool
  | .scalar .byte _ => true
  | .array _ _ => true
  | .seq _ _ t => oddElem t || (!isPacked t && fieldNumber maps num i != fieldNumber maps none i)
  | .assoc _ _ _ key none => oddElem key || (!isPacked key && fieldNumber maps num i != fieldNumber maps none i)
  | .assoc _ _ _ key (some m) => oddPart true key || oddPart false m
  | _ => false

/-- A message class with these `pb_map`s and explicit numbers is the type of a member or of the elements, keys or mapped objects
of its containers. -/
inductive MessageIn (env : Nat → Ty) (maps : List (Nat × Nat)) (nums : List (Option Nat)) : Ty → Prop
  | here {ok : Bool} {fs : List Ty} : MessageIn env maps nums (.msg none ok maps nums fs)
  | named {i : Nat} {ok : Bool} {fs : List Ty} : env i = .msg none ok maps nums fs → MessageIn env maps nums (.ref i)
  | element {k : SeqKind} {t : Ty} : MessageIn env maps nums t → MessageIn env maps nums (.seq k none t)
  | key {mu h : Bool} {k : Ty} {m : Option Ty} : MessageIn env maps nums k → MessageIn env maps nums (.assoc mu h none k m)
  | mapped {mu h : Bool} {k m : Ty} : MessageIn env maps nums m → MessageIn env maps nums (.assoc mu h none k (some m))

end Zpp.Spec
