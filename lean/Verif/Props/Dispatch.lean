import Verif.Model.Dispatch
/-!
# Input and output choose the same rule for a type
-/

namespace Zpp.Props
open Zpp

/-- The rule for reading what was written by rule `r`: associative containers have a rule of their own on input. -/
def readsWith (t : Traits) (r : Rule) : Rule := if r = .container ∧ t.keyType = true then .associative else r

/-- C57. If an object can be written, it can be read (as an lvalue; variants are templates of types), and by the rule that
matches the one it was written with. Conversely, what can be read can be written. -/
theorem C57_same_rule (t : Traits) (r : Rule) (hl : t.lvalue = true) (hv : t.variantOps = true → t.templateOfTypes = true) :
    (outRule t = some r → inRule t = some (readsWith t r)) ∧
    (inRule t = some (readsWith t r) → r ≠ .associative → outRule t = some r) := by
  have hw : t.variant = true → t.templateOfTypes = true := by
    intro h
    apply hv
    simp only [Traits.variant, Bool.and_eq_true] at h
    exact h.2.2
  have ha : t.array = t.isArray := by simp [Traits.array, hl]
  have hs : t.associative = (t.container && t.keyType) := rfl
  unfold outRule inRule outViable inViable readsWith Traits.unspecialized
  rw [ha, hs, hl]
  clear ha hs hl hv
  revert hw r
  generalize t.container = a1
  generalize t.tuple = a2
  generalize t.optional = a3
  generalize t.variant = a4
  generalize t.owningPointer = a5
  generalize t.bitset = a6
  generalize t.byProtocol = a7
  generalize t.isArray = a8
  generalize t.keyType = a9
  generalize t.templateOfTypes = a10
  intro r
  revert a1 a2 a3 a4 a5 a6 a7 a8 a9 a10
  cases r <;> decide +kernel

/-- C57. An object handled by the unspecialized rule is treated alike in both directions. -/
theorem C57_same_basic (t : Traits) : outBasic t = inBasic t := rfl

/-- C57. Sequences: the number of elements is written exactly if it is read, and the elements are written as one block exactly
if they are read as one. -/
theorem C57_same_layout (t : Traits) (voidSize : Bool) (h : inRule t = some .container) :
    outContainer t voidSize = inContainer t voidSize := by
  have hk : t.associative = false := by
    cases h1 : t.associative with
    | false => rfl
    | true =>
      have h2 : t.container = true := by
        simp only [Traits.associative, Bool.and_eq_true] at h1; exact h1.1
      exfalso
      revert h
      unfold inRule inViable
      rw [h1, h2]
      generalize t.unspecialized = a0
      generalize t.array = a1
      generalize t.tuple = a2
      generalize t.optional = a3
      generalize (t.variant && t.templateOfTypes && t.lvalue) = a4
      generalize t.owningPointer = a5
      generalize t.bitset = a6
      generalize t.byProtocol = a7
      revert a0 a1 a2 a3 a4 a5 a6 a7
      decide +kernel
  unfold outContainer inContainer
  rw [hk]
  generalize t.elementsAsBytes = a1
  generalize t.randomAccess = a2
  generalize t.data = a3
  generalize t.resize = a4
  generalize t.assignView = a5
  generalize t.staticExtent = a6
  generalize t.fixedNonzeroSize = a7
  generalize t.viewOfInput = a8
  revert voidSize a1 a2 a3 a4 a5 a6 a7 a8
  decide +kernel

/-- C57. Associative containers: the number of elements is always written, as it is always read; there is no block of elements
if the iterators are not random access iterators. With a `void` size type they can be written, but not read. -/
theorem C57_associative_layout (t : Traits) (h : inRule t = some .associative) (hr : t.randomAccess = false) :
    inAssociative false = some (outContainer t false) ∧ inAssociative true = none := by
  have hk : t.associative = true := by
    cases h1 : t.associative with
    | true => rfl
    | false =>
      exfalso
      revert h
      unfold inRule inViable
      rw [h1]
      generalize t.unspecialized = a0
      generalize t.array = a1
      generalize t.tuple = a2
      generalize t.optional = a3
      generalize (t.variant && t.templateOfTypes && t.lvalue) = a4
      generalize t.owningPointer = a5
      generalize t.bitset = a6
      generalize t.byProtocol = a7
      generalize t.container = a8
      revert a0 a1 a2 a3 a4 a5 a6 a7 a8
      decide +kernel
  simp [inAssociative, outContainer, hr, hk]

/-- The interfaces a class can have: that of an optional, of a container, of a tuple, of a variant, of a smart pointer, of a
bitset. (A class with the operations of a container is not looked at as a tuple.) -/
def interfaces (t : Traits) : Nat :=
  t.isArray.toNat + t.optionalOps.toNat + t.containerOps.toNat +
  (t.tupleSize && !t.containerOps && !t.indexOp).toNat + (t.indexOp && t.variantOps).toNat + t.smartPointer.toNat +
  t.bitsetOps.toNat

/-- C57. An lvalue whose type has at most one of the interfaces and declares nothing about serialization can be written, by the
rule for that interface; without any interface, by the rule for plain objects. -/
theorem C57_by_interface (t : Traits) (hl : t.lvalue = true) (h0 : t.declaresMembers = false)
    (h1 : t.declaresProtocol = false) (h2 : t.explicitSerialize = false) (h : interfaces t ≤ 1) :
    outRule t = some (
      if t.isArray then .array else if t.optionalOps then .optional else if t.containerOps then .container
      else if t.tupleSize && !t.indexOp then .tuple else if t.indexOp && t.variantOps then .variant
      else if t.smartPointer then .pointer else if t.bitsetOps then .bitset else .unspecialized) := by
  revert h
  unfold outRule outViable interfaces Traits.unspecialized Traits.array Traits.owningPointer Traits.bitset Traits.variant
    Traits.tuple Traits.byProtocol Traits.container Traits.optional Traits.hasSerialize
  rw [hl, h0, h1, h2]
  generalize t.isArray = a1
  generalize t.optionalOps = a2
  generalize t.containerOps = a3
  generalize t.tupleSize = a4
  generalize t.indexOp = a5
  generalize t.variantOps = a6
  generalize t.smartPointer = a7
  generalize t.bitsetOps = a8
  generalize t.fixedNonzeroSize = a9
  generalize t.arrayLayout = a10
  revert a1 a2 a3 a4 a5 a6 a7 a8 a9 a10
  decide +kernel

/-- C57. What a class declares about its serialization takes precedence over its interfaces, in this order: a function of its
own, a protocol, a list of members. (Arrays and smart pointers are not classes a user declares.) -/
theorem C57_declared (t : Traits) (h1 : t.isArray = false) (h2 : t.smartPointer = false)
    (h : t.explicitSerialize = true ∨ t.declaresProtocol = true ∨ t.declaresMembers = true) :
    outRule t = some (if t.explicitSerialize then .unspecialized else if t.declaresProtocol then .protocol
      else .unspecialized) ∧
    inRule t = outRule t ∧
    (t.explicitSerialize = true → outBasic t = .userFunction) := by
  have hs : t.hasSerialize = true := by
    unfold Traits.hasSerialize
    rcases h with h | h | h <;> simp [h]
  have e1 : t.container = false := by simp [Traits.container, hs]
  have e2 : t.tuple = false := by simp [Traits.tuple, hs]
  have e3 : t.optional = false := by simp [Traits.optional, hs]
  have e4 : t.variant = false := by simp [Traits.variant, hs]
  have e5 : t.owningPointer = false := by simp [Traits.owningPointer, h2]
  have e6 : t.bitset = false := by simp [Traits.bitset, hs]
  have e7 : t.array = false := by simp [Traits.array, h1, e1]
  have e8 : t.associative = false := by simp [Traits.associative, e1]
  refine ⟨?_, ?_, fun h => by simp [outBasic, h]⟩
  · cases hp : t.declaresProtocol <;> cases hx : t.explicitSerialize <;>
      simp [outRule, outViable, Traits.unspecialized, Traits.byProtocol, e1, e2, e3, e4, e5, e6, e7, h1, hp, hx, resolve]
  · cases hp : t.declaresProtocol <;> cases hx : t.explicitSerialize <;>
      simp [outRule, inRule, outViable, inViable, Traits.unspecialized, Traits.byProtocol, e1, e2, e3, e4, e5, e6, e7, e8,
        h1, hp, hx, resolve]

/-- A type without any of the properties. -/
def _root_.Zpp.Traits.plain : Traits :=
  { lvalue := true, isArray := false, declaresMembers := false, declaresProtocol := false, explicitSerialize := false,
    optionalOps := false, containerOps := false, keyType := false, tupleSize := false, indexOp := false,
    variantOps := false, templateOfTypes := false, smartPointer := false, bitsetOps := false, fixedNonzeroSize := false,
    arrayLayout := false, resize := false, assignView := false, staticExtent := false, data := false,
    randomAccess := false, elementsAsBytes := false, asBytes := false, scalar := false, isBytes := false,
    isEmpty := false, viewOfInput := false }

/-- `std::vector<int>`, `std::map<..>`, `std::array<int, 3>`, `std::string_view`, `std::variant<..>`, `std::pair<..>`. -/
example :
    let vector := { Traits.plain with containerOps := true, resize := true, data := true, randomAccess := true,
                                       elementsAsBytes := true }
    let map := { Traits.plain with containerOps := true, keyType := true }
    let array := { Traits.plain with containerOps := true, tupleSize := true, fixedNonzeroSize := true,
                                      arrayLayout := true, data := true, randomAccess := true, elementsAsBytes := true }
    let stringView := { Traits.plain with containerOps := true, assignView := true, data := true, randomAccess := true,
                                           elementsAsBytes := true, viewOfInput := true }
    let variant := { Traits.plain with indexOp := true, variantOps := true, templateOfTypes := true }
    let pair := { Traits.plain with tupleSize := true }
    (outRule vector, inRule vector, outContainer vector false) = (some .container, some .container, ⟨true, true⟩) ∧
    (outRule map, inRule map, outContainer map false) = (some .container, some .associative, ⟨true, false⟩) ∧
    (outRule array, inRule array, inContainer array false) = (some .container, some .container, ⟨false, true⟩) ∧
    (outRule stringView, inRule stringView, inContainer stringView true) =
      (some .container, some .container, ⟨false, true⟩) ∧
    (outRule variant, inRule variant) = (some .variant, some .variant) ∧
    (outRule pair, inRule pair) = (some .tuple, some .tuple) := by decide +kernel

/-- C57. A container of fixed size that is not a span (no `resize`, no `extent`) has a size prefix exactly if it can be assigned
from a pointer to an element and the number 1, in both directions. -/
theorem C57_fixed_prefix (t : Traits) (hk : t.keyType = false) (hr : t.resize = false) (he : t.staticExtent = false) :
    (outContainer t false).prefixed = t.assignView ∧ (inContainer t false).prefixed = t.assignView := by
  have ha : t.associative = false := by simp [Traits.associative, hk]
  unfold outContainer inContainer
  rw [ha, hr, he]
  generalize t.elementsAsBytes = a1
  generalize t.randomAccess = a2
  generalize t.data = a3
  generalize t.assignView = a5
  generalize t.fixedNonzeroSize = a7
  generalize t.viewOfInput = a8
  revert a1 a2 a3 a5 a7 a8
  decide +kernel

/-- `std::array<std::optional<int>, 2>` has no prefix. `std::array<std::optional<bool>, 2>` has one: pointers and numbers convert
to `bool`, so that the array can be assigned from a pointer and a number as from two elements. -/
example :
    let array := { Traits.plain with containerOps := true, tupleSize := true, fixedNonzeroSize := true,
                                      arrayLayout := true, data := true, randomAccess := true }
    (outRule array, outContainer array false) = (some .container, ⟨false, false⟩) ∧
    (outRule { array with assignView := true }, outContainer { array with assignView := true } false) =
      (some .container, ⟨true, false⟩) := by decide +kernel

/-- A `std::array` that is not an lvalue would be refused as ambiguous: the archive only passes lvalues on. -/
example :
    outRule { Traits.plain with lvalue := false, containerOps := true, tupleSize := true, fixedNonzeroSize := true,
                                 arrayLayout := true } = none := by decide +kernel

end Zpp.Props
