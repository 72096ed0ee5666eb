import Verif.Model.Out
import Verif.Model.In
import Verif.Spec.Archive
import Verif.Spec.Input
import Verif.Checks
import Verif.Proof.WireLemmas
/-!
# Where the code departs from what a user may expect

Each theorem exhibits a departure of the code from its documentation or from the natural reading of a property. They are
the reasons for the hypotheses of the other theorems (`Valid`, `GrowthLaws`, `Good`, ...), see "Disagreements" in
DESIGN.md.
-/

namespace Zpp.Props
open Zpp Zpp.Spec

set_option maxRecDepth 8000

/-! ## Positions and growth -/

/-- D01. With the position behind the end of a fixed buffer (`reset(p)`, `position() = p` are not checked) every scalar is
written outside of the buffer. -/
theorem D01_position_outside_write (d : Nat) (c : Cfg) (k : SKind) (n x : Nat) (st : OutSt) (hf : c.g.resizable = false)
    (hn : n < 2 ^ 62) (hl : st.data.length < 2 ^ 62) (hp : st.data.length < st.pos)
    (hpl : st.pos < 2 ^ 62) : (encode (d + 1) c (.scalar k n) (.num x) st).1 = .ub := by
  have hlen : (ioBytes c n x).length = n := by
    rw [ioBytes_eq]; simp
  have hs : ¬ subSz st.data.length st.pos < n := by unfold subSz; split <;> omega
  simp only [encode, put, claim, OutM.andThen, hlen, hf]
  rw [if_neg (by omega), if_neg (by simp), if_neg hs]
  simp only [memcpyAt, hlen]
  rw [if_neg (by omega)]

/-- D01, on input: with the position behind the end, reading any scalar reads outside of the input. -/
theorem D01_position_outside_read (d : Nat) (c : Cfg) (k : SKind) (n : Nat) (old : Val) (data : List UInt8) (p : Nat)
    (hn : n < 2 ^ 62) (hl : data.length < 2 ^ 62) (hp : data.length < p) (hpl : p < 2 ^ 62) :
    (decode (d + 1) c (.scalar k n) old data p).s = .ub := by
  have hs : ¬ subSz data.length p < n := by unfold subSz; split <;> omega
  simp only [decode, getBytes]
  rw [if_neg hs, if_neg (by omega)]

/-- D02. `enlarger<M, D>` with `M < D` grows a buffer to less than needed: the first write is outside of the buffer. -/
theorem D02_shrinking_enlarger :
    (outCall 20 (Checks.le ⟨true, 1, 2, sizeMax, false, 2 ^ 40⟩ (.fixed 4)) false [(.scalar .int 4, .num 1)] ⟨[], 0⟩).1 =
      .ub := by decide +kernel

/-- D02. With `no_enlarge_overflow` the multiplication of the enlarger may wrap, and the buffer is cut instead of
enlarged. -/
theorem D02_unchecked_overflow :
    (outCall 20 (Checks.le ⟨true, 2 ^ 63, 1, sizeMax, true, 2 ^ 40⟩ (.fixed 4)) false [(.scalar .int 4, .num 1)]
      ⟨[], 0⟩).1 = .ub := by decide +kernel

/-- D03. With `alloc_limit` a varint that fits is refused: room for the longest varint is requested, and the enlarger is
applied before the comparison. Here one byte is to be written, 10 bytes are allowed. -/
theorem D03_varint_refused_within_limit :
    wire (fmtOf (Checks.le Checks.grow (.fixed 4))) (.varint 8 false) (.num 1) = some [1] ∧
    (outCall 20 (Checks.le ⟨true, 3, 2, 10, false, 2 ^ 40⟩ (.fixed 4)) false [(.varint 8 false, .num 1)] ⟨[], 0⟩).1 =
      .err .noBufferSpace := by decide +kernel

/-! ## Input -/

/-- D04. A `bool` is read by copying the byte: bytes other than 0 and 1 give an object which is neither `true` nor
`false`. -/
theorem D04_bool_not_checked :
    decode 20 (Checks.le Checks.grow (.fixed 4)) .bool (.num 0) [2] 0 = ⟨.ok, .num 2, 1⟩ ∧
    wire (fmtOf (Checks.le Checks.grow (.fixed 4))) .bool (.num 2) = none := by decide +kernel

/-- D05. Every nonzero flag byte means that an optional has a value: different byte strings read as the same object. -/
theorem D05_optional_flag :
    decode 20 (Checks.le Checks.grow (.fixed 4)) (.optional true (.scalar .int 1)) .none [1, 5] 0 =
      ⟨.ok, .some (.num 5), 2⟩ ∧
    decode 20 (Checks.le Checks.grow (.fixed 4)) (.optional true (.scalar .int 1)) .none [255, 5] 0 =
      ⟨.ok, .some (.num 5), 2⟩ := by decide +kernel

/-- D06. Without `alloc_limit` a container is resized to the announced size before it is known whether the input is that
long: four bytes of input make a container of a thousand elements, then the call fails. -/
theorem D06_resized_before_check :
    let r := decode 20 (Checks.le Checks.grow (.fixed 4)) Checks.str (.list []) [0xe8, 0x03, 0x00, 0x00] 0
    r.s = .err .resultOutOfRange ∧ r.v.elems.length = 1000 := by decide +kernel

/-- D07. A varint longer than necessary is accepted: two different byte strings read as 0. -/
theorem D07_overlong_varint :
    decode 20 (Checks.le Checks.grow (.fixed 4)) (.varint 4 false) (.num 7) [0x00] 0 = ⟨.ok, .num 0, 1⟩ ∧
    decode 20 (Checks.le Checks.grow (.fixed 4)) (.varint 4 false) (.num 7) [0x80, 0x80, 0x00] 0 =
      ⟨.ok, .num 0, 3⟩ := by decide +kernel

/-- D08. The error for a varint without end depends on how much input follows: five bytes with continuation bit are
`value_too_large` for a 32 bit varint if ten bytes remain, and `result_out_of_range` if only three remain. -/
theorem D08_unterminated_varint :
    (decode 20 (Checks.le Checks.grow (.fixed 4)) (.varint 4 false) (.num 7) (List.replicate 10 0x80) 0).s =
      .err .valueTooLarge ∧
    (decode 20 (Checks.le Checks.grow (.fixed 4)) (.varint 4 false) (.num 7) (List.replicate 3 0x80) 0).s =
      .err .resultOutOfRange := by decide +kernel

/-! ## Recursive classes -/

/-- Class definitions with `struct node { std::unique_ptr<node> next; ... };`. -/
def selfOwning (fs : List Ty) : Nat → Ty := fun _ => .struct false (.uptr (.ref 0) :: fs)

/-- D09. A class that owns itself through a `std::unique_ptr` can be read from no input: reading never ends (here: exhausts
the stack, whatever its depth), because an owning pointer is always read as not null. -/
theorem D09_self_owning_never_read (c : Cfg) (fs : List Ty) (henv : c.env = selfOwning fs) (d : Nat) (data : List UInt8) :
    ∀ (old : Val) (p : Nat), (decode d c (.ref 0) old data p).s = .stack := by
  induction d using Nat.strongRecOn with
  | _ d ih =>
    intro old p
    match d with
    | 0 => rfl
    | 1 => rfl
    | 2 =>
      have h1 : asBytes c (.struct false (.uptr (.ref 0) :: fs)) = false := by
        simp [asBytes, Ty.endianIndep, Ty.byteSer]
      simp [decode, henv, selfOwning, h1, decFields, ResL.toRes]
    | d + 3 =>
      have h1 : asBytes c (.struct false (.uptr (.ref 0) :: fs)) = false := by
        simp [asBytes, Ty.endianIndep, Ty.byteSer]
      have := ih d (by omega) (dflt c d (.ref 0)) p
      simp only [decode, henv, selfOwning, h1]
      rw [if_neg (by simp)]
      simp only [decFields]
      generalize decode d c (.ref 0) (dflt c d (.ref 0)) data p = r at this ⊢
      obtain ⟨s, v, p'⟩ := r
      simp only at this
      subst this
      rfl

/-- D09. Nor can an object of such a class be written: there is always a null pointer at the end. -/
theorem D09_self_owning_never_written (c : Cfg) (fs : List Ty) (henv : c.env = selfOwning fs) (d : Nat) (st : OutSt) :
    ∀ v, (encode d c (.ref 0) v st).1 = .stack ∨ (encode d c (.ref 0) v st).1 = .illFormed ∨
      (encode d c (.ref 0) v st).1 = .err .invalidArgument := by
  induction d using Nat.strongRecOn with
  | _ d ih =>
    intro v
    have h1 : asBytes c (.struct false (.uptr (.ref 0) :: fs)) = false := by
      simp [asBytes, Ty.endianIndep, Ty.byteSer]
    match d with
    | 0 => exact Or.inl rfl
    | 1 => exact Or.inl rfl
    | 2 =>
      cases v with
      | list vs =>
        simp only [encode, henv, selfOwning]
        rw [if_neg (by simp [h1])]
        cases vs with
        | nil => exact Or.inr (Or.inl rfl)
        | cons v vs => simp [encFields, OutM.fail, OutM.andThen]
      | _ => exact Or.inr (Or.inl (by simp [encode, henv, selfOwning, OutM.fail]))
    | d + 3 =>
      cases v with
      | list vs =>
        simp only [encode, henv, selfOwning]
        rw [if_neg (by simp [h1])]
        cases vs with
        | nil => exact Or.inr (Or.inl rfl)
        | cons v vs =>
          simp only [encFields, OutM.andThen]
          cases v with
          | none => exact Or.inr (Or.inr rfl)
          | some w =>
            simp only [encUptr]
            have := ih d (by omega) w
            generalize encode d c (.ref 0) w st = r at this ⊢
            obtain ⟨s, st'⟩ := r
            simp only at this
            rcases this with rfl | rfl | rfl
            · exact Or.inl rfl
            · exact Or.inr (Or.inl rfl)
            · exact Or.inr (Or.inr rfl)
          | _ => exact Or.inr (Or.inl rfl)
      | _ => exact Or.inr (Or.inl (by simp [encode, henv, selfOwning, OutM.fail]))

/-! ## Formats -/

/-- D10. The fixed size field of a protocol message is patched in native byte order, also in an archive with the other
byte order: with `endian::big` and `size4b` on a little-endian host the size 3 of the message is written as
`03 00 00 00`, and the same archive configuration cannot read it back. -/
theorem D10_message_size_native_order :
    let c := Checks.be Checks.grow (.fixed 4)
    Checks.run c (Checks.msg [Checks.vint32]) (.list [.num 150]) = (.ok, [3, 0, 0, 0, 0x08, 0x96, 0x01]) ∧
    wire (fmtOf c) (Checks.msg [Checks.vint32]) (.list [.num 150]) = some [0, 0, 0, 3, 0x08, 0x96, 0x01] ∧
    (outCall 20 c false [(Checks.msg [Checks.vint32], .list [.num 150]), (.scalar .int 4, .num 1)] ⟨[], 0⟩).2.data =
      [3, 0, 0, 0, 0x08, 0x96, 0x01, 0, 0, 0, 1] ∧
    (decMany 20 c [3, 0, 0, 0, 0x08, 0x96, 0x01, 0, 0, 0, 1]
      [(Checks.msg [Checks.vint32], .list [.num 0]), (.scalar .int 4, .num 0)] 0).s ≠ .ok := by decide +kernel

/-- D11. An empty class writes nothing, but a vector of an empty class writes one byte per element, unless the archive
swaps bytes. -/
theorem D11_vector_of_empty :
    (Checks.run (Checks.le Checks.grow (.fixed 1)) .empty .unit).2 = [] ∧
    (Checks.run (Checks.le Checks.grow (.fixed 1)) (.seq .vector none .empty) (.list [.unit, .unit])).2 = [2, 0, 0] ∧
    (Checks.run (Checks.be Checks.grow (.fixed 1)) (.seq .vector none .empty) (.list [.unit, .unit])).2 = [2] := by
  decide +kernel

/-! ## Protobuf output -/

/-- D12. A protobuf message written to an archive with varint sizes and `endian::big` on a little-endian host writes
fixed32 members big-endian. -/
theorem D12_fixed32_big_endian :
    let t := Checks.msg [.scalar .int 4]
    Checks.run (Checks.be Checks.grow .varint) t (.list [.num 1]) = (.ok, [5, 0x0d, 0, 0, 0, 1]) ∧
    wire (fmtOf (Checks.be Checks.grow .varint)) t (.list [.num 1]) = some [5, 0x0d, 1, 0, 0, 0] := by decide +kernel

/-- D13. The explicit number of a repeated string (or message) member is lost on output: written under number 1 although
declared with 5, and not found again on input. -/
theorem D13_repeated_number_lost :
    let t : Ty := .msg none false [] [some 5] [.seq .vector none Checks.str]
    let c := Checks.le Checks.grow .none
    Checks.run c t (.list [.list [Checks.strV [65]]]) = (.ok, [0x0a, 1, 65]) ∧
    wire (fmtOf c) t (.list [.list [Checks.strV [65]]]) = some [0x2a, 1, 65] ∧
    decode 20 c t (.list [.list []]) [0x2a, 1, 65] 0 = ⟨.ok, .list [.list [Checks.strV [65]]], 3⟩ ∧
    (decode 20 c t (.list [.list []]) [0x0a, 1, 65] 0).v ≠ .list [.list [Checks.strV [65]]] := by decide +kernel

/-- D14. A `std::byte` member is written as a raw byte under the length-delimited wire type, and read as a varint: what is
written for 0x80 is not protobuf and cannot be read back. -/
theorem D14_byte_member :
    let t := Checks.msg [.scalar .byte 1]
    let c := Checks.le Checks.grow .none
    Checks.run c t (.list [.num 0x80]) = (.ok, [0x0a, 0x80]) ∧
    (decode 20 c t (.list [.num 0]) [0x0a, 0x80] 0).s = .err .resultOutOfRange := by decide +kernel

/-- D15. A protobuf message that is a plain class without padding is written by the protocol on its own, but copied
bytewise as the element of a vector. -/
theorem D15_message_bulk_copied :
    let t : Ty := .msg none true [] [none, none] [.scalar .int 4, .scalar .int 4]
    let c := Checks.le Checks.grow (.fixed 1)
    Checks.run c t (.list [.num 1, .num 2]) = (.ok, [10, 0x0d, 1, 0, 0, 0, 0x15, 2, 0, 0, 0]) ∧
    Checks.run c (.seq .vector none t) (.list [.list [.num 1, .num 2]]) = (.ok, [1, 1, 0, 0, 0, 2, 0, 0, 0]) ∧
    wire (fmtOf c) (.seq .vector none t) (.list [.list [.num 1, .num 2]]) =
      some [1, 10, 0x0d, 1, 0, 0, 0, 0x15, 2, 0, 0, 0] := by decide +kernel

/-! ## Protobuf input -/

/-- D16. The length of a nested message beyond the end of the input is not an error: the message ends with the input. -/
theorem D16_nested_length_clamped :
    decode 20 (Checks.le Checks.grow .none) (Checks.msg [Checks.msg [Checks.vint32]]) (.list [.list [.num 0]])
      [0x0a, 100, 0x08, 0x96, 0x01] 0 = ⟨.ok, .list [.list [.num 150]], 5⟩ := by decide +kernel

/-- D17. The wire type of a record is not compared with the member: a record with wire type 5 (four bytes) for a varint
member is read as a varint, and the rest of its payload as further records. -/
theorem D17_wire_type_unchecked :
    decode 20 (Checks.le Checks.grow .none) (Checks.msg [Checks.vint32, Checks.vint32]) (.list [.num 0, .num 0])
      [0x0d, 7, 0x10, 9] 0 = ⟨.ok, .list [.num 7, .num 9], 4⟩ := by decide +kernel

/-- D18. A negative `int32` in the ten byte form every protobuf writer uses is refused by a `vint32_t` member. -/
theorem D18_negative_int32 :
    (decode 20 (Checks.le Checks.grow .none) (Checks.msg [Checks.vint32]) (.list [.num 0])
      [0x08, 0xff, 0xff, 0xff, 0xff, 0xff, 0xff, 0xff, 0xff, 0xff, 0x01] 0).s = .err .valueTooLarge := by decide +kernel

/-- D19. A packed record of varints may end inside an element: the element is read beyond the end of the record. -/
theorem D19_packed_straddles :
    decode 20 (Checks.le Checks.grow .none) (Checks.msg [.seq .vector none Checks.vint32]) (.list [.list []])
      [0x0a, 1, 0x96, 0x01] 0 = ⟨.ok, .list [.list [.num 150]], 4⟩ := by decide +kernel

/-- D19. The end of a packed record is computed with wrap-around: a record with length `2^64 - 11` is accepted as
empty. -/
theorem D19_packed_length_wraps :
    decode 20 (Checks.le { Checks.grow with maxMem := 2 ^ 70 } .none) (Checks.msg [.seq .vector none Checks.vint32])
      (.list [.list []]) [0x0a, 0xf5, 0xff, 0xff, 0xff, 0xff, 0xff, 0xff, 0xff, 0xff, 0x01] 0 =
      ⟨.ok, .list [.list []], 11⟩ := by decide +kernel

/-- D20. A packed record of `fixed32` whose length is not a multiple of 4: the bytes left over are read as records (here
`08 09`, which sets another member). -/
theorem D20_packed_fixed_leftover :
    decode 20 (Checks.le Checks.grow .none) (Checks.msg [Checks.vint32, .seq .vector none (.scalar .int 4)])
      (.list [.num 0, .list []]) [0x12, 6, 1, 0, 0, 0, 0x08, 9] 0 = ⟨.ok, .list [.num 9, .list [.num 1]], 8⟩ := by
  decide +kernel

/-- D21. Of two map entries with the same key the first one is kept (protobuf: the last). -/
theorem D21_map_first_wins :
    decode 20 (Checks.le Checks.grow .none) (Checks.msg [.assoc false false none Checks.vint32 (some Checks.vint32)])
      (.list [.list []]) [0x0a, 4, 0x08, 1, 0x10, 2, 0x0a, 4, 0x08, 1, 0x10, 3] 0 =
      ⟨.ok, .list [.list [.list [.num 1, .num 2]]], 12⟩ := by decide +kernel

/-- D22. Reading a message into an object that is in use merges: members without record keep their old value, numbers
included, so that a message read twice into the same object is not the message read into a fresh one. -/
theorem D22_merge :
    decode 20 (Checks.le Checks.grow .none) (Checks.msg [Checks.vint32, Checks.vint32]) (.list [.num 5, .num 6])
      [0x08, 1] 0 = ⟨.ok, .list [.num 1, .num 6], 2⟩ := by decide +kernel

/-! ## Members that compile although the library does not write protobuf for them (C67) -/

/-- D23. A C array member is written under the length-delimited wire type, but without a length: a reader takes the first
byte of the first number as the length (here 1), and the rest as records. -/
theorem D23_array_member :
    let c := Checks.le Checks.grow .none
    Checks.run c (Checks.msg [.array 2 (.scalar .int 4), Checks.vint32]) (.list [.list [.num 1, .num 2], .num 5]) =
      (.ok, [0x0a, 1, 0, 0, 0, 2, 0, 0, 0, 0x10, 5]) ∧
    (decode 20 c (Checks.msg [Checks.str, Checks.vint32]) (.list [.list [], .num 0])
      [0x0a, 1, 0, 0, 0, 2, 0, 0, 0, 0x10, 5] 0).s = .err .protocolError := by decide +kernel

/-- D24. A container of containers is written as one record per inner container, whose length is the number of elements
and not the number of bytes. -/
theorem D24_nested_containers :
    let c := Checks.le Checks.grow .none
    let t := Checks.msg [.seq .vector none (.seq .vector none (.scalar .int 4)), Checks.vint32]
    let v := Val.list [.list [.list [.num 1, .num 2]], .num 5]
    Checks.run c t v = (.ok, [0x0a, 2, 1, 0, 0, 0, 2, 0, 0, 0, 0x10, 5]) ∧
    wire (fmtOf c) t v = some [0x0a, 8, 1, 0, 0, 0, 2, 0, 0, 0, 0x10, 5] := by decide +kernel

end Zpp.Props
