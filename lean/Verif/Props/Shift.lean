import Verif.Proof.UserShift
import Verif.Checks2
import Verif.Props.UserNest
/-! # C73: an archive at a position behaves as a new archive over the rest of the view -/

namespace Zpp.Props
open Zpp.Spec

theorem decMany_drop (d : Nat) (c : Cfg) (items : List (Ty × Val)) (data : List UInt8) (p : Nat) (hp : p ≤ data.length) :
    decMany d c data items p =
      ⟨(decMany d c (data.drop p) items 0).s, (decMany d c (data.drop p) items 0).vs,
        p + (decMany d c (data.drop p) items 0).p⟩ := by
  have h := decMany_shift (pre := data.take p) (data := data.drop p) d c items 0
  rw [List.take_append_drop, List.length_take, Nat.min_eq_left hp, Nat.add_zero] at h
  exact h

/-- C73, reading. Whatever is read, into whatever destinations, and whether it succeeds or not: an input archive at a
position inside its view does what a new archive over the bytes from there on does; only the position differs, by the
number of bytes in front. -/
theorem C73_read (d : Nat) (c : Cfg) (items : List (Ty × Val)) (pre data : List UInt8) (q : Nat) :
    (decMany d c (pre ++ data) items (pre.length + q)).s = (decMany d c data items q).s ∧
    (decMany d c (pre ++ data) items (pre.length + q)).vs = (decMany d c data items q).vs ∧
    (decMany d c (pre ++ data) items (pre.length + q)).p = pre.length + (decMany d c data items q).p := by
  rw [decMany_shift]
  exact ⟨rfl, rfl, rfl⟩

/-- C73, reading: two archives with the same bytes ahead of them report the same outcome, leave the same objects and
consume the same number of bytes. -/
theorem C73_remaining_only (d : Nat) (c : Cfg) (items : List (Ty × Val)) (data data' : List UInt8) (p p' : Nat)
    (hp : p ≤ data.length) (hp' : p' ≤ data'.length) (h : data.drop p = data'.drop p') :
    (decMany d c data items p).s = (decMany d c data' items p').s ∧
    (decMany d c data items p).vs = (decMany d c data' items p').vs ∧
    (decMany d c data items p).p + p' = (decMany d c data' items p').p + p := by
  rw [decMany_drop d c items data p hp, decMany_drop d c items data' p' hp', h]
  refine ⟨rfl, rfl, ?_⟩
  dsimp only
  omega

/-- C73, writing to a view that does not grow. Whatever is written, and whether it succeeds or not: an output archive at
a position inside its view does what a new archive over the bytes from there on does. The bytes in front are not
changed. -/
theorem C73_write (d : Nat) (c : Cfg) (hg : c.g.resizable = false) (noFit : Bool) (items : List (Ty × Val))
    (pre data : List UInt8) (pos : Nat) (hp : pos ≤ data.length) :
    (outCall d c noFit items ⟨pre ++ data, pre.length + pos⟩).1 = (outCall d c noFit items ⟨data, pos⟩).1 ∧
    (outCall d c noFit items ⟨pre ++ data, pre.length + pos⟩).2.data =
      pre ++ (outCall d c noFit items ⟨data, pos⟩).2.data ∧
    (outCall d c noFit items ⟨pre ++ data, pre.length + pos⟩).2.pos =
      pre.length + (outCall d c noFit items ⟨data, pos⟩).2.pos := by
  rw [((outCall_shifts d c hg noFit items).run data pos hp).1 pre]
  exact ⟨rfl, rfl, rfl⟩

/-- C73, reading classes with a user-written `serialize` function, at any depth. -/
theorem C73_user_read (d : Nat) (u : UCfg) (t : UTy) (dest : Val) (pre data : List UInt8) (q : Nat) :
    (uDecode d u t dest (pre ++ data) (pre.length + q)).s = (uDecode d u t dest data q).s ∧
    (uDecode d u t dest (pre ++ data) (pre.length + q)).v = (uDecode d u t dest data q).v ∧
    (uDecode d u t dest (pre ++ data) (pre.length + q)).p = pre.length + (uDecode d u t dest data q).p := by
  rw [uDecode_shift]
  exact ⟨rfl, rfl, rfl⟩

/-- C73, writing classes with a user-written `serialize` function, at any depth. -/
theorem C73_user_write (d : Nat) (u : UCfg) (hg : u.c.g.resizable = false) (noFit : Bool) (t : UTy) (v : Val)
    (pre data : List UInt8) (pos : Nat) (hp : pos ≤ data.length) :
    (uCall d u noFit t v ⟨pre ++ data, pre.length + pos⟩).1 = (uCall d u noFit t v ⟨data, pos⟩).1 ∧
    (uCall d u noFit t v ⟨pre ++ data, pre.length + pos⟩).2.data = pre ++ (uCall d u noFit t v ⟨data, pos⟩).2.data ∧
    (uCall d u noFit t v ⟨pre ++ data, pre.length + pos⟩).2.pos =
      pre.length + (uCall d u noFit t v ⟨data, pos⟩).2.pos := by
  have h : uCall d u noFit t v = uEncode d u t v := by
    funext st
    simp [uCall, fitCall, hg]
  rw [h, ((uEncode_shifts u hg d t v).run data pos hp).1 pre]
  exact ⟨rfl, rfl, rfl⟩

/-- An address book message (whose length is filled in afterwards) behind three other bytes: written whole, and
cut short by a buffer that is one byte too small. -/
example : (outCall 20 (Checks.le Checks.fixed .varint) false [(Checks.person, Checks.john)]
      ⟨[1, 2, 3] ++ List.replicate 49 0, [1, 2, 3].length + 1⟩).1 = .ok ∧
    (outCall 20 (Checks.le Checks.fixed .varint) false [(Checks.person, Checks.john)]
      ⟨[1, 2, 3] ++ List.replicate 40 0, [1, 2, 3].length + 1⟩).1 = .err .resultOutOfRange ∧
    (Checks.le Checks.fixed .varint).g.resizable = false := by decide +kernel

/-- Reading it: whole, and cut short inside the last record. -/
example : decMany 20 (Checks.le Checks.fixed .varint) ([1, 2, 3] ++ (Checks.johnBytes.length.toUInt8 :: Checks.johnBytes))
      [(Checks.person, .list [.list [], .num 0, .list [], .list []])] ([1, 2, 3].length + 0) =
      ⟨.ok, [Checks.john], 4 + Checks.johnBytes.length⟩ ∧
    (decMany 20 (Checks.le Checks.fixed .varint) ([1, 2, 3] ++ (Checks.johnBytes.length.toUInt8 :: Checks.johnBytes.take 40))
      [(Checks.person, .list [.list [], .num 0, .list [], .list []])] ([1, 2, 3].length + 0)).s = .err .resultOutOfRange := by
  decide +kernel

/-- The same bytes ahead, at different positions. -/
example : (Checks.johnBytes).drop 0 = ([7, 7] ++ Checks.johnBytes).drop 2 ∧ 0 ≤ Checks.johnBytes.length ∧
    2 ≤ ([7, 7] ++ Checks.johnBytes).length := by decide +kernel

example : (uDecode 20 jsonCfg (.ref 0) jNull ([9, 9] ++ jBytes) ([9, 9].length + 0)).s = .ok ∧
    (uDecode 20 jsonCfg (.ref 0) jNull ([9, 9] ++ [3, 1, 1, 97, 2, 2, 0, 4]) ([9, 9].length + 0)).s = .err .protocolError ∧
    (uCall 20 { jsonCfg with c := Checks.le Checks.fixed (.fixed 1) } false (.ref 0) jDoc
      ⟨[9, 9] ++ List.replicate 19 0, [9, 9].length + 0⟩) = (.ok, ⟨[9, 9] ++ jBytes, 21⟩) := by decide +kernel

end Zpp.Props
