import Verif.Proof.SizeMsg
import Verif.Props.SizeTypes
/-! # C103: protobuf messages with a size of any integer type -/

namespace Zpp.Props
open Zpp.Spec

/-- C103, integers as sizes. A message with a signed integer as size is written like one with the unsigned integer of the same
width: same bytes, same failures, same buffer. -/
theorem C103_int (d : Nat) (c : Cfg) (noFit : Bool) (n : Nat) (sgn : Bool) (t : Ty) (v : Val) (ht : isMessage t = true) :
    outSized (d + 1) c noFit (.int n sgn) t v = outCall (d + 1) c noFit [(withSize (.fixed n) t, v)] := by
  have hend : ∀ b : OutM, b.andThen OutM.skip = b := by
    intro b
    funext st
    unfold OutM.andThen OutM.skip
    generalize b st = r
    obtain ⟨s, st'⟩ := r
    cases s <;> rfl
  unfold outSized outCall
  simp only [encMany, hend]
  cases t <;> simp only [isMessage, Bool.false_eq_true] at ht
  cases v <;> simp only [encSized, withSize, encode, effSz, Option.getD_some]
  congr 1
  funext st
  simp only [encByProtocolInt, encByProtocol, encHdr, SizeInt.ty, Nat.zero_mod, patchSizeInt, patchSize, SizeInt.stored,
    SizeInt.width, Nat.pow_mul, Nat.reducePow]
  rfl

/-- What a successful call appends. -/
theorem C103_varint_written (d : Nat) (c : Cfg) (noFit : Bool) (n : Nat) (sgn zz : Bool) (t : Ty) (vs : List Val)
    (st st' : OutSt) (body q : List UInt8) (ht : isMessage t = true) (hS : SizeIntOk (.var n sgn zz))
    (hpos : st.pos ≤ st.data.length) (hlen : st.data.length < 2 ^ 63)
    (hs : Supported c [(withSize .none t, .list vs)]) (hd : StackOk (d + 1) [(t, .list vs)]) (hb : BitsOk [(t, .list vs)] st)
    (hw : wire (fmtOf c) (withSize .none t) (.list vs) = some body) (hl : body.length < 2 ^ 62)
    (hn : SizeHolds (.var n sgn zz) body.length)
    (hq : wire (fmtOf c) (SizeInt.var n sgn zz).ty (.num body.length) = some q)
    (hok : outSized (d + 1) c noFit (.var n sgn zz) t (.list vs) st = (.ok, st')) :
    q.length ≤ n ∧ st'.pos = st.pos + (leb body.length).length + body.length ∧
    ∃ k, st'.data = st.data.take st.pos ++ (q ++ body.drop (q.length - (leb body.length).length)) ++
      st.data.drop st'.pos ++ List.replicate k 0 := by
  cases t <;> simp only [isMessage, Bool.false_eq_true] at ht
  case msg sz ok maps nums fs =>
  obtain ⟨hqb, _⟩ := sizeVar_wire hS hn hq
  obtain ⟨z, hz, hzr⟩ : ∃ z : Bool, (z = true ∨ noBits (.list vs) = true) ∧ (z = true → AllZero (st.data.drop st.pos)) := by
    rcases hb with hb | hb
    · exact ⟨false, Or.inr (hb (_, .list vs) (List.mem_singleton.mpr rfl)), by simp⟩
    · exact ⟨true, Or.inl rfl, fun _ => hb⟩
  have hpl : (st.data.take st.pos).length = st.pos := by simp; omega
  have hst : (⟨st.data.take st.pos ++ st.data.drop st.pos, (st.data.take st.pos).length⟩ : OutSt) = st := by
    rw [List.take_append_drop, hpl]
  have hdd := hd (_, .list vs) (List.mem_singleton.mpr rfl)
  have hrun := msgVar_run (d := d) (z := z) (sz := sz) hs.growth hs.abi hs.env hS
    (hs.types (.msg (some .none) ok maps nums fs, .list vs) (List.mem_singleton.mpr rfl)) hw hl hn hz
    (by simp only at hdd; omega) hqb (st.data.take st.pos) (st.data.drop st.pos) hzr (by simp; omega)
  rw [hst] at hrun
  unfold outSized at hok
  have hleb : (varintBytes body.length).length = (leb body.length).length := by rw [leb_eq _ (by omega)]
  by_cases hle : q.length ≤ n
  · have hr := hrun.1 hle
    have hql : (q ++ body.drop (q.length - (leb body.length).length)).length = (leb body.length).length + body.length := by
      have := varintBytes_double body.length
      have h1 : (leb body.length).length ≤ q.length ∧ q.length ≤ (leb body.length).length + 1 ∧
          (q.length = (leb body.length).length + 1 → 64 ≤ body.length) := by
        rw [← hqb, ← hleb]
        cases zz
        · simp only [Bool.false_eq_true, if_false]; omega
        · simpa using this
      simp; omega
    rw [hleb] at hr
    obtain ⟨h1, k, h2⟩ := fit_appends hpos hr hok
    rw [hql] at h1 h2
    refine ⟨hle, by omega, k, ?_⟩
    rw [h2, h1]
  · exfalso
    refine hrun.2 (by omega) ?_
    unfold fitCall at hok
    split at hok
    · generalize encSized (d + 1) c (.var n sgn zz) (.msg sz ok maps nums fs) (.list vs) st = r at hok ⊢
      obtain ⟨s, st1⟩ := r
      cases s <;> simp only at hok <;> first | rfl | (split at hok <;> first | cases hok | (split at hok <;> cases hok)) | cases hok
    · rw [hok]

/-- C103, varints as sizes. A successful call appends the size, then the members of the message as `unsized` would write them,
provided the size takes as many bytes as the plain varint of the same number; for varints that are not zigzag it always does.
The size has at most as many bytes as the integer type. -/
theorem C103_varint (d : Nat) (c : Cfg) (noFit : Bool) (n : Nat) (sgn zz : Bool) (t : Ty) (vs : List Val)
    (st st' : OutSt) (body q : List UInt8) (ht : isMessage t = true) (hS : SizeIntOk (.var n sgn zz))
    (hpos : st.pos ≤ st.data.length) (hlen : st.data.length < 2 ^ 63)
    (hs : Supported c [(withSize .none t, .list vs)]) (hd : StackOk (d + 1) [(t, .list vs)]) (hb : BitsOk [(t, .list vs)] st)
    (hw : wire (fmtOf c) (withSize .none t) (.list vs) = some body) (hl : body.length < 2 ^ 62)
    (hn : SizeHolds (.var n sgn zz) body.length)
    (hq : wire (fmtOf c) (SizeInt.var n sgn zz).ty (.num body.length) = some q)
    (hplain : zz = false ∨ q.length = (leb body.length).length)
    (hok : outSized (d + 1) c noFit (.var n sgn zz) t (.list vs) st = (.ok, st')) :
    q.length ≤ n ∧ st'.pos = st.pos + (q ++ body).length ∧
    ∃ k, st'.data = st.data.take st.pos ++ (q ++ body) ++ st.data.drop st'.pos ++ List.replicate k 0 := by
  obtain ⟨h0, h1, k, h2⟩ := C103_varint_written d c noFit n sgn zz t vs st st' body q ht hS hpos hlen hs hd hb hw hl hn hq hok
  have hqe : q.length = (leb body.length).length := by
    rcases hplain with h | h
    · subst h
      rw [← (sizeVar_wire hS hn hq).1, leb_eq _ (by omega)]; rfl
    · exact h
  refine ⟨h0, by simp only [List.length_append]; omega, k, ?_⟩
  rw [h2, hqe, Nat.sub_self, List.drop_zero]

/-- C103, varints as sizes. A size whose varint has more bytes than the integer type is never written. -/
theorem C103_varint_refused (d : Nat) (c : Cfg) (noFit : Bool) (n : Nat) (sgn zz : Bool) (t : Ty) (vs : List Val)
    (st : OutSt) (body q : List UInt8) (ht : isMessage t = true) (hS : SizeIntOk (.var n sgn zz))
    (hpos : st.pos ≤ st.data.length) (hlen : st.data.length < 2 ^ 63)
    (hs : Supported c [(withSize .none t, .list vs)]) (hd : StackOk (d + 1) [(t, .list vs)]) (hb : BitsOk [(t, .list vs)] st)
    (hw : wire (fmtOf c) (withSize .none t) (.list vs) = some body) (hl : body.length < 2 ^ 62)
    (hn : SizeHolds (.var n sgn zz) body.length)
    (hq : wire (fmtOf c) (SizeInt.var n sgn zz).ty (.num body.length) = some q) (hlong : n < q.length) :
    (outSized (d + 1) c noFit (.var n sgn zz) t (.list vs) st).1 ≠ .ok := by
  intro h
  have := (C103_varint_written d c noFit n sgn zz t vs st (outSized (d + 1) c noFit (.var n sgn zz) t (.list vs) st).2 body q
    ht hS hpos hlen hs hd hb hw hl hn hq (Prod.ext h rfl)).1
  omega

/-- C103, zigzag varints as sizes. When the size takes more bytes than the plain varint of the same number, it takes one more, and
its last byte stands in the place of the first byte of the message. -/
theorem C103_zigzag_overwrites (d : Nat) (c : Cfg) (noFit : Bool) (n : Nat) (t : Ty) (vs : List Val)
    (st st' : OutSt) (body q : List UInt8) (ht : isMessage t = true) (hS : SizeIntOk (.var n true true))
    (hpos : st.pos ≤ st.data.length) (hlen : st.data.length < 2 ^ 63)
    (hs : Supported c [(withSize .none t, .list vs)]) (hd : StackOk (d + 1) [(t, .list vs)]) (hb : BitsOk [(t, .list vs)] st)
    (hw : wire (fmtOf c) (withSize .none t) (.list vs) = some body) (hl : body.length < 2 ^ 62)
    (hn : SizeHolds (.var n true true) body.length)
    (hq : wire (fmtOf c) (SizeInt.var n true true).ty (.num body.length) = some q)
    (hlong : q.length ≠ (leb body.length).length)
    (hok : outSized (d + 1) c noFit (.var n true true) t (.list vs) st = (.ok, st')) :
    st'.pos + 1 = st.pos + (q ++ body).length ∧
    ∃ k, st'.data = st.data.take st.pos ++ (q ++ body.drop 1) ++ st.data.drop st'.pos ++ List.replicate k 0 := by
  obtain ⟨h0, h1, k, h2⟩ := C103_varint_written d c noFit n true true t vs st st' body q ht hS hpos hlen hs hd hb hw hl hn hq hok
  have hqe : q.length = (leb body.length).length + 1 := by
    have := varintBytes_double body.length
    have h3 := (sizeVar_wire hS hn hq).1
    simp only [if_true] at h3
    rw [h3] at this
    rw [leb_eq _ (by omega)] at hlong ⊢
    omega
  refine ⟨by simp only [List.length_append]; omega, k, ?_⟩
  rw [h2, hqe, Nat.add_sub_cancel_left]

/-- C103, varints as sizes of messages that are too long for them. If the length of the message exceeds the largest value of the
integer type and the call succeeds all the same, the size in front is the length modulo the number of values of the type, and behind
it follow as many bytes as the plain varint of the length has more, and then the message. -/
theorem C103_varint_beyond (d : Nat) (c : Cfg) (noFit : Bool) (n : Nat) (sgn zz : Bool) (t : Ty) (vs : List Val)
    (st st' : OutSt) (body q : List UInt8) (ht : isMessage t = true) (hS : SizeIntOk (.var n sgn zz))
    (hpos : st.pos ≤ st.data.length) (hlen : st.data.length < 2 ^ 63)
    (hs : Supported c [(withSize .none t, .list vs)]) (hd : StackOk (d + 1) [(t, .list vs)]) (hb : BitsOk [(t, .list vs)] st)
    (hw : wire (fmtOf c) (withSize .none t) (.list vs) = some body) (hl : body.length < 2 ^ 62)
    (hn : ¬ SizeHolds (.var n sgn zz) body.length)
    (hq : wire (fmtOf c) (SizeInt.var n sgn zz).ty (.num (body.length % 2 ^ (8 * n))) = some q)
    (hok : outSized (d + 1) c noFit (.var n sgn zz) t (.list vs) st = (.ok, st')) :
    q.length ≤ n ∧ st'.pos = st.pos + (leb body.length).length + body.length ∧
    ∃ gap k, q.length + gap.length = (leb body.length).length ∧
      st'.data = st.data.take st.pos ++ (q ++ gap ++ body) ++ st.data.drop st'.pos ++ List.replicate k 0 := by
  cases t <;> simp only [isMessage, Bool.false_eq_true] at ht
  case msg sz ok maps nums fs =>
  have hlt : body.length % 2 ^ (8 * n) < 2 ^ (8 * n) := Nat.mod_lt _ (Nat.two_pow_pos _)
  have hqb : varintBytes (varintLoad n zz (body.length % 2 ^ (8 * n))) = q := by
    simp only [SizeInt.ty, wire, wireNum] at hq
    rw [if_pos hlt] at hq
    cases hq
    rw [leb_varintValue n zz _ (intWidth_iff.mp hS.1) hlt]
  obtain ⟨z, hz, hzr⟩ : ∃ z : Bool, (z = true ∨ noBits (.list vs) = true) ∧ (z = true → AllZero (st.data.drop st.pos)) := by
    rcases hb with hb | hb
    · exact ⟨false, Or.inr (hb (_, .list vs) (List.mem_singleton.mpr rfl)), by simp⟩
    · exact ⟨true, Or.inl rfl, fun _ => hb⟩
  have hpl : (st.data.take st.pos).length = st.pos := by simp; omega
  have hst : (⟨st.data.take st.pos ++ st.data.drop st.pos, (st.data.take st.pos).length⟩ : OutSt) = st := by
    rw [List.take_append_drop, hpl]
  have hdd := hd (_, .list vs) (List.mem_singleton.mpr rfl)
  have hrun := msgVar_beyond (d := d) (z := z) (sz := sz) hs.growth hs.abi hs.env hS
    (hs.types (.msg (some .none) ok maps nums fs, .list vs) (List.mem_singleton.mpr rfl)) hw hl hn hz
    (by simp only at hdd; omega) hqb (st.data.take st.pos) (st.data.drop st.pos) hzr (by simp; omega)
  rw [hst] at hrun
  unfold outSized at hok
  have hleb : (varintBytes body.length).length = (leb body.length).length := by rw [leb_eq _ (by omega)]
  rw [hleb] at hrun
  by_cases hle : q.length ≤ n
  · obtain ⟨gap, hgap, hr⟩ := hrun.2.1 hle
    obtain ⟨h1, k, h2⟩ := fit_appends hpos hr hok
    have hql : (q ++ gap ++ body).length = (leb body.length).length + body.length := by simp; omega
    refine ⟨hle, by omega, gap, k, hgap, ?_⟩
    rw [h2, h1]
  · exfalso
    refine hrun.2.2 (by omega) ?_
    unfold fitCall at hok
    split at hok
    · generalize encSized (d + 1) c (.var n sgn zz) (.msg sz ok maps nums fs) (.list vs) st = r at hok ⊢
      obtain ⟨s, st1⟩ := r
      cases s <;> simp only at hok <;> first | rfl | (split at hok <;> first | cases hok | (split at hok <;> cases hok)) | cases hok
    · rw [hok]

/-- C103, varints as sizes of messages that are too long for them: not refused. A message of 256 bytes, a string of 253 characters,
with a `varint<std::uint8_t>` as size is written without an error, with the size 0, and the call that reads it back succeeds with
an empty string. One of 255 bytes is refused. -/
theorem C103_beyond_refuted :
    let c := Checks.le Checks.grow (.fixed 4)
    let t := Checks.msg [.seq .vector none Checks.chr]
    let v (n : Nat) := Val.list [.list (List.replicate n (.num 65))]
    let S := SizeInt.var 1 false false
    let r := outSized 9 c false S t (v 253) ⟨[], 0⟩
    wire (fmtOf c) (withSize .none t) (v 253) = some ([10, 253, 1] ++ List.replicate 253 65) ∧
    r.1 = .ok ∧ r.2.data = [0, 10, 10, 253, 1] ++ List.replicate 253 65 ∧ r.2.pos = 258 ∧
    decSized 9 c S t (.list [.list []]) r.2.data 0 = ⟨.ok, .list [.list []], 1⟩ ∧
    (outSized 9 c false S t (v 252) ⟨[], 0⟩).1 = .err .resultOutOfRange := by
  decide +kernel

/-- C103, reading. When the size reads as a number, everything that follows is as if an eight byte size with that number,
converted to `std::size_t`, stood in front of the rest of the input. -/
theorem C103_read (d : Nat) (c : Cfg) (S : SizeInt) (t : Ty) (old : Val) (data : List UInt8) (p x p1 : Nat)
    (hS : SizeIntOk S) (ht : isMessage t = true) (hp : p ≤ data.length)
    (hx : decode 1 c S.ty (.num 0) data p = ⟨.ok, .num x, p1⟩) :
    ∃ q, decode (d + 1) c (withSize (.fixed 8) t) old
        (digits (fmtOf c).order 8 (toSize (sizeNumber S x)) ++ data.drop p1) 0 =
          ⟨(decSized (d + 1) c S t old data p).s, (decSized (d + 1) c S t old data p).v, 8 + q⟩ ∧
      (decSized (d + 1) c S t old data p).p = p1 + q := by
  rw [← count_eq hS (prefix_lt hS hp hx).1]
  exact decSized_msg_eight hS ht hp hx

/-- C103, reading. When the size cannot be read the call fails like reading the integer alone, and the message is as before. -/
theorem C103_prefix_fails (d : Nat) (c : Cfg) (S : SizeInt) (t : Ty) (old : Val) (data : List UInt8) (p : Nat)
    (ht : isMessage t = true) (hx : (decode 1 c S.ty (.num 0) data p).s ≠ .ok) :
    decSized (d + 1) c S t old data p =
      ⟨(decode 1 c S.ty (.num 0) data p).s, old, (decode 1 c S.ty (.num 0) data p).p⟩ := by
  cases t <;> simp only [isMessage, Bool.false_eq_true] at ht <;> rw [decSized, prefix_any] <;>
    generalize decode 1 c S.ty (.num 0) data p = r at * <;> obtain ⟨s, v, q⟩ := r <;> cases s <;>
    first | exact absurd rfl hx | rfl

/-- C103, negative sizes. A negative size, and one larger than what follows, stands for all that follows: the message is read as
an unsized one would be. -/
theorem C103_negative (d : Nat) (c : Cfg) (S : SizeInt) (t : Ty) (old : Val) (data : List UInt8) (p x p1 : Nat)
    (hS : SizeIntOk S) (ht : isMessage t = true) (hp : p ≤ data.length) (hlen : data.length < 2 ^ 63)
    (hx : decode 1 c S.ty (.num 0) data p = ⟨.ok, .num x, p1⟩)
    (hneg : sizeNumber S x < 0 ∨ ((data.length - p1 : Nat) : Int) ≤ sizeNumber S x) :
    decSized (d + 1) c S t old data p = decode (d + 1) c (withSize .none t) old data p1 := by
  obtain ⟨hxl, _⟩ := prefix_lt hS hp hx
  have hN : data.length - p1 ≤ S.count x := by
    rw [count_eq hS hxl]
    unfold toSize
    have h1 : -(2 ^ 63 : Int) ≤ sizeNumber S x ∧ sizeNumber S x < 2 ^ 64 := by
      unfold sizeNumber
      rcases sizeIntOk_width hS with e | e | e | e <;> rw [e] at hxl ⊢ <;>
        simp only [Nat.reduceMul, Nat.reducePow, Int.reducePow] at hxl ⊢ <;> split <;> omega
    omega
  cases t <;> simp only [isMessage, Bool.false_eq_true] at ht
  rw [decSized, prefix_any, hx]
  simp only [withSize, decode, effSz, Option.getD_some, msgRun, msgSub]
  rw [Nat.min_eq_right hN, Nat.min_eq_right (by unfold sizeMax; omega)]

/-- C103, the size types the library names. For unsigned integers and `vsize_t` this is the `sized` of all the other theorems. -/
theorem C103_named (d : Nat) (c : Cfg) (noFit : Bool) (t : Ty) (v old : Val) (data : List UInt8) (p n : Nat)
    (ht : isMessage t = true) :
    outSized (d + 1) c noFit (.int n false) t v = outCall (d + 1) c noFit [(withSize (.fixed n) t, v)] ∧
    decSized (d + 1) c (.int n false) t old data p = decode (d + 1) c (withSize (.fixed n) t) old data p ∧
    decSized (d + 1) c (.var 8 false false) t old data p = decode (d + 1) c (withSize .varint t) old data p := by
  refine ⟨C103_int d c noFit n false t v ht, ?_, ?_⟩ <;> cases t <;> simp only [isMessage, Bool.false_eq_true] at ht
  · simp only [decSized, withSize, decode, effSz, Option.getD_some, decHdr, SizeInt.ty]
    generalize getBytes data p n = r
    obtain ⟨s, b, q⟩ := r
    cases s <;> rfl
  · simp only [decSized, withSize, decode, effSz, Option.getD_some, decHdr, SizeInt.ty]
    generalize getVarint 8 false (.num 0) data p = r
    obtain ⟨s, b, q⟩ := r
    cases s <;> try rfl
    cases b <;> rfl

/-- C103, round trip with integers as sizes. A message of at most `std::numeric_limits<SizeType>::max()` bytes, written with an
integer of any width and signedness as size and read with the same from where it was written: the call succeeds, gives the
message, whatever the destination held, and stops where the writer stopped. -/
theorem C103_round_trip_int (d d' : Nat) (co ci : Cfg) (noFit : Bool) (n : Nat) (sgn : Bool) (t : Ty) (vs : List Val) (old : Val)
    (st st' : OutSt) (body : List UInt8) (hf : fmtOf ci = fmtOf co) (ht : isMessage t = true) (hS : SizeIntOk (.int n sgn))
    (hpos : st.pos ≤ st.data.length) (hlen : st.data.length < 2 ^ 63)
    (hs : Supported co [(withSize (.fixed n) t, .list vs)]) (hd : StackOk (d + 1) [(t, .list vs)]) (hb : BitsOk [(t, .list vs)] st)
    (hw : wire (fmtOf co) (withSize .none t) (.list vs) = some body) (hl : body.length < 2 ^ 62)
    (hn : SizeHolds (.int n sgn) body.length)
    (hok : outSized (d + 1) co noFit (.int n sgn) t (.list vs) st = (.ok, st'))
    (hr : Readable ci [(withSize (.fixed n) t, .list vs)]) (hd' : StackOk (d' + 1) [(t, .list vs)]) :
    decSized (d' + 1) ci (.int n sgn) t old st'.data st.pos = ⟨.ok, .list vs, st'.pos⟩ := by
  have hL : body.length < 2 ^ (8 * n) := by
    have h1 : body.length % 2 ^ (8 * n) = body.length := (count_stored hS hn).1
    rw [← h1]; exact Nat.mod_lt _ (Nat.two_pow_pos _)
  rw [C103_int d co noFit n sgn t _ ht] at hok
  cases t <;> simp only [isMessage, Bool.false_eq_true] at ht
  case msg sz ok maps nums fs =>
  have hw8 : wire (fmtOf co) (.msg (some (.fixed n)) ok maps nums fs) (.list vs) = some (digits (fmtOf co).order n body.length ++ body) := by
    simp only [withSize, wire] at hw ⊢
    cases hpb : pbFields (fmtOf co).env maps 0 nums fs vs with
    | none => rw [hpb] at hw; cases hw
    | some b =>
      simp only [hpb, Option.getD_some, msgPrefix, sizePrefix, cat, List.nil_append, Option.some.injEq] at hw ⊢
      subst hw
      rw [if_pos (by rw [Nat.pow_mul] at hL; exact hL)]
  have hd1 := hd (_, .list vs) (List.mem_singleton.mpr rfl)
  have hn8 : n ≤ 8 := by rcases sizeIntOk_width hS with h | h | h | h <;> simp only [SizeInt.width] at h <;> omega
  obtain ⟨h1, k, h2⟩ := C04_growing_appends (d + 1) co noFit _ st st' (digits (fmtOf co).order n body.length ++ body) hpos hlen hs
    (by intro x hx; simp only [List.mem_singleton] at hx; subst hx; exact hd1)
    (by
      rcases hb with hb | hb
      · refine Or.inl ?_
        intro x hx; simp only [List.mem_singleton] at hx; subst hx
        exact hb (.msg sz ok maps nums fs, .list vs) (List.mem_singleton.mpr rfl)
      · exact Or.inr hb)
    (by simp [wireItems, withSize, hw8, cat]) (by simp [digits_length]; omega) hok
  have hv := (outCall_safe (d + 1) co hs.growth noFit [(withSize (.fixed n) (.msg sz ok maps nums fs), .list vs)] st
    ⟨hpos, hlen⟩).valid hs.growth ⟨hpos, hlen⟩
  rw [hok] at hv
  have hlt := hv.len_lt
  simp only at hlt
  have hple : st.pos ≤ st'.data.length := by rw [h2]; simp; omega
  have hdrop : st'.data.drop st.pos = digits (fmtOf co).order n body.length ++ (body ++
      (st.data.drop (st.pos + (digits (fmtOf co).order n body.length ++ body).length) ++ List.replicate k 0)) := by
    rw [h2, List.append_assoc, List.append_assoc, List.drop_append_of_le_length (by simp; omega),
      List.drop_eq_nil_of_le (by simp; omega)]
    simp
  have hgood : Good ci (SizeInt.int n sgn).ty = true := by
    simp only [SizeInt.ty, Good, nodeOk, scalarOk]
    rcases sizeIntOk_width hS with h | h | h | h <;> simp only [SizeInt.width] at h <;> simp [h]
  have hx : decode 1 ci (SizeInt.int n sgn).ty (.num 0) st'.data st.pos = ⟨.ok, .num body.length, st.pos + n⟩ := by
    have := (decode_round 1 ci hr.abi hr.env).1 st'.data (by omega) (SizeInt.int n sgn).ty (.num body.length) _ hgood
      (by
        rw [hf]
        simp only [SizeInt.ty, wire, wireNum]
        rw [if_pos (by rw [Nat.pow_mul] at hL; exact hL)])
      (by simp [SizeInt.ty, Loadable]) (by simp [SizeInt.ty, Ty.isRef, depth]) (.num 0) st.pos _ hple hdrop
    rw [this, digits_length]
  have hg0 : Good ci (.msg (some .none) ok maps nums fs) = true := by
    have := hr.types (.msg (some (.fixed n)) ok maps nums fs, .list vs) (List.mem_singleton.mpr rfl)
    simp only [Good, nodeOk, Bool.and_eq_true] at this ⊢
    exact ⟨⟨⟨this.1.1.1, rfl⟩, this.1.2⟩, this.2⟩
  have hld := hr.load (.msg (some (.fixed n)) ok maps nums fs, .list vs) (List.mem_singleton.mpr rfl)
  simp only [Loadable] at hld
  have hd1' := hd' (_, .list vs) (List.mem_singleton.mpr rfl)
  rw [decSized_msg hr.abi hr.env hS hg0 (by rw [hf]; exact hw) hld.2 (by simp only at hd1'; omega) hn old (by omega)
    (by rw [h2]; simp [digits_length]; omega) hx
    (by
      rw [← List.drop_drop, hdrop]
      have := List.drop_left (l₁ := digits (fmtOf co).order n body.length) (l₂ := body ++
        (st.data.drop (st.pos + (digits (fmtOf co).order n body.length ++ body).length) ++ List.replicate k 0))
      rwa [digits_length] at this)]
  rw [h1]
  simp [digits_length]
  omega

/-- C103, round trip with varints as sizes, partial: zigzag varints are left out where they take more bytes than the plain varint
of the same number, see `C103_zigzag_refuted`. -/
theorem C103_round_trip_partial (d d' : Nat) (co ci : Cfg) (noFit : Bool) (n : Nat) (sgn zz : Bool) (t : Ty) (vs : List Val) (old : Val)
    (st st' : OutSt) (body q : List UInt8) (hf : fmtOf ci = fmtOf co) (ht : isMessage t = true) (hS : SizeIntOk (.var n sgn zz))
    (hpos : st.pos ≤ st.data.length) (hlen : st.data.length < 2 ^ 63)
    (hs : Supported co [(withSize .none t, .list vs)]) (hd : StackOk (d + 1) [(t, .list vs)]) (hb : BitsOk [(t, .list vs)] st)
    (hw : wire (fmtOf co) (withSize .none t) (.list vs) = some body) (hl : body.length < 2 ^ 62)
    (hn : SizeHolds (.var n sgn zz) body.length)
    (hq : wire (fmtOf co) (SizeInt.var n sgn zz).ty (.num body.length) = some q)
    (hplain : zz = false ∨ q.length = (leb body.length).length)
    (hok : outSized (d + 1) co noFit (.var n sgn zz) t (.list vs) st = (.ok, st')) (hlen' : st'.data.length < 2 ^ 64)
    (hr : Readable ci [(withSize .varint t, .list vs)]) (hd' : StackOk (d' + 1) [(t, .list vs)]) :
    decSized (d' + 1) ci (.var n sgn zz) t old st'.data st.pos = ⟨.ok, .list vs, st'.pos⟩ := by
  obtain ⟨h0, h1, k, h2⟩ := C103_varint d co noFit n sgn zz t vs st st' body q ht hS hpos hlen hs hd hb hw hl hn hq hplain hok
  have hple : st.pos ≤ st'.data.length := by rw [h2]; simp; omega
  have hdrop : st'.data.drop st.pos = q ++ (body ++ (st.data.drop st'.pos ++ List.replicate k 0)) := by
    rw [h2, List.append_assoc, List.append_assoc, List.drop_append_of_le_length (by simp; omega),
      List.drop_eq_nil_of_le (by simp; omega)]
    simp
  cases t <;> simp only [isMessage, Bool.false_eq_true] at ht
  case msg sz ok maps nums fs =>
  have hx := (decode_round 1 ci hr.abi hr.env).1 st'.data (by omega) (SizeInt.var n sgn zz).ty (.num body.length) q hS.1
      (by rw [hf]; exact hq)
      (by simp [SizeInt.ty, Loadable]) (by simp [SizeInt.ty, Ty.isRef, depth]) (.num 0) st.pos _ hple hdrop
  have hg0 : Good ci (.msg (some .none) ok maps nums fs) = true := by
    have := hr.types (.msg (some .varint) ok maps nums fs, .list vs) (List.mem_singleton.mpr rfl)
    simp only [Good, nodeOk, Bool.and_eq_true] at this ⊢
    exact ⟨⟨⟨this.1.1.1, rfl⟩, this.1.2⟩, this.2⟩
  have hld := hr.load (.msg (some .varint) ok maps nums fs, .list vs) (List.mem_singleton.mpr rfl)
  simp only [Loadable] at hld
  have hd1' := hd' (_, .list vs) (List.mem_singleton.mpr rfl)
  rw [decSized_msg hr.abi hr.env hS hg0 (by rw [hf]; exact hw) hld.2 (by simp only at hd1'; omega) hn old (by omega)
    (by rw [h2]; simp; omega) hx (by rw [← List.drop_drop, hdrop, List.drop_left])]
  rw [h1]
  simp
  omega

/-- C103, round trip with zigzag varints as sizes does not hold. A message of 64 bytes, a string of 62 characters, is written with
a `vsint64_t` as size without an error; what is in the buffer is the size, 128 and 1, the 1 in the place of the tag of the string,
and the call that reads it back succeeds with an empty string. With 63 bytes it comes back. -/
theorem C103_zigzag_refuted :
    let c := Checks.le Checks.grow (.fixed 4)
    let t := Checks.msg [.seq .vector none Checks.chr]
    let v (n : Nat) := Val.list [.list (List.replicate n (.num 65))]
    let S := SizeInt.var 8 true true
    let r := outSized 9 c false S t (v 62) ⟨[], 0⟩
    let r' := outSized 9 c false S t (v 61) ⟨[], 0⟩
    wire (fmtOf c) (withSize .none t) (v 62) = some ([10, 62] ++ List.replicate 62 65) ∧
    r = (.ok, ⟨[128, 1, 62] ++ List.replicate 62 65, 65⟩) ∧
    decSized 9 c S t (.list [.list []]) r.2.data 0 = ⟨.ok, .list [.list []], 65⟩ ∧
    decSized 9 c S t (.list [.list []]) r'.2.data 0 = ⟨.ok, v 61, 64⟩ := by
  decide +kernel

/-- The same messages with a two byte signed size, with varints of a short and with a zigzag varint: size and message. One of 128
bytes is refused where the size is a varint of a single byte type. A negative size stands for all that follows. -/
example :
    let c := Checks.le Checks.grow (.fixed 4)
    let t := Checks.msg [.seq .vector none Checks.chr]
    let v (n : Nat) := Val.list [.list (List.replicate n (.num 65))]
    outSized 9 c false (.int 2 true) t (v 2) ⟨[9], 1⟩ = (.ok, ⟨[9, 4, 0, 10, 2, 65, 65], 7⟩) ∧
    decSized 9 c (.int 2 true) t (.list [.list []]) [9, 4, 0, 10, 2, 65, 65] 1 = ⟨.ok, v 2, 7⟩ ∧
    outSized 9 c false (.var 2 true false) t (v 2) ⟨[9], 1⟩ = (.ok, ⟨[9, 4, 10, 2, 65, 65], 6⟩) ∧
    outSized 9 c false (.var 4 true true) t (v 2) ⟨[9], 1⟩ = (.ok, ⟨[9, 8, 10, 2, 65, 65], 6⟩) ∧
    decSized 9 c (.var 4 true true) t (.list [.list []]) [9, 8, 10, 2, 65, 65] 1 = ⟨.ok, v 2, 6⟩ ∧
    (outSized 9 c false (.var 1 false false) t (v 126) ⟨[], 0⟩).1 = .err .resultOutOfRange ∧
    (outSized 9 c false (.var 2 false false) t (v 126) ⟨[], 0⟩).2.data.take 4 = [128, 1, 10, 126] ∧
    decode 1 c (SizeInt.int 2 true).ty (.num 0) [255, 255, 10, 2, 65, 65] 0 = ⟨.ok, .num 65535, 2⟩ ∧
    sizeNumber (.int 2 true) 65535 = -1 ∧
    decSized 9 c (.int 2 true) t (.list [.list []]) [255, 255, 10, 2, 65, 65] 0 = ⟨.ok, v 2, 6⟩ := by
  refine ⟨by decide +kernel, by decide +kernel, by decide +kernel, by decide +kernel, by decide +kernel, by decide +kernel,
    by decide +kernel, by decide +kernel, by decide, by decide +kernel⟩

/-- The hypotheses of the theorems above hold for a message, with a signed integer and with varints as size. -/
example :
    let c := Checks.le Checks.grow (.fixed 4)
    let t := Checks.msg [.seq .vector none Checks.chr]
    let vs := [Val.list [.num 65, .num 65]]
    isMessage t = true ∧ SizeIntOk (.var 4 true true) ∧
    Supported c [(withSize .none t, .list vs)] ∧ Supported c [(withSize (.fixed 2) t, .list vs)] ∧
    StackOk 9 [(t, .list vs)] ∧ BitsOk [(t, .list vs)] ⟨[9], 1⟩ ∧
    wire (fmtOf c) (withSize .none t) (.list vs) = some [10, 2, 65, 65] ∧
    SizeHolds (.var 4 true true) 4 ∧ SizeHolds (.int 2 true) 4 ∧
    wire (fmtOf c) (SizeInt.var 4 true true).ty (.num 4) = some [8] ∧ (leb 4).length = 1 ∧
    Readable c [(withSize (.fixed 2) t, .list vs)] ∧ Readable c [(withSize .varint t, .list vs)] := by
  have h : ∀ sz, sz ≠ SizeTy.none → Loadable (Checks.le Checks.grow (.fixed 4)) (withSize sz (Checks.msg [.seq .vector none Checks.chr]))
      (.list [.list [.num 65, .num 65]]) := by
    intro sz hsz
    simp only [withSize, Checks.msg, Loadable, Option.getD_some]
    refine ⟨hsz, ?_⟩
    simp only [LoadablePb, LoadablePbField, PackedFits, isPacked, Checks.le, Checks.grow, Checks.chr, insideMsg]
    refine ⟨?_, trivial⟩
    intro body hb
    have : body = [65, 65] := Option.some.inj (hb.symm.trans (by decide +kernel))
    subst this
    simp [packedElem]
  refine ⟨rfl, ⟨rfl, fun _ => rfl⟩, ⟨grow_ok, so_abi, fun _ => ⟨rfl, rfl⟩, ?_⟩, ⟨grow_ok, so_abi, fun _ => ⟨rfl, rfl⟩, ?_⟩, ?_, Or.inl ?_,
    by decide +kernel, by simp [SizeHolds, SizeInt.signed, SizeInt.width], by simp [SizeHolds, SizeInt.signed, SizeInt.width],
    by decide +kernel, by decide +kernel, ⟨so_abi, fun _ => ⟨rfl, rfl⟩, ?_, ?_⟩, ⟨so_abi, fun _ => ⟨rfl, rfl⟩, ?_, ?_⟩⟩ <;>
    intro x hx <;> simp only [List.mem_singleton] at hx <;> subst hx <;>
    first | rfl | decide | exact h _ (by simp)

end Zpp.Props
