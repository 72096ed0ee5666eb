import Verif.Proof.SizeTypes
import Verif.Props.RoundTrip
import Verif.Proof.InLimit
import Verif.Proof.Relay
/-! # C102: size prefixes of any integer type -/

namespace Zpp.Props
open Zpp.Spec

/-- C102, writing. `out(sized<SizeType>(container))` is `out(size, unsized(container))` where `size` is an object of the size type
holding the low bytes of the number of elements: same bytes, same failures, same buffer. -/
theorem C102_write (d : Nat) (c : Cfg) (noFit : Bool) (S : SizeInt) (t : Ty) (vs : List Val) (ht : isContainer t = true) :
    outSized (d + 1) c noFit S t (.list vs) =
      outCall (d + 1) c noFit [(S.ty, .num (vs.length % 2 ^ (8 * S.width))), (withSize .none t, .list vs)] := by
  unfold outSized outCall
  rw [encSized_items ht]

/-- C102, reading. When the prefix reads as a number, everything that follows is as if an eight byte prefix with that number,
converted to `std::size_t`, stood in front of the rest of the input: same outcome, same object, as many bytes used behind the
prefix. -/
theorem C102_read (d : Nat) (c : Cfg) (S : SizeInt) (t : Ty) (old : Val) (data : List UInt8) (p x p1 : Nat)
    (hS : SizeIntOk S) (ht : isContainer t = true) (hp : p ≤ data.length)
    (hx : decode 1 c S.ty (.num 0) data p = ⟨.ok, .num x, p1⟩) :
    ∃ q, decode (d + 1) c (withSize (.fixed 8) t) old
        (digits (fmtOf c).order 8 (toSize (sizeNumber S x)) ++ data.drop p1) 0 =
          ⟨(decSized (d + 1) c S t old data p).s, (decSized (d + 1) c S t old data p).v, 8 + q⟩ ∧
      (decSized (d + 1) c S t old data p).p = p1 + q := by
  rw [← count_eq hS (prefix_lt hS hp hx).1]
  exact decSized_eight hS ht hp hx

/-- C102, reading. When the prefix cannot be read the call fails like reading the integer alone, and the container is as before. -/
theorem C102_prefix_fails (d : Nat) (c : Cfg) (S : SizeInt) (t : Ty) (old : Val) (data : List UInt8) (p : Nat)
    (ht : isContainer t = true) (hx : (decode 1 c S.ty (.num 0) data p).s ≠ .ok) :
    decSized (d + 1) c S t old data p =
      ⟨(decode 1 c S.ty (.num 0) data p).s, old, (decode 1 c S.ty (.num 0) data p).p⟩ := by
  cases t <;> simp only [isContainer, Bool.false_eq_true] at ht <;> rw [decSized, prefix_any] <;>
    generalize decode 1 c S.ty (.num 0) data p = r at * <;> obtain ⟨s, v, q⟩ := r <;> cases s <;>
    first | exact absurd rfl hx | rfl

/-- C102, the size types the library names. For unsigned integers and `vsize_t` this is the `sized` of all the other theorems. -/
theorem C102_named (d : Nat) (c : Cfg) (noFit : Bool) (t : Ty) (v old : Val) (data : List UInt8) (p n : Nat)
    (ht : isContainer t = true) :
    outSized (d + 1) c noFit (.int n false) t v = outCall (d + 1) c noFit [(withSize (.fixed n) t, v)] ∧
    outSized (d + 1) c noFit (.var 8 false false) t v = outCall (d + 1) c noFit [(withSize .varint t, v)] ∧
    decSized (d + 1) c (.int n false) t old data p = decode (d + 1) c (withSize (.fixed n) t) old data p ∧
    decSized (d + 1) c (.var 8 false false) t old data p = decode (d + 1) c (withSize .varint t) old data p := by
  have hend : ∀ b : OutM, b.andThen OutM.skip = b := by
    intro b
    funext st
    unfold OutM.andThen OutM.skip
    generalize b st = r
    obtain ⟨s, st'⟩ := r
    cases s <;> rfl
  unfold outSized outCall
  simp only [encMany, hend]
  cases t <;> simp only [isContainer, Bool.false_eq_true] at ht
  case seq k sz t' =>
    refine ⟨?_, ?_, ?_, ?_⟩
    · cases v <;> simp only [encSized, withSize, encode, effSz, Option.getD_some, encHdr, SizeInt.ty, SizeInt.stored, SizeInt.width,
        Nat.pow_mul, Nat.reducePow]
    · cases v <;> simp only [encSized, withSize, encode, effSz, Option.getD_some, encHdr, SizeInt.ty, SizeInt.stored, SizeInt.width,
        encVarintVal, varintLoad, Bool.false_eq_true, if_false, Nat.reduceMul]
      rw [if_pos ⟨by omega, Nat.le_refl 8, Nat.mod_lt _ (Nat.two_pow_pos 64)⟩]
    · simp only [decSized, withSize, decode, effSz, Option.getD_some, decHdr, SizeInt.ty]
      generalize getBytes data p n = r
      obtain ⟨s, b, q⟩ := r
      cases s <;> rfl
    · simp only [decSized, withSize, decode, effSz, Option.getD_some, decHdr, SizeInt.ty]
      generalize getVarint 8 false (.num 0) data p = r
      obtain ⟨s, b, q⟩ := r
      cases s <;> try rfl
      cases b <;> rfl
  case assoc multi hashed sz key mapped =>
    refine ⟨?_, ?_, ?_, ?_⟩
    · cases v <;> simp only [encSized, withSize, encode, effSz, Option.getD_some, encHdr, SizeInt.ty, SizeInt.stored, SizeInt.width,
        Nat.pow_mul, Nat.reducePow]
      rfl
    · cases v <;> simp only [encSized, withSize, encode, effSz, Option.getD_some, encHdr, SizeInt.ty, SizeInt.stored, SizeInt.width,
        encVarintVal, varintLoad, Bool.false_eq_true, if_false, Nat.reduceMul]
      rw [if_pos ⟨by omega, Nat.le_refl 8, Nat.mod_lt _ (Nat.two_pow_pos 64)⟩]
      rfl
    · simp only [decSized, withSize, decode, effSz, Option.getD_some, decHdr, SizeInt.ty]
      generalize getBytes data p n = r
      obtain ⟨s, b, q⟩ := r
      cases s <;> rfl
    · simp only [decSized, withSize, decode, effSz, Option.getD_some, decHdr, SizeInt.ty]
      generalize getVarint 8 false (.num 0) data p = r
      obtain ⟨s, b, q⟩ := r
      cases s <;> try rfl
      cases b <;> rfl

/-- C102, round trip. A container whose number of elements is at most `std::numeric_limits<SizeType>::max()`, written with any
size type and read with the same from the position where it was written: the call succeeds, gives the container, whatever the
destination held, and stops where the writer stopped. -/
theorem C102_round_trip (d d' : Nat) (co ci : Cfg) (noFit : Bool) (S : SizeInt) (t : Ty) (vs : List Val) (old : Val)
    (st st' : OutSt) (bs : List UInt8) (hf : fmtOf ci = fmtOf co) (hS : SizeIntOk S) (ht : isContainer t = true)
    (hn : SizeHolds S vs.length)
    (hpos : st.pos ≤ st.data.length) (hlen : st.data.length < 2 ^ 63)
    (hs : Supported co [(t, .list vs)]) (hd : StackOk (d + 1) [(t, .list vs)]) (hb : BitsOk [(t, .list vs)] st)
    (hw : wire (fmtOf co) (withSize (.fixed 8) t) (.list vs) = some bs) (hl : bs.length < 2 ^ 62)
    (hok : outSized (d + 1) co noFit S t (.list vs) st = (.ok, st'))
    (hr : Readable ci [(withSize (.fixed 8) t, .list vs)]) (hd' : StackOk (d' + 1) [(t, .list vs)]) :
    decSized (d' + 1) ci S t old st'.data st.pos = ⟨.ok, .list vs, st'.pos⟩ := by
  obtain ⟨hst, hct⟩ := count_stored hS hn
  have hmod : vs.length % 2 ^ (8 * S.width) = vs.length := hst
  have hL : vs.length < 2 ^ (8 * S.width) := by rw [← hmod]; exact Nat.mod_lt _ (Nat.two_pow_pos _)
  obtain ⟨body, hbody, hbs⟩ : ∃ body, wire (fmtOf co) (withSize .none t) (.list vs) = some body ∧
      bs = digits (fmtOf co).order 8 vs.length ++ body := by
    cases t with
    | seq k sz t' =>
      simp only [withSize, wire, Option.getD_some, sizePrefix] at hw ⊢
      rw [cat_eq_some] at hw
      obtain ⟨a, b, h1, h2, rfl⟩ := hw
      split at h1 <;> cases h1
      exact ⟨b, by rw [h2]; rfl, rfl⟩
    | assoc multi hashed sz key mapped =>
      cases mapped <;> simp only [withSize, wire, Option.getD_some, sizePrefix] at hw ⊢ <;> rw [cat_eq_some] at hw <;>
        obtain ⟨a, b, h1, h2, rfl⟩ := hw <;> split at h1 <;> cases h1 <;> exact ⟨b, by rw [h2]; rfl, rfl⟩
    | _ => simp [isContainer] at ht
  obtain ⟨pre, hpre, hprel⟩ : ∃ pre, wire (fmtOf co) S.ty (.num vs.length) = some pre ∧ pre.length ≤ 10 := by
    cases S with
    | int n sgn =>
      simp only [SizeInt.width] at hL
      refine ⟨digits (fmtOf co).order n vs.length, ?_, ?_⟩
      · simp only [SizeInt.ty, wire, wireNum]
        rw [if_pos (by rw [Nat.pow_mul] at hL; exact hL)]
      · rw [digits_length]
        rcases sizeIntOk_width hS with h | h | h | h <;> simp only [SizeInt.width] at h <;> omega
    | var n sgn zz =>
      simp only [SizeInt.width] at hL
      exact ⟨leb (varintValue n zz vs.length), by simp only [SizeInt.ty, wire, wireNum]; rw [if_pos hL], leb_length_ten _⟩
  have hgood : ∀ c, Good c S.ty = true := by
    intro c
    cases S <;> simp only [SizeInt.ty, Good, nodeOk, scalarOk]
    · rcases sizeIntOk_width hS with h | h | h | h <;> simp only [SizeInt.width] at h <;> simp [h]
    · exact hS.1
  have hdep : depth (.list vs) = 1 + depthL vs := rfl
  have hd1 := hd (t, .list vs) (by simp)
  have hd1' := hd' (t, .list vs) (by simp)
  rw [C102_write d co noFit S t vs ht, hmod] at hok
  have hitems : wireItems (fmtOf co) [(S.ty, .num vs.length), (withSize .none t, .list vs)] = some (pre ++ body) := by
    simp [wireItems, hpre, hbody, cat]
  have hgt : ∀ sz, Good co (withSize sz t) = Good co t := by
    intro sz
    cases t <;> simp only [isContainer, Bool.false_eq_true] at ht <;> try rfl
    rename_i mapped
    cases mapped <;> rfl
  have hblen : body.length + 8 = bs.length := by rw [hbs]; simp [digits_length]; omega
  have hsup : Supported co [(S.ty, .num vs.length), (withSize .none t, .list vs)] := by
    refine ⟨hs.growth, hs.abi, hs.env, ?_⟩
    intro x hx
    simp only [List.mem_cons, List.not_mem_nil, or_false] at hx
    rcases hx with rfl | rfl
    · exact hgood co
    · rw [hgt]; exact hs.types (t, .list vs) (by simp)
  have hstack : StackOk (d + 1) [(S.ty, .num vs.length), (withSize .none t, .list vs)] := by
    intro x hx
    simp only [List.mem_cons, List.not_mem_nil, or_false] at hx
    rcases hx with rfl | rfl
    · show 2 * 1 ≤ d + 1
      simp only [hdep] at hd1; omega
    · exact hd1
  have hbits : BitsOk [(S.ty, .num vs.length), (withSize .none t, .list vs)] st := by
    rcases hb with hb | hb
    · refine Or.inl ?_
      intro x hx
      simp only [List.mem_cons, List.not_mem_nil, or_false] at hx
      rcases hx with rfl | rfl
      · rfl
      · exact hb (t, .list vs) (by simp)
    · exact Or.inr hb
  obtain ⟨h1, k, h2⟩ := C04_growing_appends (d + 1) co noFit _ st st' (pre ++ body) hpos hlen hsup hstack hbits hitems
    (by simp; omega) hok
  have hv := (outCall_safe (d + 1) co hs.growth noFit [(S.ty, .num vs.length), (withSize .none t, .list vs)] st
    ⟨hpos, hlen⟩).valid hs.growth ⟨hpos, hlen⟩
  rw [hok] at hv
  have hlt := hv.len_lt
  simp only at hlt
  have hple : st.pos ≤ st'.data.length := by rw [h2]; simp; omega
  have hdrop : st'.data.drop st.pos = pre ++ (body ++ (st.data.drop (st.pos + (pre ++ body).length) ++ List.replicate k 0)) := by
    rw [h2, List.append_assoc, List.append_assoc, List.drop_append_of_le_length (by simp; omega),
      List.drop_eq_nil_of_le (by simp; omega)]
    simp
  have hx : decode 1 ci S.ty (.num 0) st'.data st.pos = ⟨.ok, .num vs.length, st.pos + pre.length⟩ :=
    (decode_round 1 ci hr.abi hr.env).1 st'.data (by omega) S.ty (.num vs.length) pre (hgood ci) (by rw [hf]; exact hpre)
      (by cases S <;> simp [SizeInt.ty, Loadable]) (by cases S <;> simp [SizeInt.ty, Ty.isRef, depth]) (.num 0) st.pos _ hple hdrop
  obtain ⟨q, h3, h4⟩ := decSized_eight (d := d') (t := t) (old := old) hS ht hple hx
  rw [hct, ← List.drop_drop, hdrop, List.drop_left, ← List.append_assoc, hf, ← hbs] at h3
  have h5 := C10_read_encoding (d' + 1) ci [(withSize (.fixed 8) t, .list vs)] [(withSize (.fixed 8) t, old)] [] bs
    (st.data.drop (st.pos + (pre ++ body).length) ++ List.replicate k 0) (by
      have h6 : st'.data.length = st.pos + (st'.data.drop st.pos).length := by simp; omega
      rw [hdrop] at h6
      simp only [List.length_append, List.length_nil, Nat.zero_add] at h6 ⊢
      omega) (by simp [wireItems, hf, hw, cat]) hr (by
      intro x hx
      simp only [List.mem_singleton] at hx
      subst hx
      exact hd1') rfl
  simp only [decMany, List.nil_append, List.length_nil, h3] at h5
  generalize decSized (d' + 1) ci S t old st'.data st.pos = r at *
  obtain ⟨s, v, p⟩ := r
  cases s <;> simp only [List.map_cons, List.map_nil, ResL.mk.injEq, List.cons.injEq, and_true, true_and, reduceCtorEq, false_and] at h5
  obtain ⟨h6, h7⟩ := h5
  simp only at h4 h6
  rw [h1, h4, h6]
  simp
  omega

/-- C102, round trip fails. A sequence with more elements than the size type can say is written all the same, but what is read
back, if the call succeeds at all, is another sequence. -/
theorem C102_beyond (d : Nat) (c : Cfg) (S : SizeInt) (k : SeqKind) (sz : Option SizeTy) (t : Ty) (vs : List Val) (old : Val)
    (data : List UInt8) (p p1 : Nat) (hS : SizeIntOk S) (hn : ¬ SizeHolds S vs.length) (hv : vs.length < 2 ^ 63)
    (hx : decode 1 c S.ty (.num 0) data p = ⟨.ok, .num (vs.length % 2 ^ (8 * S.width)), p1⟩)
    (hok : (decSized (d + 1) c S (.seq k sz t) old data p).s = .ok) :
    (decSized (d + 1) c S (.seq k sz t) old data p).v ≠ .list vs := by
  have hne := count_beyond hS hn hv
  unfold SizeInt.stored at hne
  rw [decSized_seq hx] at hok ⊢
  generalize S.count (vs.length % 2 ^ (8 * S.width)) = N at *
  intro he
  refine hne ?_
  have hlen : ∀ l : List Val, Val.list l = .list vs → l.length = vs.length := by
    intro l h; cases h; rfl
  cases k
  case view =>
    simp only [seqFill] at hok he
    split at he
    · rename_i h; rw [if_pos h] at hok; cases hok
    · rename_i h
      rw [if_neg h] at hok
      split at he
      · have := hlen _ he
        simpa [unrepAll, chunks_length] using this
      · rename_i h'; rw [if_neg h'] at hok; cases hok
  case span =>
    simp only [seqFill] at hok he
    split at he
    · rename_i h; rw [if_pos h] at hok; cases hok
    · rename_i h
      obtain ⟨l, h1, h2, _⟩ := seqBody_val (c := c) (k := .span) (t := t) (rec := fun v p => decode d c t v data p)
        (olds := old.elems.take N) (data := data) (p := p1)
      rw [h1] at he
      have := hlen _ he
      rw [h2] at this
      simp at this
      omega
  all_goals
    simp only [seqFill] at hok he
    split at he
    · rename_i h; rw [if_pos h] at hok; cases hok
    · rename_i h
      rw [if_neg h] at hok
      split at he
      · rename_i h'; rw [if_pos h'] at hok; cases hok
      · obtain ⟨l, h1, h2, _⟩ := seqBody_val (c := c) (t := t) (rec := fun v p => decode d c t v data p)
          (olds := resizeVals old.elems N (dflt c d t)) (data := data) (p := p1)
        rw [h1] at he
        have := hlen _ he
        rw [h2] at this
        simpa using this

/-- C102, negative sizes. A prefix that holds a negative number makes a resizable sequence container fail, with `message_size`
under an allocation limit and by the container's exception without one; the container is as before. -/
theorem C102_negative (d : Nat) (c : Cfg) (S : SizeInt) (k : SeqKind) (sz : Option SizeTy) (t : Ty) (old : Val)
    (data : List UInt8) (p x p1 : Nat) (hS : SizeIntOk S) (hp : p ≤ data.length) (hk : k = .vector ∨ k = .list)
    (ha : AbiOk c.sizeof) (hm : c.g.maxMem < 2 ^ 63) (hlim : c.g.limit = sizeMax ∨ c.g.limit < 2 ^ 63)
    (hx : decode 1 c S.ty (.num 0) data p = ⟨.ok, .num x, p1⟩) (hneg : sizeNumber S x < 0) :
    decSized (d + 1) c S (.seq k sz t) old data p =
      ⟨if c.g.limit = sizeMax then .badAlloc else .err .messageSize, old, p1⟩ := by
  obtain ⟨hxl, _⟩ := prefix_lt hS hp hx
  rw [decSized_seq hx]
  have hN : 2 ^ 63 ≤ S.count x := by
    rw [count_eq hS hxl]
    unfold toSize
    have : -(2 ^ 63 : Int) ≤ sizeNumber S x := by
      unfold sizeNumber
      rcases sizeIntOk_width hS with e | e | e | e <;> rw [e] <;> simp only [Nat.reduceMul, Nat.reducePow, Int.reducePow] <;>
        split <;> omega
    omega
  generalize S.count x = N at *
  have h1 := ha.pos t
  have hbig : c.g.maxMem < N * c.sizeof t := by
    have := Nat.le_mul_of_pos_right N h1
    omega
  have hdiv : c.g.limit ≠ sizeMax → c.g.limit / c.sizeof t < N := by
    intro h
    have := Nat.div_le_self c.g.limit (c.sizeof t)
    have := hlim.resolve_left h
    omega
  rcases hk with rfl | rfl <;> simp only [seqFill] <;> by_cases h : c.g.limit = sizeMax <;> simp [h, hbig] <;>
    exact hdiv h

/-- A string written with a two byte signed size, with a zigzag varint as size, and with a big endian eight byte signed one; a map
with a varint of a short. All come back. -/
example :
    let c := Checks.le Checks.grow (.fixed 4)
    let str := Ty.seq .vector none Checks.chr
    let map := Ty.assoc false false none (.scalar .int 1) (some (.scalar .int 2))
    outSized 9 c false (.int 2 true) str (Checks.strV [65, 66, 67]) ⟨[9], 1⟩ = (.ok, ⟨[9, 3, 0, 65, 66, 67], 6⟩) ∧
    decSized 9 c (.int 2 true) str (.list []) [9, 3, 0, 65, 66, 67] 1 = ⟨.ok, Checks.strV [65, 66, 67], 6⟩ ∧
    outSized 9 c false (.var 4 true true) str (Checks.strV [65, 66, 67]) ⟨[9], 1⟩ = (.ok, ⟨[9, 6, 65, 66, 67], 5⟩) ∧
    decSized 9 c (.var 4 true true) str (.list []) [9, 6, 65, 66, 67] 1 = ⟨.ok, Checks.strV [65, 66, 67], 5⟩ ∧
    outSized 9 { c with aware := true } false (.int 8 true) str (Checks.strV [65]) ⟨[], 0⟩ = (.ok, ⟨[0, 0, 0, 0, 0, 0, 0, 1, 65], 9⟩) ∧
    outSized 9 c false (.var 2 true false) map (.list [.list [.num 1, .num 2]]) ⟨[], 0⟩ = (.ok, ⟨[1, 1, 2, 0], 4⟩) ∧
    decSized 9 c (.var 2 true false) map (.list []) [1, 1, 2, 0] 0 = ⟨.ok, .list [.list [.num 1, .num 2]], 4⟩ ∧
    SizeIntOk (.int 2 true) ∧ SizeIntOk (.var 4 true true) ∧ SizeHolds (.int 2 true) 3 ∧ isContainer str = true := by
  refine ⟨by decide +kernel, by decide +kernel, by decide +kernel, by decide +kernel, by decide +kernel, by decide +kernel,
    by decide +kernel, rfl, ⟨rfl, fun _ => rfl⟩, by simp [SizeHolds, SizeInt.signed, SizeInt.width], rfl⟩

/-- The hypotheses of `C102_round_trip` hold for the string. -/
example :
    let c := Checks.le Checks.grow (.fixed 4)
    let str := Ty.seq .vector none Checks.chr
    Supported c [(str, Checks.strV [65, 66, 67])] ∧ StackOk 9 [(str, Checks.strV [65, 66, 67])] ∧
    BitsOk [(str, Checks.strV [65, 66, 67])] ⟨[9], 1⟩ ∧
    wire (fmtOf c) (withSize (.fixed 8) str) (Checks.strV [65, 66, 67]) = some [3, 0, 0, 0, 0, 0, 0, 0, 65, 66, 67] ∧
    Readable c [(withSize (.fixed 8) str, Checks.strV [65, 66, 67])] := by
  refine ⟨⟨grow_ok, so_abi, fun _ => ⟨rfl, rfl⟩, ?_⟩, ?_, Or.inl ?_, by decide +kernel, ⟨so_abi, fun _ => ⟨rfl, rfl⟩, ?_, ?_⟩⟩
  · intro x hx; simp only [List.mem_singleton] at hx; subst hx; rfl
  · intro x hx; simp only [List.mem_singleton] at hx; subst hx; decide
  · intro x hx; simp only [List.mem_singleton] at hx; subst hx; rfl
  · intro x hx; simp only [List.mem_singleton] at hx; subst hx; rfl
  · intro x hx
    simp only [List.mem_singleton] at hx; subst hx
    simp [withSize, Checks.strV, Loadable, LoadableL, Fits, Checks.le, Checks.grow, Checks.so, Checks.chr]

/-- 130 characters with an `int8_t` as size are written with the size -126; reading ends with an allocation failure, or
`message_size` under a limit. 258 characters are written with the size 2, and read back as two. -/
example :
    let c := Checks.le Checks.grow (.fixed 4)
    let str := Ty.seq .vector none Checks.chr
    let data := (outSized 9 c false (.int 1 true) str (.list (List.replicate 130 (.num 65))) ⟨[], 0⟩).2.data
    ¬ SizeHolds (.int 1 true) 130 ∧ data.take 3 = [130, 65, 65] ∧ sizeNumber (.int 1 true) 130 = -126 ∧
    decode 1 c (SizeInt.int 1 true).ty (.num 0) data 0 = ⟨.ok, .num 130, 1⟩ ∧
    decSized 9 c (.int 1 true) str (.list []) data 0 = ⟨.badAlloc, .list [], 1⟩ ∧
    decSized 9 { c with g := { c.g with limit := 1000 } } (.int 1 true) str (.list []) data 0 = ⟨.err .messageSize, .list [], 1⟩ ∧
    c.g.maxMem < 2 ^ 63 ∧ c.g.limit = sizeMax ∧
    decSized 9 c (.int 1 true) str (.list [])
      (outSized 9 c false (.int 1 true) str (.list (List.replicate 258 (.num 65))) ⟨[], 0⟩).2.data 0 =
        ⟨.ok, .list [.num 65, .num 65], 3⟩ := by
  refine ⟨by simp [SizeHolds, SizeInt.signed, SizeInt.width], by decide +kernel, by decide, by decide +kernel, by decide +kernel, by decide +kernel, by decide +kernel,
    by decide +kernel, by decide +kernel⟩

end Zpp.Props
