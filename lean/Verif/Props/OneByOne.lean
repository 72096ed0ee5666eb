import Verif.Spec.OneByOne
import Verif.Props.RoundTrip
import Verif.Proof.InBytes
/-!
# Containers written and read one element at a time
-/

namespace Zpp.Props
open Zpp Zpp.Spec

theorem wireItems_each (f : Fmt) (t : Ty) (vs : List Val) :
    wireItems f (vs.map fun v => [(t, v)]).flatten = wireAll f t vs := by
  induction vs with
  | nil => simp [wireItems, wireAll]
  | cons v vs ih => simpa [wireItems, wireAll] using congrArg (cat (wire f t v)) ih

theorem wire_countTy (f : Fmt) (sz : SizeTy) (n : Nat) (h : sz ≠ .none) :
    wire f (countTy sz) (.num n) = sizePrefix f sz n := by
  cases sz with
  | fixed k => simp [countTy, wire, wireNum, sizePrefix]
  | varint => simp only [countTy, wire, wireNum, sizePrefix, varintValue]; rfl
  | none => exact absurd rfl h

theorem wireItems_oneByOne (f : Fmt) (sz : SizeTy) (t : Ty) (vs : List Val) :
    wireItems f (oneByOne sz t vs).flatten = cat (sizePrefix f sz vs.length) (wireAll f t vs) := by
  unfold oneByOne
  by_cases h : sz = .none
  · subst h
    have := wireItems_each f t vs
    simp only [if_true, List.nil_append, this, sizePrefix]
    cases wireAll f t vs <;> rfl
  · rw [if_neg h, List.flatten_append, ← wireItems_each f t vs, ← wire_countTy f sz _ h]
    rfl

theorem wire_streamedAs {f : Fmt} {ct t : Ty} {sz : Option SizeTy} {vs : List Val} (h : streamedAs ct = some (sz, t)) :
    wire f ct (.list vs) = cat (sizePrefix f (sz.getD f.dsz) vs.length) (wireAll f t vs) := by
  unfold streamedAs at h
  split at h <;> simp at h <;> obtain ⟨rfl, rfl⟩ := h <;> simp [wire]

/-- C128, writing. The number of elements and then the elements, written by one call each, are the bytes of the container written by
one call, for every sequence, set and map, with a size of any type or without. Two programs that do the one and the other
from the same state leave the same bytes up to the same position, and a third that reads there gets the container. -/
theorem C128_write (d d' : Nat) (co ci : Cfg) (noFit : Bool) (ct t : Ty) (sz : Option SizeTy) (vs : List Val) (old : Val)
    (st a b : OutSt) (bs : List UInt8) (he : streamedAs ct = some (sz, t)) (hf : fmtOf ci = fmtOf co)
    (hpos : st.pos ≤ st.data.length) (hlen : st.data.length < 2 ^ 63)
    (hs : Supported co ((ct, .list vs) :: (oneByOne (sz.getD co.dsz) t vs).flatten))
    (hd : StackOk d ((ct, .list vs) :: (oneByOne (sz.getD co.dsz) t vs).flatten))
    (hb : BitsOk ((ct, .list vs) :: (oneByOne (sz.getD co.dsz) t vs).flatten) st)
    (hw : wire (fmtOf co) ct (.list vs) = some bs) (hl : bs.length < 2 ^ 63)
    (ha : outCalls d co noFit (oneByOne (sz.getD co.dsz) t vs) st = (.ok, a))
    (hB : outCalls d co noFit [[(ct, .list vs)]] st = (.ok, b)) :
    a.pos = st.pos + bs.length ∧ (a.data.take a.pos).drop st.pos = bs ∧
    b.pos = a.pos ∧ b.data.take b.pos = a.data.take a.pos ∧
    (Readable ci [(ct, .list vs)] → StackOk d' [(ct, .list vs)] →
      decMany d' ci a.data [(ct, old)] st.pos = ⟨.ok, [.list vs], a.pos⟩) := by
  have hw1 : wireItems (fmtOf co) (oneByOne (sz.getD co.dsz) t vs).flatten = some bs := by
    rw [wireItems_oneByOne, ← hw, wire_streamedAs he]; rfl
  have hw2 : wireItems (fmtOf co) [[(ct, Val.list vs)]].flatten = some bs := by
    simp [wireItems, hw, cat]
  have hb1 : BitsOk (oneByOne (sz.getD co.dsz) t vs).flatten st :=
    hb.imp (fun h x hx => h x (List.mem_cons_of_mem _ hx)) id
  have hb2 : BitsOk [[(ct, Val.list vs)]].flatten st :=
    hb.imp (fun h x hx => h x (by simp at hx; simp [hx])) id
  obtain ⟨h1, h2, k, h3⟩ := outCalls_appends _ hpos hlen
    ⟨hs.growth, hs.abi, hs.env, fun x hx => hs.types x (List.mem_cons_of_mem _ hx)⟩
    (fun x hx => hd x (List.mem_cons_of_mem _ hx)) hb1 hw1 hl ha
  obtain ⟨h4, h5, k', h6⟩ := outCalls_appends _ hpos hlen
    ⟨hs.growth, hs.abi, hs.env, fun x hx => hs.types x (by simp at hx; simp [hx])⟩
    (fun x hx => hd x (by simp at hx; simp [hx])) hb2 hw2 hl hB
  have e1 : a.data.take a.pos = st.data.take st.pos ++ bs := by
    rw [h3, h1]; simp only [List.append_assoc]
    rw [← List.append_assoc, List.take_left' (by simp; omega)]
  have e2 : b.data.take b.pos = st.data.take st.pos ++ bs := by
    rw [h6, h4]; simp only [List.append_assoc]
    rw [← List.append_assoc, List.take_left' (by simp; omega)]
  have hst : (st.data.take st.pos).length = st.pos := by simp; omega
  refine ⟨h1, ?_, by omega, by rw [e1, e2], ?_⟩
  · rw [e1, List.drop_left' hst]
  · intro hr hd'
    have e : a.data = st.data.take st.pos ++ bs ++ a.data.drop a.pos := by
      rw [← e1, List.take_append_drop]
    have := C10_read_encoding d' ci [(ct, .list vs)] [(ct, old)] (st.data.take st.pos) bs (a.data.drop a.pos)
      (by rw [← e]; omega) (by rw [hf]; simpa using hw2) hr hd' rfl
    rw [← e, hst] at this
    rw [this, h1]; rfl

/-- A map from numbers to strings with a size of one byte, written as a map and as a number and two pairs, and read as a map. -/
example :
    let c := Checks.le Checks.grow (.fixed 1)
    let ct := Ty.assoc false false none (.scalar .int 1) (some Checks.str)
    let vs : List Val := [.list [.num 1, Checks.strV [65, 66]], .list [.num 2, Checks.strV []]]
    streamedAs ct = some (none, .struct false [.scalar .int 1, Checks.str]) ∧
    wire (fmtOf c) ct (.list vs) = some [2, 1, 2, 65, 66, 2, 0] ∧
    outCalls 9 c false (oneByOne (.fixed 1) (.struct false [.scalar .int 1, Checks.str]) vs) ⟨[], 0⟩ =
      (.ok, ⟨[2, 1, 2, 65, 66, 2, 0], 7⟩) ∧
    outCalls 9 c false [[(ct, .list vs)]] ⟨[], 0⟩ = (.ok, ⟨[2, 1, 2, 65, 66, 2, 0], 7⟩) :=
  ⟨rfl, by decide +kernel, by decide +kernel, by decide +kernel⟩

/-- The static hypotheses hold there, for writing and for reading. -/
example :
    let c := Checks.le Checks.grow (.fixed 1)
    let ct := Ty.assoc false false none (.scalar .int 1) (some Checks.str)
    let vs : List Val := [.list [.num 1, Checks.strV [65, 66]], .list [.num 2, Checks.strV []]]
    let items := (ct, Val.list vs) :: (oneByOne (.fixed 1) (.struct false [.scalar .int 1, Checks.str]) vs).flatten
    Supported c items ∧ StackOk 9 items ∧ BitsOk items ⟨[], 0⟩ := by
  refine ⟨⟨grow_ok, so_abi, fun _ => ⟨rfl, rfl⟩, by decide +kernel⟩, by unfold StackOk; decide +kernel, .inl (by decide +kernel)⟩

theorem readEach_encoding {d : Nat} {c : Cfg} {data : List UInt8} {t : Ty} (hl : data.length < 2 ^ 64) (habi : AbiOk c.sizeof)
    (henv : EnvGood c) (hg : Good c t = true) : ∀ (vs : List Val) (old : Val) (pre bs rest : List UInt8),
    data = pre ++ bs ++ rest → wireAll (fmtOf c) t vs = some bs → (∀ v ∈ vs, Loadable c t v) → (∀ v ∈ vs, 2 * depth v ≤ d) →
    readEach d c data t vs.length old pre.length = ⟨.ok, vs, pre.length + bs.length⟩
  | [], old, pre, bs, rest, _, hw, _, _ => by
    simp [wireAll] at hw
    subst hw; rfl
  | v :: vs, old, pre, bs, rest, hdat, hw, hv, hd => by
    rw [wireAll] at hw
    cases h1 : wire (fmtOf c) t v with
    | none => simp [h1, cat] at hw
    | some b1 =>
      cases h2 : wireAll (fmtOf c) t vs with
      | none => simp [h1, h2, cat] at hw
      | some b2 =>
        simp [h1, h2, cat] at hw
        subst hw
        have r := C10_read_encoding d c [(t, v)] [(t, old)] pre b1 (b2 ++ rest)
          (by rw [hdat] at hl; simpa using hl) (by simp [wireItems, h1, cat])
          ⟨habi, henv, by simpa using hg, by simpa using hv v (by simp)⟩ (by intro x hx; simp at hx; subst hx; exact hd v (by simp)) rfl
        have e : pre ++ b1 ++ (b2 ++ rest) = data := by rw [hdat]; simp
        rw [e] at r
        have ih := readEach_encoding hl habi henv hg vs v (pre ++ b1) b2 rest (by rw [hdat]; simp) h2
          (fun w hw => hv w (List.mem_cons_of_mem _ hw)) (fun w hw => hd w (List.mem_cons_of_mem _ hw))
        simp only [List.length_append] at ih
        simp only [List.length_cons, readEach, r, List.map, ih, List.length_append, Nat.add_assoc]

/-- C128, reading. The bytes of a container, wherever they are in the input: the number of elements read as an object of
its own, and then as many elements, one call each and always into the same object, give the elements in order and end where the container
ends, whatever the object held before. -/
theorem C128_read (d : Nat) (c : Cfg) (ct t : Ty) (sz : Option SizeTy) (vs : List Val) (old : Val) (pre bs rest : List UInt8)
    (he : streamedAs ct = some (sz, t)) (hsz : sz.getD c.dsz ≠ .none) (hl : (pre ++ bs ++ rest).length < 2 ^ 64)
    (hw : wire (fmtOf c) ct (.list vs) = some bs) (hg : Good c t = true)
    (hr : Readable c (oneByOne (sz.getD c.dsz) t vs).flatten) (hd : StackOk d (oneByOne (sz.getD c.dsz) t vs).flatten) :
    readCounted d c (pre ++ bs ++ rest) (sz.getD c.dsz) t old pre.length = ⟨.ok, vs, pre.length + bs.length⟩ := by
  have hdsz : (fmtOf c).dsz = c.dsz := rfl
  rw [wire_streamedAs he, hdsz, ← wire_countTy _ _ _ hsz] at hw
  have hm : (countTy (sz.getD c.dsz), Val.num vs.length) ∈ (oneByOne (sz.getD c.dsz) t vs).flatten := by simp [oneByOne, hsz]
  have hm' : ∀ v ∈ vs, (t, v) ∈ (oneByOne (sz.getD c.dsz) t vs).flatten := by
    intro v hv; simp [oneByOne, hsz]; exact .inr hv
  cases h1 : wire (fmtOf c) (countTy (sz.getD c.dsz)) (.num vs.length) with
  | none => simp [h1, cat] at hw
  | some b1 =>
    cases h2 : wireAll (fmtOf c) t vs with
    | none => simp [h1, h2, cat] at hw
    | some b2 =>
      simp [h1, h2, cat] at hw
      subst hw
      have r := C10_read_encoding d c [(countTy (sz.getD c.dsz), .num vs.length)] [(countTy (sz.getD c.dsz), .num 0)] pre b1 (b2 ++ rest)
        (by simpa using hl) (by simp [wireItems, h1, cat])
        ⟨hr.abi, hr.env, fun x hx => by simp at hx; subst hx; exact hr.types _ hm,
          fun x hx => by simp at hx; subst hx; exact hr.load _ hm⟩
        (by intro x hx; simp at hx; subst hx; exact hd _ hm) rfl
      have e : pre ++ b1 ++ (b2 ++ rest) = pre ++ (b1 ++ b2) ++ rest := by simp
      rw [e] at r
      have ih := readEach_encoding (d := d) hl hr.abi hr.env hg vs old (pre ++ b1) b2 rest (by simp) h2
        (fun v hv => hr.load _ (hm' v hv)) (fun v hv => hd _ (hm' v hv))
      simp only [List.length_append] at ih
      simp only [readCounted, r, List.map, ih, List.length_append, Nat.add_assoc]

/-- Three numbers of two bytes after a varint size, read into an object that holds 9, with a byte before and one after. -/
example :
    let c := Checks.le Checks.grow .varint
    let vs : List Val := [.num 1, .num 258, .num 3]
    wire (fmtOf c) (.seq .vector none (.scalar .int 2)) (.list vs) = some [3, 1, 0, 2, 1, 3, 0] ∧
    Readable c (oneByOne .varint (.scalar .int 2) vs).flatten ∧ StackOk 2 (oneByOne .varint (.scalar .int 2) vs).flatten ∧
    readCounted 2 c [7, 3, 1, 0, 2, 1, 3, 0, 7] .varint (.scalar .int 2) (.num 9) 1 = ⟨.ok, vs, 8⟩ ∧
    readCounted 2 c [7, 3, 1, 0, 2, 1, 3] .varint (.scalar .int 2) (.num 9) 1 = ⟨.err .resultOutOfRange, [.num 1, .num 258], 6⟩ :=
  ⟨by decide +kernel, ⟨so_abi, fun _ => ⟨rfl, rfl⟩, by decide +kernel, by
    intro x hx; simp [oneByOne, countTy] at hx
    rcases hx with rfl | rfl | rfl | rfl <;> exact trivial⟩, by unfold StackOk; decide +kernel, by decide +kernel, by decide +kernel⟩

theorem readEach_all {d : Nat} {c : Cfg} {data : List UInt8} {t : Ty}
    (h : ∀ v v' p, Same (decode d c t v data p) (decode d c t v' data p)) : ∀ (olds : List Val) (o : Val) (p : Nat),
    SameL (readEach d c data t olds.length o p) (decAll (fun v p => decode d c t v data p) olds p)
  | [], _, _ => .rfl' _
  | x :: xs, o, p => by
    have h1 := h o x p
    simp only [List.length_cons, readEach, decMany, decAll]
    generalize decode d c t o data p = r at *
    generalize decode d c t x data p = r' at *
    obtain ⟨s, w, q⟩ := r
    obtain ⟨s', w', q'⟩ := r'
    obtain ⟨hs, hp, hv⟩ := h1
    dsimp only at hs hp hv
    subst hs hp
    cases s
    · have h3 := hv rfl
      subst h3
      have h2 := readEach_all h xs w q
      exact ⟨h2.s, h2.p, fun e => by simp only [List.cons.injEq, true_and]; exact h2.v e⟩
    all_goals exact ⟨rfl, rfl, by simp⟩

theorem readCounted_hdr {d : Nat} {c : Cfg} {data : List UInt8} {s : SizeTy} {t : Ty} {o : Val} {p : Nat} (hs : s ≠ .none) :
    readCounted (d + 1) c data s t o p =
      match decHdr c s data p with
      | (.ok, n, p1) => readEach (d + 1) c data t n o p1
      | (s', _, p1) => ⟨s', [], p1⟩ := by
  cases s with
  | fixed k =>
    simp only [readCounted, countTy, decMany, decode, decHdr]
    rcases getBytes data p k with ⟨s, bs, q⟩
    cases s <;> rfl
  | varint =>
    simp only [readCounted, countTy, decMany, decode, decHdr]
    have hn : ∀ v q, getVarint 8 false (.num 0) data p = ⟨.ok, v, q⟩ → ∃ x, v = .num x := by
      intro v q h
      unfold getVarint at h
      split at h
      · cases h
      · split at h <;> cases h
        exact ⟨_, rfl⟩
    generalize getVarint 8 false (.num 0) data p = r at *
    obtain ⟨s, v, q⟩ := r
    cases s
    · obtain ⟨x, rfl⟩ := hn v q rfl
      rfl
    all_goals rfl
  | none => exact absurd rfl hs

/-- C128, any input. Valid or not, the input read as a list (or any container read element by element) and read as a number and
elements gives the same outcome at the same position, and the same elements if successful, unless the container is refused for
its size: only the container has to fit into memory and the allocation limit. The elements are of a type whose reading does not
depend on the object read into (no protobuf message). -/
theorem C128_any_input (d : Nat) (c : Cfg) (sz : Option SizeTy) (t : Ty) (old o : Val) (data : List UInt8) (p : Nat)
    (habi : AbiOk c.sizeof) (henv : ∀ i, oldFree c.dsz (c.env i) = true) (ht : oldFree c.dsz t = true)
    (hsz : sz.getD c.dsz ≠ .none)
    (h1 : (decMany (d + 2) c data [(.seq .list sz t, old)] p).s ≠ .err .messageSize)
    (h2 : (decMany (d + 2) c data [(.seq .list sz t, old)] p).s ≠ .badAlloc) :
    (readCounted (d + 1) c data (sz.getD c.dsz) t o p).s = (decMany (d + 2) c data [(.seq .list sz t, old)] p).s ∧
    (readCounted (d + 1) c data (sz.getD c.dsz) t o p).p = (decMany (d + 2) c data [(.seq .list sz t, old)] p).p ∧
    ((readCounted (d + 1) c data (sz.getD c.dsz) t o p).s = .ok →
      (decMany (d + 2) c data [(.seq .list sz t, old)] p).vs = [.list (readCounted (d + 1) c data (sz.getD c.dsz) t o p).vs]) := by
  have one : ∀ r : Res, r = decode (d + 2) c (.seq .list sz t) old data p →
      decMany (d + 2) c data [(.seq .list sz t, old)] p = ⟨r.s, [r.v], r.p⟩ := by
    intro r hr
    simp only [decMany, ← hr]
    obtain ⟨s, v, q⟩ := r
    cases s <;> rfl
  have hdec : decode (d + 2) c (.seq .list sz t) old data p =
      match decHdr c (sz.getD c.dsz) data p with
      | (.ok, n, p1) => seqFill c .list t (fun v p => decode (d + 1) c t v data p) (dflt c (d + 1) t) old data n p1
      | (s', _, p1) => ⟨s', old, p1⟩ := by
    rw [decode]
    simp only [effSz]
    generalize sz.getD c.dsz = s at *
    cases s
    · rcases decHdr c _ data p with ⟨s, n, q⟩; cases s <;> rfl
    · rcases decHdr c _ data p with ⟨s, n, q⟩; cases s <;> rfl
    · exact absurd rfl hsz
  rw [one _ rfl] at h1 h2 ⊢
  rw [hdec] at h1 h2 ⊢
  rw [readCounted_hdr hsz]
  clear hdec one
  generalize decHdr c (sz.getD c.dsz) data p = hh at h1 h2 ⊢
  obtain ⟨s, n, q⟩ := hh
  cases s
  · simp only [seqFill] at h1 h2 ⊢
    split at h1
    · exact absurd rfl h1
    · rename_i hlim
      rw [if_neg hlim] at h2 ⊢
      split at h2
      · exact absurd rfl h2
      · rename_i hmem
        rw [if_neg hmem]
        have e : (resizeVals old.elems n (dflt c (d + 1) t)).length = n := by
          simp [resizeVals]; omega
        have r := readEach_all (fun v v' p => decode_old c habi.pos henv (d + 1) t data v v' p ht) (resizeVals old.elems n (dflt c (d + 1) t)) o q
        rw [e] at r
        simp only [seqBody, ne_eq, not_true_eq_false, false_and, if_false, ResL.toRes]
        exact ⟨r.s, r.p, fun hs => by rw [r.v hs]⟩
  all_goals exact ⟨rfl, rfl, fun h => by cases h⟩

/-- A damaged list of strings: the size of the second exceeds the input. -/
example :
    let c := Checks.le Checks.grow (.fixed 1)
    oldFree c.dsz Checks.str = true ∧
    decMany 5 c [2, 1, 65, 9, 66] [(.seq .list none Checks.str, .list [])] 0 =
      ⟨.err .resultOutOfRange, [.list [Checks.strV [65], .list (List.replicate 9 (.num 0))]], 4⟩ ∧
    readCounted 4 c [2, 1, 65, 9, 66] (.fixed 1) Checks.str (.list []) 0 = ⟨.err .resultOutOfRange, [Checks.strV [65]], 4⟩ := by
  decide +kernel

/-- Reading an object that is copied as one block, given that the input has the bytes, and given that it has not. -/
theorem decode_block {c : Cfg} {t : Ty} (ha : AbiOk c.sizeof) (hb : asBytes c t = true) (hcp : copyOk c t = true) (hg : Good c t = true)
    (d : Nat) (old : Val) (data : List UInt8) (p : Nat) (hp : p ≤ data.length) :
    (p + c.sizeof t ≤ data.length → decode (d + 1) c t old data p = ⟨.ok, unrep c.host c.sizeof t ((data.drop p).take (c.sizeof t)), p + c.sizeof t⟩) ∧
    (data.length < p + c.sizeof t → (decode (d + 1) c t old data p).s = .err .resultOutOfRange) := by
  have hpl := plain_of_copyOk hb hcp
  cases t with
  | scalar k n =>
    have hn : 0 < n := by cases k <;> simp [Good, nodeOk, scalarOk] at hg <;> omega
    rw [ha.scalar k n hn]
    constructor
    · intro h
      rw [decode, (getBytes_takes hp).1 h]
      simp only [unrep, ioNat]
      have h1 : c.aware = false ∨ n = 1 := by
        simp only [asBytes, Bool.or_eq_true, Bool.and_eq_true, Bool.not_eq_true'] at hb
        rcases hb with hb | hb
        · cases k <;> simp [Ty.endianIndep] at hb <;> simp [Good, nodeOk, scalarOk] at hg <;> exact .inr hg
        · exact .inl hb.1
      rcases h1 with h1 | h1
      · simp [h1]
      · subst h1
        split
        · cases hx : List.drop p data with
          | nil => simp
          | cons x xs => simp
        · rfl
    · intro h
      rw [decode, (getBytes_takes hp).2 h]
  | bool =>
    rw [ha.bool]
    constructor
    · intro h
      rw [decode, (getBytes_takes hp).1 h]
      simp only [unrep]
    · intro h
      rw [decode, (getBytes_takes hp).2 h]
  | struct ok fs =>
    have hs := ha.pos (.struct ok fs)
    constructor
    · intro h
      rw [decode, if_pos hb]
      simp only [decRep, Nat.one_mul]
      rw [if_neg (by omega), (getBytes_takes hp).1 h]
      simp only [unrepAll, chunks, List.headD_cons, List.take_take, Nat.min_self]
    · intro h
      rw [decode, if_pos hb]
      simp only [decRep, Nat.one_mul]
      rw [if_neg (by omega), (getBytes_takes hp).2 h]
  | array n t' =>
    have hs := ha.pos (.array n t')
    have hn : 0 < n := by simp [Good, nodeOk] at hg; exact hg.1.1
    have hb' : asBytes c t' = true := by simpa [asBytes, Ty.endianIndep, Ty.byteSer] using hb
    rw [ha.array n t' hn] at hs ⊢
    constructor
    · intro h
      rw [decode]
      simp only [hb', if_true, decRep]
      rw [if_neg (by omega), (getBytes_takes hp).1 h]
      simp [ResL.toRes, unrepAll, unrep]
    · intro h
      rw [decode]
      simp only [hb', if_true, decRep]
      rw [if_neg (by omega), (getBytes_takes hp).2 h]
      rfl
  | _ => simp [plain] at hpl

theorem readEach_block {c : Cfg} {t : Ty} (ha : AbiOk c.sizeof) (hb : asBytes c t = true) (hcp : copyOk c t = true) (hg : Good c t = true)
    (d : Nat) (data : List UInt8) : ∀ (n : Nat) (old : Val) (p : Nat), p ≤ data.length →
    (p + n * c.sizeof t ≤ data.length → readEach (d + 1) c data t n old p =
      ⟨.ok, unrepAll c.host c.sizeof t n ((data.drop p).take (n * c.sizeof t)), p + n * c.sizeof t⟩) ∧
    (data.length < p + n * c.sizeof t → (readEach (d + 1) c data t n old p).s = .err .resultOutOfRange)
  | 0, old, p, hp => by simp [readEach, unrepAll, chunks]; omega
  | n + 1, old, p, hp => by
    obtain ⟨h1, h2⟩ := decode_block ha hb hcp hg d old data p hp
    rw [Nat.succ_mul]
    by_cases hx : p + c.sizeof t ≤ data.length
    · obtain ⟨h3, h4⟩ := readEach_block ha hb hcp hg d data n (unrep c.host c.sizeof t ((data.drop p).take (c.sizeof t))) (p + c.sizeof t) hx
      simp only [readEach, decMany, h1 hx]
      constructor
      · intro h
        rw [h3 (by omega)]
        simp only [unrepAll, chunks]
        rw [List.take_take, Nat.min_eq_left (by omega), List.drop_take, List.drop_drop, Nat.add_sub_cancel]
        simp only [ResL.mk.injEq, true_and]
        omega
      · intro h
        exact h4 (by omega)
    · have h3 := h2 (by omega)
      constructor
      · intro h; omega
      · intro _
        simp only [readEach, decMany]
        generalize decode (d + 1) c t old data p = r at *
        obtain ⟨s, v, q⟩ := r
        simp only at h3
        subst h3
        rfl

/-- C128, any input, all containers that own their elements. As C128_any_input for vectors and strings too. Their elements may be copied as one
block, after a check that all are there; so the outcome is the same and, if successful, the position and the elements, but
after a failure the loop may have read elements that the container does not have. -/
theorem C128_any_container (d : Nat) (c : Cfg) (k : SeqKind) (sz : Option SizeTy) (t : Ty) (old o : Val) (data : List UInt8) (p : Nat)
    (hk : k = .vector ∨ k = .list) (hp : p ≤ data.length)
    (habi : AbiOk c.sizeof) (henv : ∀ i, oldFree c.dsz (c.env i) = true) (ht : oldFree c.dsz t = true)
    (hg : Good c (.seq k sz t) = true) (hsz : sz.getD c.dsz ≠ .none)
    (h1 : (decMany (d + 2) c data [(.seq k sz t, old)] p).s ≠ .err .messageSize)
    (h2 : (decMany (d + 2) c data [(.seq k sz t, old)] p).s ≠ .badAlloc) :
    (readCounted (d + 1) c data (sz.getD c.dsz) t o p).s = (decMany (d + 2) c data [(.seq k sz t, old)] p).s ∧
    ((readCounted (d + 1) c data (sz.getD c.dsz) t o p).s = .ok →
      decMany (d + 2) c data [(.seq k sz t, old)] p =
        ⟨.ok, [.list (readCounted (d + 1) c data (sz.getD c.dsz) t o p).vs], (readCounted (d + 1) c data (sz.getD c.dsz) t o p).p⟩) := by
  have one : ∀ r : Res, r = decode (d + 2) c (.seq k sz t) old data p →
      decMany (d + 2) c data [(.seq k sz t, old)] p = ⟨r.s, [r.v], r.p⟩ := by
    intro r hr
    simp only [decMany, ← hr]
    obtain ⟨s, v, q⟩ := r
    cases s <;> rfl
  have hdec : decode (d + 2) c (.seq k sz t) old data p =
      match decHdr c (sz.getD c.dsz) data p with
      | (.ok, n, p1) => seqFill c k t (fun v p => decode (d + 1) c t v data p) (dflt c (d + 1) t) old data n p1
      | (s', _, p1) => ⟨s', old, p1⟩ := by
    rw [decode]
    simp only [effSz]
    generalize sz.getD c.dsz = s at *
    cases s
    · rcases decHdr c _ data p with ⟨s, n, q⟩; cases s <;> rfl
    · rcases decHdr c _ data p with ⟨s, n, q⟩; cases s <;> rfl
    · exact absurd rfl hsz
  rw [one _ rfl] at h1 h2 ⊢
  rw [hdec] at h1 h2 ⊢
  rw [readCounted_hdr hsz]
  have hsafe := decHdr_safe (c := c) (sz.getD c.dsz) hp
  clear hdec one
  generalize decHdr c (sz.getD c.dsz) data p = hh at h1 h2 hsafe ⊢
  obtain ⟨s, n, q⟩ := hh
  cases s
  · have hfill : seqFill c k t (fun v p => decode (d + 1) c t v data p) (dflt c (d + 1) t) old data n q =
        if c.g.limit ≠ sizeMax ∧ c.g.limit / c.sizeof t < n then ⟨.err .messageSize, old, q⟩
        else if c.g.maxMem < n * c.sizeof t then ⟨.badAlloc, old, q⟩
        else seqBody c k t (fun v p => decode (d + 1) c t v data p) (resizeVals old.elems n (dflt c (d + 1) t)) data q := by
      rcases hk with rfl | rfl <;> rfl
    simp only [hfill] at h1 h2 ⊢
    split at h1
    · exact absurd rfl h1
    · rename_i hlim
      rw [if_neg hlim] at h2 ⊢
      split at h2
      · exact absurd rfl h2
      · rename_i hmem
        rw [if_neg hmem]
        have e : (resizeVals old.elems n (dflt c (d + 1) t)).length = n := by
          simp [resizeVals]; omega
        unfold seqBody
        split
        · rename_i hb
          have hgt : copyOk c t = true ∧ Good c t = true := by
            rcases hk with rfl | rfl
            · simp [Good, nodeOk] at hg; exact ⟨hg.1, hg.2⟩
            · exact absurd rfl hb.1
          have hq : q ≤ data.length := hsafe.inb
          obtain ⟨r1, r2⟩ := readEach_block habi hb.2 hgt.1 hgt.2 d data n o q hq
          rw [e]
          simp only [decRep, ResL.toRes]
          by_cases hz : n * c.sizeof t = 0
          · have hn : n = 0 := by
              rcases Nat.mul_eq_zero.mp hz with h | h
              · exact h
              · have := habi.pos t; omega
            subst hn
            simp [readEach]
            exact List.length_eq_zero_iff.mp e
          · rw [if_neg hz]
            by_cases hx : q + n * c.sizeof t ≤ data.length
            · rw [r1 hx, (getBytes_takes hq).1 hx]
              exact ⟨rfl, fun _ => rfl⟩
            · have r3 := r2 (by omega)
              rw [(getBytes_takes hq).2 (by omega)]
              exact ⟨r3, fun h => by rw [r3] at h; cases h⟩
        · have r := readEach_all (fun v v' p => decode_old c habi.pos henv (d + 1) t data v v' p ht) (resizeVals old.elems n (dflt c (d + 1) t)) o q
          rw [e] at r
          simp only [ResL.toRes]
          exact ⟨r.s, fun hs => by rw [r.v hs, ← r.s, hs, r.p]⟩
  all_goals exact ⟨rfl, fun h => by cases h⟩

/-- Numbers of two bytes: the second is cut off. The vector has kept its elements, value-initialized ones added; the loop has read one. -/
example :
    let c := Checks.le Checks.grow (.fixed 1)
    Good c (.seq .vector none (.scalar .int 2)) = true ∧
    decMany 5 c [2, 1, 0, 2] [(.seq .vector none (.scalar .int 2), .list [.num 7])] 0 = ⟨.err .resultOutOfRange, [.list [.num 7, .num 0]], 1⟩ ∧
    readCounted 4 c [2, 1, 0, 2] (.fixed 1) (.scalar .int 2) (.num 0) 0 = ⟨.err .resultOutOfRange, [.num 1], 3⟩ := by
  decide +kernel

/-- C128, number unknown in advance. With a size of fixed width, any number `m` can be written first; after the elements, the position is set
back to it and the right number is written over it. The bytes up to the end of the elements are those of the container, nothing in front
changes, and a reader gets the container. -/
theorem C128_backfill (d d' : Nat) (co ci : Cfg) (noFit : Bool) (ct t : Ty) (sz : Option SizeTy) (k m : Nat) (vs : List Val) (old : Val)
    (st a b : OutSt) (bs : List UInt8) (he : streamedAs ct = some (sz, t)) (hk : sz.getD co.dsz = .fixed k) (hm : m < 256 ^ k)
    (hf : fmtOf ci = fmtOf co) (hpos : st.pos ≤ st.data.length) (hlen : st.data.length < 2 ^ 63)
    (hs : Supported co (oneByOne (.fixed k) t vs).flatten) (hd : StackOk d (oneByOne (.fixed k) t vs).flatten)
    (hb : BitsOk (oneByOne (.fixed k) t vs).flatten st)
    (hw : wire (fmtOf co) ct (.list vs) = some bs) (hl : bs.length < 2 ^ 63)
    (ha : outCalls d co noFit ([(countTy (.fixed k), .num m)] :: vs.map fun v => [(t, v)]) st = (.ok, a))
    (hB : outCall d co noFit [(countTy (.fixed k), .num vs.length)] { a with pos := st.pos } = (.ok, b)) :
    a.pos = st.pos + bs.length ∧ b.data.take a.pos = st.data.take st.pos ++ bs ∧
    (Readable ci [(ct, .list vs)] → StackOk d' [(ct, .list vs)] →
      decMany d' ci b.data [(ct, old)] st.pos = ⟨.ok, [.list vs], a.pos⟩) := by
  have hw0 := hw
  have hdsz : (fmtOf co).dsz = co.dsz := rfl
  rw [wire_streamedAs he, hdsz, hk] at hw
  have hmem : (countTy (.fixed k), Val.num vs.length) ∈ (oneByOne (.fixed k) t vs).flatten := by simp [oneByOne]
  have hmem' : ∀ v ∈ vs, (t, v) ∈ (oneByOne (.fixed k) t vs).flatten := by intro v hv; simp [oneByOne]; exact .inr hv
  have hx : ∀ x ∈ ([(countTy (.fixed k), Val.num m)] :: vs.map fun v => [(t, v)]).flatten,
      x = (countTy (.fixed k), Val.num m) ∨ x ∈ (oneByOne (.fixed k) t vs).flatten := by
    intro x hx
    simp at hx
    rcases hx with rfl | ⟨v, hv, rfl⟩
    · exact .inl rfl
    · exact .inr (hmem' v hv)
  rw [cat_eq_some] at hw
  obtain ⟨b1, b2, hw1, hw2, rfl⟩ := hw
  have hn : vs.length < 256 ^ k := by
    simp only [sizePrefix] at hw1
    split at hw1
    · assumption
    · cases hw1
  have e1 : digits (fmtOf co).order k vs.length = b1 := by simpa [sizePrefix, hn] using hw1
  have hl1 : b1.length = k := by rw [← e1]; exact digits_length ..
  have hwm : wireItems (fmtOf co) ([(countTy (.fixed k), Val.num m)] :: vs.map fun v => [(t, v)]).flatten =
      some (digits (fmtOf co).order k m ++ b2) := by
    have := wireItems_each (fmtOf co) t vs
    rw [hw2] at this
    rw [List.flatten_cons]
    show cat (wire (fmtOf co) (countTy (.fixed k)) (.num m)) (wireItems (fmtOf co) (vs.map fun v => [(t, v)]).flatten) = _
    rw [this, wire_countTy _ _ _ (by simp)]
    simp [sizePrefix, hm, cat]
  have hlm : (digits (fmtOf co).order k m).length = k := digits_length ..
  simp only [List.length_append] at hl
  obtain ⟨h1, h2, j, h3⟩ := outCalls_appends _ hpos hlen
    ⟨hs.growth, hs.abi, hs.env, fun x hxx => by
      rcases hx x hxx with rfl | h
      · exact (hs.types _ hmem :)
      · exact hs.types x h⟩
    (fun x hxx => by
      rcases hx x hxx with rfl | h
      · have := hd _ hmem; simpa [depth] using this
      · exact hd x h)
    (hb.imp (fun h x hxx => by
      rcases hx x hxx with rfl | h'
      · rfl
      · exact h x h') id) hwm (by simp only [List.length_append]; omega) ha
  have hst : (st.data.take st.pos).length = st.pos := by simp; omega
  simp only [List.length_append, hlm] at h1 h3
  have ea : a.data.take a.pos = st.data.take st.pos ++ (digits (fmtOf co).order k m ++ b2) := by
    rw [h3]; simp only [List.append_assoc]
    rw [← List.append_assoc, ← List.append_assoc]
    rw [List.append_assoc (List.take st.pos st.data), List.take_left' (by simp [hlm]; omega)]
  have hal : a.pos ≤ a.data.length := by rw [h3, h1]; simp [hlm]; omega
  obtain ⟨p1, p2, p3⟩ := C45_patch_local d co noFit [(countTy (.fixed k), .num vs.length)] a b st.pos b1
    (by omega) (by omega)
    ⟨hs.growth, hs.abi, hs.env, fun x hxx => by simp at hxx; subst hxx; exact hs.types _ hmem⟩
    (fun x hxx => by simp at hxx; subst hxx; exact hd _ hmem)
    (fun x hxx => by simp at hxx; subst hxx; rfl)
    (by
      have := wire_countTy (fmtOf co) (.fixed k) vs.length (by simp)
      simp [wireItems, this, sizePrefix, hn, e1, cat]) hB
  have eb : b.data.take a.pos = st.data.take st.pos ++ (b1 ++ b2) := by
    have q1 : b.data.take a.pos = (b.data.take a.data.length).take a.pos := by rw [List.take_take, Nat.min_eq_left hal]
    have q2 : a.data.take st.pos = st.data.take st.pos := by
      have : a.data.take st.pos = (a.data.take a.pos).take st.pos := by rw [List.take_take, Nat.min_eq_left (by omega)]
      rw [this, ea, List.take_left' hst]
    have q3 : (a.data.drop (st.pos + b1.length)).take b2.length = b2 := by
      have : (a.data.drop (st.pos + b1.length)).take b2.length = (a.data.take a.pos).drop (st.pos + b1.length) := by
        rw [List.drop_take]; congr 1; omega
      rw [this, ea, ← List.append_assoc]
      exact List.drop_left' (by simp [hlm]; omega)
    rw [q1, p2, q2, List.append_assoc, List.take_append, List.take_of_length_le (by omega), hst]
    congr 1
    rw [List.take_append, List.take_of_length_le (by omega)]
    congr 1
    rw [← q3]; congr 1; omega
  refine ⟨by simp only [List.length_append]; omega, eb, fun hr hd' => ?_⟩
  have e : b.data = st.data.take st.pos ++ (b1 ++ b2) ++ b.data.drop a.pos := by rw [← eb, List.take_append_drop]
  have hbl : b.data.length < 2 ^ 64 := by
    have hv := (outCall_safe d co hs.growth noFit [(countTy (.fixed k), .num vs.length)] { a with pos := st.pos }
      ⟨by simp only; omega, by simp only; omega⟩).valid hs.growth ⟨by simp only; omega, by simp only; omega⟩
    rw [hB] at hv
    have := hv.len_lt
    simp only at this
    omega
  have := C10_read_encoding d' ci [(ct, .list vs)] [(ct, old)] (st.data.take st.pos) (b1 ++ b2) (b.data.drop a.pos)
    (by rw [← e]; exact hbl) (by rw [hf]; simp [wireItems, hw0, cat]) hr hd' rfl
  rw [← e, hst] at this
  rw [this, h1]
  simp only [List.length_append, hl1]
  rfl

/-- A zero is written first, then two strings, then the number two over the zero; a byte stands in front. -/
example :
    let c := Checks.le Checks.grow (.fixed 2)
    let vs : List Val := [Checks.strV [65], Checks.strV []]
    wire (fmtOf c) (.seq .vector none Checks.str) (.list vs) = some [2, 0, 1, 0, 65, 0, 0] ∧
    Supported c (oneByOne (.fixed 2) Checks.str vs).flatten ∧ StackOk 9 (oneByOne (.fixed 2) Checks.str vs).flatten ∧
    outCalls 9 c false ([(countTy (.fixed 2), .num 0)] :: vs.map fun v => [(Checks.str, v)]) ⟨[7], 1⟩ = (.ok, ⟨[7, 0, 0, 1, 0, 65, 0, 0], 8⟩) ∧
    outCall 9 c false [(countTy (.fixed 2), .num 2)] ⟨[7, 0, 0, 1, 0, 65, 0, 0], 1⟩ = (.ok, ⟨[7, 2, 0, 1, 0, 65, 0, 0], 3⟩) :=
  ⟨by decide +kernel, ⟨grow_ok, so_abi, fun _ => ⟨rfl, rfl⟩, by decide +kernel⟩, by unfold StackOk; decide +kernel, by decide +kernel, by decide +kernel⟩

end Zpp.Props
