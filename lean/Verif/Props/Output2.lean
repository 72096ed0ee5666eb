import Verif.Props.Output
import Verif.Props.Options
import Verif.Proof.OutSlack
/-!
# More properties of output archives
-/

namespace Zpp.Props
open Zpp Zpp.Spec

/-- C05, weaker than stated: without variable length integers the claim holds exactly. Missing: varints, for
which it fails (`C05_not_fitted`). -/
theorem C05_fitted_no_varint_partial (d : Nat) (c : Cfg) (items : List (Ty × Val)) (st : OutSt)
    (hg : GrowthLaws c.g) (hr : c.g.resizable = true) (henl : ¬ (c.g.mul = 1 ∧ c.g.div = 1))
    (hpos : st.pos ≤ st.data.length) (hlen : st.data.length < 2 ^ 63)
    (henv : ∀ i, noVarint c.dsz (c.env i) = true) (hno : ∀ x ∈ items, noVarint c.dsz x.1 = true)
    (hb : (outCall d c false items st).1 ≠ .badAlloc) :
    (outCall d c false items st).2.data.length = max st.data.length (outCall d c false items st).2.pos := by
  have hv : Valid st := ⟨hpos, hlen⟩
  have ht := encMany_tight d (fun _ => hg) henv items hno st hv
  have hsafe := encMany_safe d c (fun _ => hg) items st hv
  have hf := (C05_fitted_partial d c items st hg hr henl hpos hlen).2.2
  have hst := (outCall_state (d := d) (fun _ => hg) false items hv).1
  by_cases h : st.data.length ≤ (outCall d c false items st).2.pos
  · rw [hf h hb]; omega
  · have h' : ¬ st.data.length ≤ (encMany d c items st).2.pos := by rw [← hst]; exact h
    have e : outCall d c false items st = encMany d c items st := by
      unfold outCall fitCall
      rw [if_pos ⟨hr, rfl, henl⟩]
      generalize encMany d c items st = r at *
      obtain ⟨s, st'⟩ := r
      cases s <;> simp only [if_neg h']
    rw [e] at h ⊢
    omega

example : (∀ x ∈ [((.seq .vector none (.scalar .int 2) : Ty), Val.list [.num 1])], noVarint (.fixed 4) x.1 = true) ∧
    outCall 20 (Checks.le Checks.grow (.fixed 4)) false [(.seq .vector none (.scalar .int 2), .list [.num 1])] ⟨[9, 9], 1⟩ =
      (.ok, ⟨[9, 1, 0, 0, 0, 1, 0], 7⟩) := by decide +kernel

/-- C05, weaker than stated: for objects of every type, variable length integers and protobuf messages included,
and whether or not the call succeeds, the claim holds exactly unless the call ends inside the last eight bytes of
the old buffer. Missing: those eight bytes, for which it fails (`C05_not_fitted`, `C05_window_sharp`). -/
theorem C05_fitted_window_partial (d : Nat) (c : Cfg) (items : List (Ty × Val)) (st : OutSt)
    (hg : GrowthLaws c.g) (hr : c.g.resizable = true) (henl : ¬ (c.g.mul = 1 ∧ c.g.div = 1))
    (hpos : st.pos ≤ st.data.length) (hlen : st.data.length < 2 ^ 63)
    (hb : (outCall d c false items st).1 ≠ .badAlloc)
    (hwin : (outCall d c false items st).2.pos + 8 < st.data.length ∨
      st.data.length ≤ (outCall d c false items st).2.pos) :
    (outCall d c false items st).2.data.length = max st.data.length (outCall d c false items st).2.pos := by
  have hv : Valid st := ⟨hpos, hlen⟩
  have ht := encMany_near d c (fun _ => hg) (track_window c.g) items st hv
  have hf := (C05_fitted_partial d c items st hg hr henl hpos hlen).2.2
  have hst := (outCall_state (d := d) (fun _ => hg) false items hv).1
  by_cases h : st.data.length ≤ (outCall d c false items st).2.pos
  · rw [hf h hb]; omega
  · have h' : ¬ st.data.length ≤ (encMany d c items st).2.pos := by rw [← hst]; exact h
    have e : outCall d c false items st = encMany d c items st := by
      unfold outCall fitCall
      rw [if_pos ⟨hr, rfl, henl⟩]
      generalize encMany d c items st = r at *
      obtain ⟨s, st'⟩ := r
      cases s <;> simp only [if_neg h']
    rw [e] at h hwin ⊢
    omega

example : outCall 20 (Checks.le Checks.grow .varint) false
      [(.varint 8 false, .num 300), (.seq .vector none (.scalar .int 1), .list [.num 1])] ⟨List.replicate 20 9, 1⟩ =
      (.ok, ⟨[9, 172, 2, 1, 1] ++ List.replicate 15 9, 5⟩) ∧
    outCall 20 (Checks.le Checks.grow .varint) false
      [(.varint 8 false, .num 300), (.seq .vector none (.scalar .int 1), .list [.num 1])] ⟨[9, 9], 1⟩ =
      (.ok, ⟨[9, 172, 2, 1, 1], 5⟩) := by decide +kernel

/-- The window of eight bytes cannot be narrowed: at each of the last eight positions a call can end with a buffer
that has grown. -/
theorem C05_window_sharp (k : Nat) (h0 : 1 ≤ k) (h8 : k ≤ 8) : ∃ (c : Cfg) (items : List (Ty × Val)) (st : OutSt),
    GrowthLaws c.g ∧ c.g.resizable = true ∧ st.pos ≤ st.data.length ∧
    (outCall 20 c false items st).1 = .ok ∧
    (outCall 20 c false items st).2.pos + k = st.data.length ∧
    st.data.length < (outCall 20 c false items st).2.data.length := by
  refine ⟨Checks.le Checks.grow (.fixed 4), [(.varint 8 false, .num 1)], ⟨List.replicate (k + 1) 0, 0⟩, grow_ok rfl, ?_⟩
  have : k = 1 ∨ k = 2 ∨ k = 3 ∨ k = 4 ∨ k = 5 ∨ k = 6 ∨ k = 7 ∨ k = 8 := by omega
  rcases this with rfl | rfl | rfl | rfl | rfl | rfl | rfl | rfl <;> decide +kernel

/-! ## Null pointers and valueless variants -/

/-- C09. If serialization of the items runs into a null owning pointer or a valueless variant, at any depth and
after any amount `x ++ b` of output, the call never succeeds; if there is room for what precedes the defect,
it returns `invalid_argument`. -/
theorem C09_rejected (d : Nat) (c : Cfg) (noFit : Bool) (before after : List (Ty × Val)) (t : Ty) (v : Val)
    (st : OutSt) (x b : List UInt8) (hpos : st.pos ≤ st.data.length) (hlen : st.data.length < 2 ^ 63)
    (hs : Supported c (before ++ (t, v) :: after)) (hd : StackOk d (before ++ (t, v) :: after))
    (hbits : BitsOk (before ++ (t, v) :: after) st)
    (hw : wireItems (fmtOf c) before = some x) (hb : Broken (fmtOf c) t v b) (hl : (x ++ b).length < 2 ^ 63) :
    let r := outCall d c noFit (before ++ (t, v) :: after) st
    r.1 ≠ .ok ∧
    (c.g.resizable = false → st.pos + (x ++ b).length ≤ st.data.length → r.1 = .err .invalidArgument) ∧
    (c.g.resizable = true → LimitRoom c.g (st.pos + (x ++ b).length) → MemRoom c.g (st.pos + (x ++ b).length) →
      r.1 = .err .invalidArgument) := by
  have hv : Valid st := ⟨hpos, hlen⟩
  have e : st = ⟨st.data.take st.pos ++ st.data.drop st.pos, (st.data.take st.pos).length⟩ := by
    cases st; simp at hpos ⊢; omega
  have hpl : (st.data.take st.pos).length = st.pos := by simp; omega
  have hll : (st.data.take st.pos).length + (st.data.drop st.pos).length < 2 ^ 63 := by simp; omega
  have key : ∃ z, (z = true → AllZero (st.data.drop st.pos)) ∧
      FailsAfter c.g z (x ++ b) (.err .invalidArgument) (encMany d c (before ++ (t, v) :: after)) := by
    rcases hbits with h | h
    · exact ⟨false, nofun, encMany_broken false hs hd (Or.inr h) hw hb hl⟩
    · exact ⟨true, fun _ => h, encMany_broken true hs hd (Or.inl rfl) hw hb hl⟩
  obtain ⟨z, hz, hf⟩ := key
  have h := hf _ _ hz hll
  rw [← e, hpl, List.length_drop] at h
  simp only [outCall_status hs.growth noFit _ hv]
  refine ⟨?_, ?_, ?_⟩
  · rcases h with h | ⟨_, h, _⟩ | ⟨_, h, _⟩ | ⟨_, h, _⟩ <;> rw [h] <;> simp
  · intro hr hfit
    rcases h with h | ⟨_, h, h'⟩ | ⟨h', _⟩ | ⟨h', _⟩
    · exact h
    · omega
    · rw [hr] at h'; cases h'
    · rw [hr] at h'; cases h'
  · intro hr h1 h2
    rcases h with h | ⟨h', _⟩ | ⟨_, _, h'⟩ | ⟨_, _, h'⟩
    · exact h
    · rw [hr] at h'; cases h'
    · exact absurd h1 h'
    · exact absurd h2 h'

/-- A vector of structs, the second of which holds an optional with a null `unique_ptr`. -/
example :
    let f := fmtOf (Checks.le Checks.fixed (.fixed 1))
    let s : Ty := .struct true [.scalar .int 1, .optional true (.uptr .bool)]
    Broken f (.seq .vector none s) (.list ([.list [.num 5, .none]] ++ .list ([.num 6] ++ .some .none :: []) :: []))
      ([2] ++ ([5, 0] ++ ([6] ++ [1]))) :=
  .seqElem (by decide +kernel) (by decide +kernel)
    (.member (ts := [.scalar .int 1]) (ts' := []) (by decide +kernel) (.optional (.null _)))

/-! ## The byte-copy optimization -/

/-- C25, output of classes: serializing an object of a class, by whatever path the library chooses (one `memcpy`
if the class is trivially copyable without padding), writes the same bytes as serializing its members one
after the other. On a fixed buffer also the outcome and the rest of the buffer agree. -/
theorem C25_struct_out_partial (d : Nat) (c : Cfg) (noFit : Bool) (ok : Bool) (fs : List Ty) (vs : List Val) (st : OutSt)
    (bs : List UInt8) (hpos : st.pos ≤ st.data.length) (hlen : st.data.length < 2 ^ 63)
    (hn : fs.length = vs.length)
    (hs : Supported c [(.struct ok fs, .list vs)]) (hd : StackOk d [(.struct ok fs, .list vs)])
    (hb : BitsOk [(.struct ok fs, .list vs)] st)
    (hw : wireItems (fmtOf c) [(.struct ok fs, .list vs)] = some bs) (hl : bs.length < 2 ^ 63) :
    (∀ s1 s2, outCall d c noFit [(.struct ok fs, .list vs)] st = (.ok, s1) →
      outCall d c noFit (fs.zip vs) st = (.ok, s2) →
      s1.pos = s2.pos ∧ (s1.data.take s1.pos).drop st.pos = (s2.data.take s2.pos).drop st.pos) ∧
    (c.g.resizable = false →
      (outCall d c noFit [(.struct ok fs, .list vs)] st).1 = (outCall d c noFit (fs.zip vs) st).1 ∧
      ((outCall d c noFit (fs.zip vs) st).1 = .ok →
        outCall d c noFit [(.struct ok fs, .list vs)] st = outCall d c noFit (fs.zip vs) st)) := by
  have hw2 : wireItems (fmtOf c) (fs.zip vs) = some bs := by
    simp only [wireItems, wire, cat_eq_some] at hw
    obtain ⟨a, b, ha, hb', rfl⟩ := hw
    cases hb'
    rw [List.append_nil]
    clear hs hd hb hl
    induction fs generalizing vs a with
    | nil => cases vs with
      | nil => simpa [wireFields, wireItems] using ha
      | cons => simp [wireFields] at ha
    | cons t ts ih => cases vs with
      | nil => simp [wireFields] at ha
      | cons v vs =>
        simp only [wireFields, cat_eq_some] at ha
        obtain ⟨p, q, hp, hq, rfl⟩ := ha
        simp only [List.zip_cons_cons, wireItems, hp, cat, ih vs (by simpa using hn) q hq]
  have hg : GoodL c fs = true := by
    have := hs.types (.struct ok fs, .list vs) (by simp)
    simp only [Good, Bool.and_eq_true] at this
    exact this.2
  have hs2 : Supported c (fs.zip vs) := ⟨hs.growth, hs.abi, hs.env, fun x hx =>
    GoodL_mem hg x.1 (List.of_mem_zip hx).1⟩
  have hd2 : StackOk d (fs.zip vs) := by
    intro x hx
    have h1 := hd (.struct ok fs, .list vs) (by simp)
    have h2 := depth_mem (List.of_mem_zip (a := x.1) (b := x.2) hx).2
    simp only [depth] at h1
    omega
  have hb2 : BitsOk (fs.zip vs) st := hb.imp
    (fun h x hx => noBits_mem (List.of_mem_zip (a := x.1) (b := x.2) hx).2 (h (.struct ok fs, .list vs) (by simp))) id
  refine ⟨?_, ?_⟩
  · intro s1 s2 h1 h2
    rw [C03_wire_format d c noFit _ st s1 bs hpos hlen hs hd hb hw hl h1,
      C03_wire_format d c noFit _ st s2 bs hpos hlen hs2 hd2 hb2 hw2 hl h2,
      (C04_growing_appends d c noFit _ st s1 bs hpos hlen hs hd hb hw hl h1).1,
      (C04_growing_appends d c noFit _ st s2 bs hpos hlen hs2 hd2 hb2 hw2 hl h2).1]
    exact ⟨rfl, rfl⟩
  · intro hf
    have e1 := C02_fixed_exact d c noFit _ st bs hf hpos hlen hs hd hb hw hl
    have e2 := C02_fixed_exact d c noFit _ st bs hf hpos hlen hs2 hd2 hb2 hw2 hl
    by_cases hfit : st.pos + bs.length ≤ st.data.length
    · rw [e1.1 hfit, e2.1 hfit]; exact ⟨rfl, fun _ => rfl⟩
    · have := e2.2 (by omega)
      exact ⟨by rw [e1.2 (by omega), this], fun h => by rw [this] at h; cases h⟩

/-- C25, output of arrays: an array is written, by whatever path, as its elements one after the other. -/
theorem C25_array_out_partial (d : Nat) (c : Cfg) (noFit : Bool) (n : Nat) (t : Ty) (vs : List Val) (st : OutSt)
    (bs : List UInt8) (hpos : st.pos ≤ st.data.length) (hlen : st.data.length < 2 ^ 63)
    (hs : Supported c [(.array n t, .list vs)]) (hd : StackOk d [(.array n t, .list vs)])
    (hb : BitsOk [(.array n t, .list vs)] st)
    (hw : wireItems (fmtOf c) [(.array n t, .list vs)] = some bs) (hl : bs.length < 2 ^ 63) :
    (∀ s1 s2, outCall d c noFit [(.array n t, .list vs)] st = (.ok, s1) →
      outCall d c noFit (vs.map fun v => (t, v)) st = (.ok, s2) →
      s1.pos = s2.pos ∧ (s1.data.take s1.pos).drop st.pos = (s2.data.take s2.pos).drop st.pos) ∧
    (c.g.resizable = false →
      (outCall d c noFit [(.array n t, .list vs)] st).1 = (outCall d c noFit (vs.map fun v => (t, v)) st).1 ∧
      ((outCall d c noFit (vs.map fun v => (t, v)) st).1 = .ok →
        outCall d c noFit [(.array n t, .list vs)] st = outCall d c noFit (vs.map fun v => (t, v)) st)) := by
  have hw2 : wireItems (fmtOf c) (vs.map fun v => (t, v)) = some bs := by
    simp only [wireItems, wire, cat_eq_some] at hw
    obtain ⟨a, b, ha, hb', rfl⟩ := hw
    cases hb'
    rw [List.append_nil]
    have ha' : wireAll (fmtOf c) t vs = some a := by
      split at ha
      · exact ha
      · cases ha
    clear hs hd hb hl ha
    have ha := ha'
    clear ha'
    induction vs generalizing a with
    | nil => exact ha
    | cons v vs ih =>
      simp only [wireAll, cat_eq_some] at ha
      obtain ⟨p, q, hp, hq, rfl⟩ := ha
      simp only [List.map_cons, wireItems, hp, cat, ih q hq]
  have hg : Good c t = true := by
    have := hs.types (.array n t, .list vs) (by simp)
    simp only [Good, Bool.and_eq_true] at this
    exact this.2
  have hm : ∀ x ∈ vs.map fun v => (t, v), x.1 = t ∧ x.2 ∈ vs := by
    intro x hx
    obtain ⟨v, hv, rfl⟩ := List.mem_map.mp hx
    exact ⟨rfl, hv⟩
  have hs2 : Supported c (vs.map fun v => (t, v)) := ⟨hs.growth, hs.abi, hs.env, fun x hx => by
    rw [(hm x hx).1]; exact hg⟩
  have hd2 : StackOk d (vs.map fun v => (t, v)) := by
    intro x hx
    have h1 := hd (.array n t, .list vs) (by simp)
    have h2 := depth_mem (hm x hx).2
    simp only [depth] at h1
    omega
  have hb2 : BitsOk (vs.map fun v => (t, v)) st := hb.imp
    (fun h x hx => noBits_mem (hm x hx).2 (h (.array n t, .list vs) (by simp))) id
  refine ⟨?_, ?_⟩
  · intro s1 s2 h1 h2
    rw [C03_wire_format d c noFit _ st s1 bs hpos hlen hs hd hb hw hl h1,
      C03_wire_format d c noFit _ st s2 bs hpos hlen hs2 hd2 hb2 hw2 hl h2,
      (C04_growing_appends d c noFit _ st s1 bs hpos hlen hs hd hb hw hl h1).1,
      (C04_growing_appends d c noFit _ st s2 bs hpos hlen hs2 hd2 hb2 hw2 hl h2).1]
    exact ⟨rfl, rfl⟩
  · intro hf
    have e1 := C02_fixed_exact d c noFit _ st bs hf hpos hlen hs hd hb hw hl
    have e2 := C02_fixed_exact d c noFit _ st bs hf hpos hlen hs2 hd2 hb2 hw2 hl
    by_cases hfit : st.pos + bs.length ≤ st.data.length
    · rw [e1.1 hfit, e2.1 hfit]; exact ⟨rfl, fun _ => rfl⟩
    · have := e2.2 (by omega)
      exact ⟨by rw [e1.2 (by omega), this], fun h => by rw [this] at h; cases h⟩

/-- C25, output of containers: contiguous containers (one `memcpy` for byte-serializable elements) and element by element
containers of the same elements write the same bytes. On a fixed buffer also the outcome and the rest of the buffer agree. -/
theorem C25_seq_out_partial (d : Nat) (c : Cfg) (noFit : Bool) (k : SeqKind) (sz : Option SizeTy) (t : Ty) (vs : List Val)
    (st : OutSt) (bs : List UInt8) (hpos : st.pos ≤ st.data.length) (hlen : st.data.length < 2 ^ 63)
    (hs : Supported c [(.seq k sz t, .list vs)]) (hd : StackOk d [(.seq k sz t, .list vs)])
    (hb : BitsOk [(.seq k sz t, .list vs)] st)
    (hw : wireItems (fmtOf c) [(.seq k sz t, .list vs)] = some bs) (hl : bs.length < 2 ^ 63) :
    (∀ s1 s2, outCall d c noFit [(.seq k sz t, .list vs)] st = (.ok, s1) →
      outCall d c noFit [(.seq .list sz t, .list vs)] st = (.ok, s2) →
      s1.pos = s2.pos ∧ (s1.data.take s1.pos).drop st.pos = (s2.data.take s2.pos).drop st.pos) ∧
    (c.g.resizable = false →
      (outCall d c noFit [(.seq k sz t, .list vs)] st).1 = (outCall d c noFit [(.seq .list sz t, .list vs)] st).1 ∧
      ((outCall d c noFit [(.seq .list sz t, .list vs)] st).1 = .ok →
        outCall d c noFit [(.seq k sz t, .list vs)] st = outCall d c noFit [(.seq .list sz t, .list vs)] st)) := by
  have hw2 : wireItems (fmtOf c) [(.seq .list sz t, .list vs)] = some bs := by
    simpa only [wireItems, wire] using hw
  have hs2 : Supported c [(.seq .list sz t, .list vs)] := ⟨hs.growth, hs.abi, hs.env, fun x hx => by
    simp only [List.mem_singleton] at hx; subst hx
    have := hs.types (.seq k sz t, .list vs) (by simp)
    simp only [Good, Bool.and_eq_true] at this
    simp [Good, nodeOk, this.2]⟩
  have hd2 : StackOk d [(.seq .list sz t, .list vs)] := by
    intro x hx
    simp only [List.mem_singleton] at hx; subst hx
    exact hd (.seq k sz t, .list vs) (by simp)
  have hb2 : BitsOk [(.seq .list sz t, .list vs)] st := hb.imp
    (fun h x hx => by
      simp only [List.mem_singleton] at hx; subst hx
      exact h (.seq k sz t, .list vs) (by simp)) id
  refine ⟨?_, ?_⟩
  · intro s1 s2 h1 h2
    rw [C03_wire_format d c noFit _ st s1 bs hpos hlen hs hd hb hw hl h1,
      C03_wire_format d c noFit _ st s2 bs hpos hlen hs2 hd2 hb2 hw2 hl h2,
      (C04_growing_appends d c noFit _ st s1 bs hpos hlen hs hd hb hw hl h1).1,
      (C04_growing_appends d c noFit _ st s2 bs hpos hlen hs2 hd2 hb2 hw2 hl h2).1]
    exact ⟨rfl, rfl⟩
  · intro hf
    have e1 := C02_fixed_exact d c noFit _ st bs hf hpos hlen hs hd hb hw hl
    have e2 := C02_fixed_exact d c noFit _ st bs hf hpos hlen hs2 hd2 hb2 hw2 hl
    by_cases hfit : st.pos + bs.length ≤ st.data.length
    · rw [e1.1 hfit, e2.1 hfit]; exact ⟨rfl, fun _ => rfl⟩
    · have := e2.2 (by omega)
      exact ⟨by rw [e1.2 (by omega), this], fun h => by rw [this] at h; cases h⟩

/-- A vector of padding-free classes, copied in one piece behind its size, and a list of them. -/
example : asBytes (Checks.le Checks.grow (.fixed 4)) (.struct true [.scalar .int 2, .scalar .int 2]) = true ∧
    outCall 20 (Checks.le Checks.grow (.fixed 1)) false
      [(.seq .vector none (.struct true [.scalar .int 2, .scalar .int 2]), .list [.list [.num 7, .num 8], .list [.num 1, .num 2]])]
      ⟨[], 0⟩ = (.ok, ⟨[2, 7, 0, 8, 0, 1, 0, 2, 0], 9⟩) ∧
    outCall 20 (Checks.le Checks.grow (.fixed 1)) false
      [(.seq .list none (.struct true [.scalar .int 2, .scalar .int 2]), .list [.list [.num 7, .num 8], .list [.num 1, .num 2]])]
      ⟨[], 0⟩ = (.ok, ⟨[2, 7, 0, 8, 0, 1, 0, 2, 0], 9⟩) := by decide +kernel

/-- A padding-free class with a nested array, which is copied in one piece. -/
example : asBytes (Checks.le Checks.grow (.fixed 4)) (.struct true [.scalar .int 4, .array 2 (.scalar .int 2)]) = true ∧
    outCall 20 (Checks.le Checks.grow (.fixed 4)) false
      [(.struct true [.scalar .int 4, .array 2 (.scalar .int 2)], .list [.num 7, .list [.num 1, .num 2]])] ⟨[], 0⟩ =
      (.ok, ⟨[7, 0, 0, 0, 1, 0, 2, 0], 8⟩) := by decide +kernel

/-! ## Byte order -/

/-- C26, output. Two hosts of any byte order, with the same option list containing one byte order option: the
bytes written are the same (and they are the encoding with that byte order). -/
theorem C26_host_independent (d₁ d₂ : Nat) (h₁ h₂ : Host) (r₁ r₂ : Bool) (opts : List Opt) (e : Endian)
    (n₁ n₂ : Bool) (items : List (Ty × Val)) (a a' b b' : OutSt) (bs : List UInt8)
    (hm : Opt.endian e ∈ opts) (ho : ∀ e', Opt.endian e' ∈ opts → e' = e) (henv : h₁.env = h₂.env)
    (ha : a.pos ≤ a.data.length) (hal : a.data.length < 2 ^ 63)
    (hb : b.pos ≤ b.data.length) (hbl : b.data.length < 2 ^ 63)
    (hs₁ : Supported (cfgOf h₁ r₁ opts) items) (hs₂ : Supported (cfgOf h₂ r₂ opts) items)
    (hd₁ : StackOk d₁ items) (hd₂ : StackOk d₂ items) (hba : BitsOk items a) (hbb : BitsOk items b)
    (hw : wireItems ⟨e, getDefaultSizeType opts, h₁.env⟩ items = some bs) (hl : bs.length < 2 ^ 63)
    (hok₁ : outCall d₁ (cfgOf h₁ r₁ opts) n₁ items a = (.ok, a'))
    (hok₂ : outCall d₂ (cfgOf h₂ r₂ opts) n₂ items b = (.ok, b')) :
    (a'.data.take a'.pos).drop a.pos = bs ∧ (b'.data.take b'.pos).drop b.pos = bs := by
  have f₁ : fmtOf (cfgOf h₁ r₁ opts) = ⟨e, getDefaultSizeType opts, h₁.env⟩ := by
    have := C48_byte_order_option h₁ r₁ opts e hm ho
    rw [← this]; rfl
  have f₂ : fmtOf (cfgOf h₂ r₂ opts) = ⟨e, getDefaultSizeType opts, h₁.env⟩ := by
    have := C48_byte_order_option h₂ r₂ opts e hm ho
    rw [← this, henv]; rfl
  exact ⟨C03_wire_format _ _ _ items a a' bs ha hal hs₁ hd₁ hba (by rw [f₁]; exact hw) hl hok₁,
    C03_wire_format _ _ _ items b b' bs hb hbl hs₂ hd₂ hbb (by rw [f₂]; exact hw) hl hok₂⟩

/-- C26, output without byte order option: the host's order. -/
theorem C26_native (h : Host) (r : Bool) (opts : List Opt) (hno : ∀ e, Opt.endian e ∉ opts) :
    (fmtOf (cfgOf h r opts)).order = h.order := by
  rw [C48_byte_order, if_neg (hno _)]

example :
    let h (e : Endian) : Host := ⟨e, 2 ^ 40, Checks.so, fun _ => .empty, Checks.numLt⟩
    let items : List (Ty × Val) := [(.scalar .int 4, .num 0x01020304), (Checks.str, Checks.strV [65])]
    outCall 20 (cfgOf (h .little) true [.endian .big]) false items ⟨[], 0⟩ = (.ok, ⟨[1, 2, 3, 4, 0, 0, 0, 1, 65], 9⟩) ∧
    outCall 20 (cfgOf (h .big) true [.endian .big]) false items ⟨[], 0⟩ = (.ok, ⟨[1, 2, 3, 4, 0, 0, 0, 1, 65], 9⟩) := by
  decide +kernel

/-! ## `optional_ptr` -/

/-- C27, output: for every value, state and archive, `optional_ptr<T>` and `optional<T>` are serialized
identically (same outcome, same buffer). -/
theorem C27_same_output (d : Nat) (c : Cfg) (noFit dc : Bool) (t : Ty) (v : Val) (st : OutSt) :
    outCall d c noFit [(.optPtr t, v)] st = outCall d c noFit [(.optional dc t, v)] st := by
  have : encode d c (.optPtr t) v = encode d c (.optional dc t) v := by cases d <;> rfl
  simp only [outCall, fitCall, encMany, this]

/-! ## Protocol messages -/

/-- C29. A message is written as a size field followed by the body, where the body is exactly what the protocol
produces on its own (for an archive without size field), and the size field is the encoding, in the message's
size type, of the length of the body. -/
theorem C29_length_prefix_partial (d : Nat) (c : Cfg) (noFit ok : Bool) (sz : Option SizeTy) (maps : List (Nat × Nat))
    (nums : List (Option Nat)) (fs : List Ty) (v : Val) (st st' : OutSt) (bs : List UInt8)
    (hpos : st.pos ≤ st.data.length) (hlen : st.data.length < 2 ^ 63)
    (hs : Supported c [(.msg sz ok maps nums fs, v)]) (hd : StackOk d [(.msg sz ok maps nums fs, v)])
    (hb : BitsOk [(.msg sz ok maps nums fs, v)] st)
    (hw : wireItems (fmtOf c) [(.msg sz ok maps nums fs, v)] = some bs)
    (hl : bs.length < 2 ^ 63) (hok : outCall d c noFit [(.msg sz ok maps nums fs, v)] st = (.ok, st')) :
    ∃ p body, (st'.data.take st'.pos).drop st.pos = p ++ body ∧
      wireItems (fmtOf c) [(.msg (some .none) ok maps nums fs, v)] = some body ∧
      sizePrefix (fmtOf c) (sz.getD c.dsz) body.length = some p := by
  rw [C03_wire_format d c noFit _ st st' bs hpos hlen hs hd hb hw hl hok]
  cases v with
  | list vs =>
    simp only [wireItems, wire] at hw
    cases hf : pbFields (fmtOf c).env maps 0 nums fs vs with
    | none => simp [hf, cat] at hw
    | some body =>
      simp only [hf, cat_eq_some] at hw
      obtain ⟨a, b, ⟨p, q, hp, hq, rfl⟩, hb, rfl⟩ := hw
      cases hb; cases hq
      refine ⟨p, body, by simp, ?_, ?_⟩
      · simp [wireItems, wire, hf, msgPrefix, sizePrefix, cat]
      · unfold msgPrefix at hp
        show sizePrefix _ (sz.getD (fmtOf c).dsz) _ = _
        split at hp
        · rename_i hv
          rw [hv]
          split at hp
          · simp only [sizePrefix]
            rw [if_pos (by omega)]; exact hp
          · cases hp
        · exact hp
  | _ => simp [wireItems, wire, wireNum, cat] at hw

/-- The 45 byte message of the project tests behind its one byte length. -/
example : Checks.run (Checks.le Checks.grow .varint) Checks.person Checks.john = (.ok, 45 :: Checks.johnBytes) := by
  decide +kernel

/-- Wire type of a record. -/
def payloadKind : PbPayload → Nat
  | .varint _ => 0
  | .fixed64 _ => 1
  | .len _ => 2
  | .fixed32 _ => 5

/-- Wire type documented for a member type. -/
def kindOf : Ty → Nat
  | .varint _ _ => 0
  | .bool => 0
  | .scalar .enum _ => 0
  | .scalar _ n => if n = 4 then 5 else 1
  | _ => 2

/-- Concatenation of records. -/
def records (rs : List (Nat × PbPayload)) : List UInt8 := (rs.map fun r => pbRecord r.1 r.2).flatten

theorem records_append (a b : List (Nat × PbPayload)) : records (a ++ b) = records a ++ records b := by
  simp [records]

theorem pbLen_records {num : Nat} {p : Option (List UInt8)} {x : List UInt8} (h : pbLen num p = some x) :
    ∃ body, p = some body ∧ x = records [(num, .len body)] := by
  cases p with
  | none => simp [pbLen] at h
  | some body =>
    simp only [pbLen] at h
    split at h <;> cases h
    exact ⟨body, rfl, by simp [records]⟩

theorem pbRepeated_records {env : Nat → Ty} {num : Nat} {t : Ty} {vs : List Val} {x : List UInt8}
    (h : pbRepeated env num t vs = some x) :
    ∃ rs : List (Nat × PbPayload), x = records rs ∧ rs.length = vs.length ∧
      ∀ r ∈ rs, r.1 = num ∧ payloadKind r.2 = 2 := by
  induction vs generalizing x with
  | nil => simp only [pbRepeated, Option.some.injEq] at h; subst h; exact ⟨[], rfl, rfl, nofun⟩
  | cons v vs ih =>
    simp only [pbRepeated, cat_eq_some] at h
    obtain ⟨p, q, hp, hq, rfl⟩ := h
    obtain ⟨rs, rfl, hl, hr⟩ := ih hq
    have : ∃ body, p = records [(num, .len body)] := by
      unfold pbPayload at hp
      split at hp
      · obtain ⟨b, _, e⟩ := pbLen_records hp; exact ⟨b, e⟩
      · split at hp
        · obtain ⟨b, _, e⟩ := pbLen_records hp; exact ⟨b, e⟩
        · cases hp
      · obtain ⟨b, _, e⟩ := pbLen_records hp; exact ⟨b, e⟩
      · cases hp
    obtain ⟨body, rfl⟩ := this
    refine ⟨(num, .len body) :: rs, by simp [records], by simp [hl], ?_⟩
    intro r hr'
    rcases List.mem_cons.mp hr' with e | e
    · subst e; exact ⟨rfl, rfl⟩
    · exact hr r e

theorem pbField_records {env : Nat → Ty} {num : Nat} {t : Ty} {v : Val} {x : List UInt8}
    (h : pbField env num t v = some x) :
    ∃ rs : List (Nat × PbPayload), x = records rs ∧ ∀ r ∈ rs, r.1 = num ∧ payloadKind r.2 = kindOf t := by
  have packed : ∀ t' vs, kindOf t = 2 → pbPackedField env num t' vs = some x →
      ∃ rs : List (Nat × PbPayload), x = records rs ∧ ∀ r ∈ rs, r.1 = num ∧ payloadKind r.2 = kindOf t := by
    intro t' vs hk h
    unfold pbPackedField at h
    split at h
    · cases h; exact ⟨[], rfl, nofun⟩
    · split at h
      · split at h <;> cases h
        exact ⟨[(num, .len _)], by simp [records]; rfl, by simp [payloadKind, hk]⟩
      · cases h
  have rep : ∀ t' vs, kindOf t = 2 → pbRepeated env num t' vs = some x →
      ∃ rs : List (Nat × PbPayload), x = records rs ∧ ∀ r ∈ rs, r.1 = num ∧ payloadKind r.2 = kindOf t := by
    intro t' vs hk h
    obtain ⟨rs, e, _, hr⟩ := pbRepeated_records h
    exact ⟨rs, e, fun r hm => by rw [hk]; exact hr r hm⟩
  unfold pbField at h
  split at h
  · cases h; exact ⟨[], rfl, nofun⟩
  · split at h
    · exact packed _ _ rfl h
    · exact rep _ _ rfl h
  · split at h
    · exact packed _ _ rfl h
    · exact rep _ _ rfl h
  · exact rep _ _ rfl h
  · obtain ⟨b, _, e⟩ := pbLen_records h; exact ⟨_, e, by simp [payloadKind, kindOf]⟩
  · split at h
    · obtain ⟨b, _, e⟩ := pbLen_records h; exact ⟨_, e, by simp [payloadKind, kindOf]⟩
    · cases h
  · unfold pbScalar at h
    split at h <;> first
      | (split at h <;> cases h
         exact ⟨[(num, _)], by simp [records]; rfl, by simp [payloadKind, kindOf]⟩)
      | cases h
  · cases h

/-- One group of records per member, in declaration order. -/
inductive InOrder (env : Nat → Ty) (maps : List (Nat × Nat)) :
    Nat → List (Option Nat) → List Ty → List Val → List (List (Nat × PbPayload)) → Prop
  | nil (i : Nat) : InOrder env maps i [] [] [] []
  | cons {i n ns t ts v vs rs rss} :
      (∀ r ∈ rs, r.1 = fieldNumber maps n i ∧ payloadKind r.2 = kindOf t) →
      pbField env (fieldNumber maps n i) t v = some (records rs) →
      InOrder env maps (i + 1) ns ts vs rss →
      InOrder env maps i (n :: ns) (t :: ts) (v :: vs) (rs :: rss)

theorem pbFields_inOrder {env : Nat → Ty} {maps : List (Nat × Nat)} :
    ∀ (fs : List Ty) (i : Nat) (nums : List (Option Nat)) (vs : List Val) (body : List UInt8),
    pbFields env maps i nums fs vs = some body →
    ∃ rss, InOrder env maps i nums fs vs rss ∧ body = records rss.flatten := by
  intro fs
  induction fs with
  | nil =>
    intro i nums vs body h
    cases nums <;> cases vs <;> simp [pbFields] at h
    subst h
    exact ⟨[], .nil _, rfl⟩
  | cons t ts ih =>
    intro i nums vs body h
    cases nums with
    | nil => simp [pbFields] at h
    | cons n ns =>
      cases vs with
      | nil => simp [pbFields] at h
      | cons v vs =>
        simp only [pbFields, cat_eq_some] at h
        obtain ⟨p, q, hp, hq, rfl⟩ := h
        obtain ⟨rs, rfl, hr⟩ := pbField_records hp
        obtain ⟨rss, h1, rfl⟩ := ih _ _ _ _ hq
        exact ⟨rs :: rss, .cons hr hp h1, by simp [records]⟩

/-- C31. The body of a message, written by any archive without size field, is the concatenation of
well-formed protobuf records, grouped by member in declaration order, each with the declared number and the wire
type of the member's kind, with the payload the specification (`pbField`) prescribes. -/
theorem C31_conforming_partial (d : Nat) (c : Cfg) (noFit ok : Bool) (maps : List (Nat × Nat))
    (nums : List (Option Nat)) (fs : List Ty) (vs : List Val) (st st' : OutSt) (bs : List UInt8)
    (hpos : st.pos ≤ st.data.length) (hlen : st.data.length < 2 ^ 63)
    (hs : Supported c [(.msg (some .none) ok maps nums fs, .list vs)])
    (hd : StackOk d [(.msg (some .none) ok maps nums fs, .list vs)])
    (hb : BitsOk [(.msg (some .none) ok maps nums fs, .list vs)] st)
    (hw : wireItems (fmtOf c) [(.msg (some .none) ok maps nums fs, .list vs)] = some bs)
    (hl : bs.length < 2 ^ 63)
    (hok : outCall d c noFit [(.msg (some .none) ok maps nums fs, .list vs)] st = (.ok, st')) :
    ∃ rss, InOrder c.env maps 0 nums fs vs rss ∧
      (st'.data.take st'.pos).drop st.pos = records rss.flatten := by
  rw [C03_wire_format d c noFit _ st st' bs hpos hlen hs hd hb hw hl hok]
  simp only [wireItems, wire] at hw
  cases hf : pbFields (fmtOf c).env maps 0 nums fs vs with
  | none => simp [hf, cat] at hw
  | some body =>
    obtain ⟨rss, h1, rfl⟩ := pbFields_inOrder fs 0 nums vs body hf
    simp [hf, msgPrefix, sizePrefix, cat] at hw
    exact ⟨rss, h1, hw.symm⟩

example : records [(1, .len Checks.sName), (2, .varint 1234), (3, .len Checks.sMail),
    (4, .len ([0x0a, 0x08] ++ Checks.sPhone ++ [0x10, 0x01]))] = Checks.johnBytes := by decide +kernel

end Zpp.Props
