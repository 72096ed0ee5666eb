import Verif.Proof.OutCall
import Verif.Checks
/-!
# Properties of output archives

`outCall d c noFit items st` is the model of `out(items...)` on the archive state `st` (buffer and position);
`wireItems (fmtOf c) items` is the documented encoding of the items (`Verif/Spec/Wire.lean`), which depends
only on byte order, default size type, class definitions, types and objects.
-/

namespace Zpp.Props
open Zpp Zpp.Spec

/-! ## Fixed buffers -/

/-- C01. Any call on a fixed buffer, with any items, from any position inside the buffer: no undefined
behaviour (in particular no access outside the buffer), the buffer keeps its size, all bytes in front of the
position keep their value, and the position moves forward and stays inside. -/
theorem C01_fixed_buffer_safe (d : Nat) (c : Cfg) (noFit : Bool) (items : List (Ty × Val)) (st : OutSt)
    (hfix : c.g.resizable = false) (hpos : st.pos ≤ st.data.length) (hlen : st.data.length < 2 ^ 63) :
    let r := outCall d c noFit items st
    OutOutcome c.g r.1 ∧ r.1 ≠ .err .noBufferSpace ∧ r.1 ≠ .badAlloc ∧
    r.2.data.length = st.data.length ∧ st.pos ≤ r.2.pos ∧ r.2.pos ≤ r.2.data.length ∧
    r.2.data.take st.pos = st.data.take st.pos ∧ r.2.data.drop r.2.pos = st.data.drop r.2.pos := by
  have hg : GrowthOk c.g := fun h => by rw [hfix] at h; cases h
  have h := outCall_safe d c hg noFit items st ⟨hpos, hlen⟩
  have hl := h.fixed hfix
  refine ⟨?_, ?_, ?_, hl, h.mono, h.inb, h.keep, ?_⟩
  · have := h.code
    generalize (outCall d c noFit items st).1 = s at this
    cases s with
    | err e => cases e <;> simp_all [OutCode, OutOutcome]
    | _ => simp_all [OutCode, OutOutcome]
  · intro he; have := h.code; rw [he] at this; simp [OutCode, hfix] at this
  · intro he; have := h.code; rw [he] at this; simp [OutCode, hfix] at this
  · have := h.tail; simpa [hl] using this

/-- A person with a name and an age, a list of optional numbers, and a variant. -/
def exTy : Ty := .struct true [Checks.str, .scalar .int 4, .seq .vector none (.optional true (.varint 4 true)),
  .variant (.scalar .int 1) [.num 0, .num 1] [true, true] [.bool, .array 2 (.scalar .int 2)]]
def exVal : Val := .list [Checks.strV [65, 66], .num 513, .list [.none, .some (.num 3)],
  .alt 1 (.list [.num 1, .num 2])]
def exBytes : List UInt8 := [2, 0, 0, 0, 65, 66, 1, 2, 0, 0, 2, 0, 0, 0, 0, 1, 6, 1, 1, 0, 2, 0]

example : (Checks.le Checks.fixed (.fixed 4)).g.resizable = false ∧
    outCall 20 (Checks.le Checks.fixed (.fixed 4)) false [(exTy, exVal)] ⟨List.replicate 24 7, 1⟩ =
      (.ok, ⟨7 :: exBytes ++ [7], 23⟩) := by decide +kernel

/-- C02. On a fixed buffer a call whose items have the encoding `bs` succeeds exactly if `bs` fits behind the
position. Then `bs` is written at the position, every other byte of the buffer is unchanged and the position
advances by the length of `bs`. Otherwise the result is `result_out_of_range`. -/
theorem C02_fixed_exact (d : Nat) (c : Cfg) (noFit : Bool) (items : List (Ty × Val)) (st : OutSt)
    (bs : List UInt8) (hfix : c.g.resizable = false) (hpos : st.pos ≤ st.data.length)
    (hlen : st.data.length < 2 ^ 63) (hs : Supported c items) (hd : StackOk d items) (hb : BitsOk items st)
    (hw : wireItems (fmtOf c) items = some bs) (hl : bs.length < 2 ^ 63) :
    (st.pos + bs.length ≤ st.data.length → outCall d c noFit items st =
      (.ok, ⟨st.data.take st.pos ++ bs ++ st.data.drop (st.pos + bs.length), st.pos + bs.length⟩)) ∧
    (st.data.length < st.pos + bs.length → (outCall d c noFit items st).1 = .err .resultOutOfRange) := by
  have h := encMany_result hs hd hw hl hb ⟨hpos, hlen⟩
  have hpl : (st.data.take st.pos).length = st.pos := by simp; omega
  rw [outCall_fixed hfix]
  rcases h with ⟨k, he, hk, hf, _⟩ | ⟨_, he, hlt⟩ | ⟨hr, _⟩ | ⟨hr, _⟩
  · have hk0 := hf hfix
    subst hk0
    rw [he]
    simp only [List.length_drop] at hk
    refine ⟨fun _ => ?_, fun h => by omega⟩
    simp [hpl]
  · simp only [List.length_drop] at hlt
    exact ⟨fun h => by omega, fun _ => he⟩
  · rw [hfix] at hr; cases hr
  · rw [hfix] at hr; cases hr

/-- The static conditions of the theorems hold for the example archives. -/
theorem so_abi : AbiOk Checks.so := by
  refine ⟨?_, rfl, ?_, ?_⟩
  · intro k n hn; show max 1 n = n; omega
  · intro n t hn; show max 1 n * Checks.so t = n * Checks.so t; rw [Nat.max_eq_right hn]
  · intro t
    have : ∀ a b : Nat, 0 < b → 0 < max 1 a * b := fun a b h => Nat.mul_pos (by omega) h
    induction t using Ty.rec (motive_2 := fun _ => True) (motive_3 := fun _ => True) <;>
      first
      | trivial
      | (simp only [Checks.so]; first | omega | (apply this; assumption))

theorem grow_ok : GrowthOk Checks.grow := fun _ => ⟨by decide, by decide, by decide, rfl, by decide⟩

theorem ex_supported (g : Growth) (hg : GrowthOk g) : Supported (Checks.le g (.fixed 4)) [(exTy, exVal)] := by
  refine ⟨hg, so_abi, fun _ => ⟨rfl, rfl⟩, ?_⟩
  intro x hx
  simp only [List.mem_singleton] at hx
  subst hx
  rfl

example : Supported (Checks.le Checks.fixed (.fixed 4)) [(exTy, exVal)] ∧ StackOk 20 [(exTy, exVal)] ∧
    BitsOk [(exTy, exVal)] ⟨List.replicate 24 7, 1⟩ ∧
    wireItems (fmtOf (Checks.le Checks.fixed (.fixed 4))) [(exTy, exVal)] = some exBytes := by
  refine ⟨ex_supported _ nofun, ?_, Or.inl ?_, by decide +kernel⟩
  · intro x hx; simp only [List.mem_singleton] at hx; subst hx; decide
  · intro x hx; simp only [List.mem_singleton] at hx; subst hx; decide

/-! ## Growing buffers -/

/-- C04. A successful call on a growing buffer leaves all bytes in front of the position, puts the encoding at
the position, keeps the old bytes behind the encoding, and every byte added beyond is zero. -/
theorem C04_growing_appends (d : Nat) (c : Cfg) (noFit : Bool) (items : List (Ty × Val)) (st st' : OutSt)
    (bs : List UInt8) (hpos : st.pos ≤ st.data.length) (hlen : st.data.length < 2 ^ 63) (hs : Supported c items)
    (hd : StackOk d items) (hb : BitsOk items st) (hw : wireItems (fmtOf c) items = some bs)
    (hl : bs.length < 2 ^ 63) (hok : outCall d c noFit items st = (.ok, st')) :
    st'.pos = st.pos + bs.length ∧
    ∃ k, st'.data = st.data.take st.pos ++ bs ++ st.data.drop (st.pos + bs.length) ++ List.replicate k 0 := by
  have h := encMany_result hs hd hw hl hb ⟨hpos, hlen⟩
  have hpl : (st.data.take st.pos).length = st.pos := by simp; omega
  have hdrop : ∀ k, ∃ k', ((st.data.drop st.pos ++ List.replicate k (0 : UInt8)).drop bs.length) =
      st.data.drop (st.pos + bs.length) ++ List.replicate k' 0 := by
    intro k
    rw [List.drop_append, List.drop_drop, List.drop_replicate]
    exact ⟨_, rfl⟩
  unfold outCall fitCall at hok
  split at hok
  · rcases h with ⟨k, he, hk, hf, _⟩ | ⟨_, he, _⟩ | ⟨_, he, _⟩ | ⟨_, he, _⟩
    · rw [he] at hok
      simp only at hok
      split at hok
      · split at hok
        · cases hok
        · cases hok
          simp only [hpl]
          refine ⟨trivial, 0, ?_⟩
          rename_i hge _
          simp only [hpl] at hge
          simp only [List.length_drop] at hk
          rw [List.drop_eq_nil_of_le (as := st.data) hge]
          simp only [resizeBytes]
          rw [List.take_append_of_le_length (by simp; omega), List.take_of_length_le (by simp; omega)]
          simp
          omega
      · cases hok
        simp only [hpl]
        refine ⟨trivial, ?_⟩
        obtain ⟨k', hk'⟩ := hdrop k
        exact ⟨k', by rw [hk']; simp⟩
    all_goals
      exfalso
      generalize encMany d c items st = r at he hok
      obtain ⟨s, st1⟩ := r
      simp only at he
      subst he
      simp only at hok
      first
      | (split at hok
         · split at hok <;> cases hok
         · cases hok)
      | cases hok
  · rcases h with ⟨k, he, hk, hf, _⟩ | ⟨_, he, _⟩ | ⟨_, he, _⟩ | ⟨_, he, _⟩
    · rw [he] at hok
      cases hok
      simp only [hpl]
      refine ⟨trivial, ?_⟩
      obtain ⟨k', hk'⟩ := hdrop k
      exact ⟨k', by rw [hk']; simp⟩
    all_goals (rw [hok] at he; cases he)

example : outCall 20 (Checks.le Checks.grow (.fixed 4)) false [(exTy, exVal)] ⟨[9, 9, 9], 2⟩ =
    (.ok, ⟨[9, 9] ++ exBytes, 24⟩) := by decide +kernel

/-- C03. For every buffer kind, growth policy, start position and old content: the bytes between the old and
the new position after a successful call are the documented encoding of the items. -/
theorem C03_wire_format (d : Nat) (c : Cfg) (noFit : Bool) (items : List (Ty × Val)) (st st' : OutSt)
    (bs : List UInt8) (hpos : st.pos ≤ st.data.length) (hlen : st.data.length < 2 ^ 63) (hs : Supported c items)
    (hd : StackOk d items) (hb : BitsOk items st) (hw : wireItems (fmtOf c) items = some bs)
    (hl : bs.length < 2 ^ 63) (hok : outCall d c noFit items st = (.ok, st')) :
    (st'.data.take st'.pos).drop st.pos = bs := by
  obtain ⟨h1, k, h2⟩ := C04_growing_appends d c noFit items st st' bs hpos hlen hs hd hb hw hl hok
  have hpl : (st.data.take st.pos).length = st.pos := by simp; omega
  rw [h1, h2, List.append_assoc, List.take_append_of_le_length (by simp; omega),
    List.take_of_length_le (by simp; omega), List.drop_append_of_le_length (by omega),
    List.drop_eq_nil_of_le (by omega)]
  simp

/-- C03, two archives. The bytes do not depend on anything but the format: two archives of the same format,
whatever their buffers, positions, growth policies, hosts and `sizeof`s, write the same bytes. -/
theorem C03_same_format_same_bytes (d₁ d₂ : Nat) (c₁ c₂ : Cfg) (n₁ n₂ : Bool) (items : List (Ty × Val))
    (a a' b b' : OutSt) (bs : List UInt8) (hfmt : fmtOf c₁ = fmtOf c₂)
    (ha : a.pos ≤ a.data.length) (hal : a.data.length < 2 ^ 63)
    (hb : b.pos ≤ b.data.length) (hbl : b.data.length < 2 ^ 63)
    (hs₁ : Supported c₁ items) (hs₂ : Supported c₂ items) (hd₁ : StackOk d₁ items) (hd₂ : StackOk d₂ items)
    (hba : BitsOk items a) (hbb : BitsOk items b) (hw : wireItems (fmtOf c₁) items = some bs)
    (hl : bs.length < 2 ^ 63) (hok₁ : outCall d₁ c₁ n₁ items a = (.ok, a'))
    (hok₂ : outCall d₂ c₂ n₂ items b = (.ok, b')) :
    (a'.data.take a'.pos).drop a.pos = (b'.data.take b'.pos).drop b.pos := by
  rw [C03_wire_format d₁ c₁ n₁ items a a' bs ha hal hs₁ hd₁ hba hw hl hok₁,
    C03_wire_format d₂ c₂ n₂ items b b' bs hb hbl hs₂ hd₂ hbb (hfmt ▸ hw) hl hok₂]

example : fmtOf (Checks.le Checks.grow (.fixed 4)) = fmtOf (Checks.le Checks.fixed (.fixed 4)) := rfl

/-- C05, weaker than stated: whenever the position reaches the old end of the buffer, a call with fitting
leaves the buffer exactly as long as the position; it never shrinks below its old size. Missing: if the
position stays inside the old buffer but a varint near the end made the buffer grow, the buffer stays
enlarged (`C05_not_fitted`). -/
theorem C05_fitted_partial (d : Nat) (c : Cfg) (items : List (Ty × Val)) (st : OutSt)
    (hg : GrowthLaws c.g) (hr : c.g.resizable = true) (henl : ¬ (c.g.mul = 1 ∧ c.g.div = 1))
    (hpos : st.pos ≤ st.data.length) (hlen : st.data.length < 2 ^ 63) :
    let r := outCall d c false items st
    st.data.length ≤ r.2.data.length ∧ r.2.pos ≤ r.2.data.length ∧
    (st.data.length ≤ r.2.pos → r.1 ≠ .badAlloc → r.2.data.length = r.2.pos) := by
  have h := outCall_safe d c (fun _ => hg) false items st ⟨hpos, hlen⟩
  refine ⟨h.len_ge, h.inb, ?_⟩
  have h' := encMany_safe d c (fun _ => hg) items st ⟨hpos, hlen⟩
  unfold outCall fitCall
  rw [if_pos ⟨hr, rfl, henl⟩]
  generalize encMany d c items st = r at h'
  obtain ⟨s, st'⟩ := r
  have hin := h'.inb
  simp only at hin
  have key : ∀ s : Status, st.data.length ≤ (if st.data.length ≤ st'.pos then
          if st'.data.length < st'.pos ∧ c.g.maxMem < st'.pos then ((.badAlloc, st') : Status × OutSt)
          else (s, { st' with data := resizeBytes st'.data st'.pos }) else (s, st')).2.pos →
      (if st.data.length ≤ st'.pos then
          if st'.data.length < st'.pos ∧ c.g.maxMem < st'.pos then ((.badAlloc, st') : Status × OutSt)
          else (s, { st' with data := resizeBytes st'.data st'.pos }) else (s, st')).2.data.length =
      (if st.data.length ≤ st'.pos then
          if st'.data.length < st'.pos ∧ c.g.maxMem < st'.pos then ((.badAlloc, st') : Status × OutSt)
          else (s, { st' with data := resizeBytes st'.data st'.pos }) else (s, st')).2.pos := by
    intro s
    rw [if_neg (by omega : ¬ (st'.data.length < st'.pos ∧ c.g.maxMem < st'.pos))]
    split
    · intro _; simp [resizeBytes]; omega
    · rename_i hlt; intro h; simp only at h; omega
  cases s <;> simp only
  case badAlloc => intro _ h; exact absurd rfl h
  all_goals exact fun h _ => key _ h

/-- C05 fails in general: one byte varint written one byte before the end of a buffer; the buffer has grown
although the position is just at (here: before) the old end. -/
theorem C05_not_fitted : ∃ (c : Cfg) (items : List (Ty × Val)) (st : OutSt),
    GrowthLaws c.g ∧ c.g.resizable = true ∧ st.pos ≤ st.data.length ∧
    (outCall 20 c false items st).1 = .ok ∧
    (outCall 20 c false items st).2.data.length ≠ max st.data.length (outCall 20 c false items st).2.pos := by
  refine ⟨Checks.le Checks.grow (.fixed 4), [(.varint 4 false, .num 1)], ⟨[0, 0, 0], 0⟩, grow_ok rfl, ?_⟩
  decide +kernel

/-- C06. Serializing encodable items into a growing buffer succeeds, or fails with `no_buffer_space` because
the room up to overflow or the allocation limit is exceeded, or the container throws because the host has no
room. -/
theorem C06_growing_failure_causes (d : Nat) (c : Cfg) (noFit : Bool) (items : List (Ty × Val)) (st : OutSt)
    (bs : List UInt8) (hr : c.g.resizable = true) (hpos : st.pos ≤ st.data.length)
    (hlen : st.data.length < 2 ^ 63) (hs : Supported c items) (hd : StackOk d items) (hb : BitsOk items st)
    (hw : wireItems (fmtOf c) items = some bs) (hl : bs.length < 2 ^ 63) :
    (outCall d c noFit items st).1 = .ok ∨
    ((outCall d c noFit items st).1 = .err .noBufferSpace ∧ ¬ LimitRoom c.g (st.pos + bs.length)) ∨
    ((outCall d c noFit items st).1 = .badAlloc ∧ ¬ MemRoom c.g (st.pos + bs.length)) := by
  have h := encMany_result hs hd hw hl hb ⟨hpos, hlen⟩
  have hsafe := encMany_safe d c hs.growth items st ⟨hpos, hlen⟩
  have hpl : (st.data.take st.pos).length = st.pos := by simp; omega
  simp only [EmitRes, hpl] at h
  have hcode : (encMany d c items st).1 ≠ .badAlloc → (outCall d c noFit items st).1 = (encMany d c items st).1 := by
    intro hne
    unfold outCall fitCall
    split
    · have hin := hsafe.inb
      generalize encMany d c items st = r at *
      obtain ⟨s, st'⟩ := r
      simp only at hin
      have hn : ¬ (st'.data.length < st'.pos ∧ c.g.maxMem < st'.pos) := by omega
      cases s <;> first | exact absurd rfl hne | (simp only; rw [if_neg hn]; split <;> rfl)
    · rfl
  have hbad : (encMany d c items st).1 = .badAlloc → (outCall d c noFit items st).1 = .badAlloc := by
    intro he
    unfold outCall fitCall
    split
    · generalize encMany d c items st = r at *
      obtain ⟨s, st'⟩ := r
      simp only at he
      subst he
      rfl
    · exact he
  rcases h with ⟨k, he, _⟩ | ⟨hf, _⟩ | ⟨_, he, hx⟩ | ⟨_, he, hx⟩
  · left; rw [hcode (by rw [he]; simp), he]
  · rw [hr] at hf; cases hf
  · right; left; exact ⟨by rw [hcode (by rw [he]; simp), he], hx⟩
  · right; right; exact ⟨hbad he, hx⟩

/-- C06, sufficient room. -/
theorem C06_growing_succeeds (d : Nat) (c : Cfg) (noFit : Bool) (items : List (Ty × Val)) (st : OutSt)
    (bs : List UInt8) (hr : c.g.resizable = true) (hpos : st.pos ≤ st.data.length)
    (hlen : st.data.length < 2 ^ 63) (hs : Supported c items) (hd : StackOk d items) (hb : BitsOk items st)
    (hw : wireItems (fmtOf c) items = some bs) (hl : bs.length < 2 ^ 63)
    (hroom : LimitRoom c.g (st.pos + bs.length)) (hmem : MemRoom c.g (st.pos + bs.length)) :
    (outCall d c noFit items st).1 = .ok := by
  rcases C06_growing_failure_causes d c noFit items st bs hr hpos hlen hs hd hb hw hl with h | ⟨_, h⟩ | ⟨_, h⟩
  · exact h
  · exact absurd hroom h
  · exact absurd hmem h

example : LimitRoom Checks.grow (1000 + 22) ∧ MemRoom Checks.grow (1000 + 22) := by
  unfold LimitRoom MemRoom
  refine ⟨⟨?_, ?_⟩, ?_⟩ <;> simp [Checks.grow, sizeMax]

/-- A limit of 5 bytes refuses an object of 4 bytes: `no_buffer_space` (growing by 3/2). -/
example : (outCall 20 (Checks.le { Checks.grow with limit := 5 } (.fixed 4)) false
    [(.scalar .int 4, .num 7)] ⟨[], 0⟩).1 = .err .noBufferSpace := by decide +kernel

theorem reach_inv {d : Nat} {c : Cfg} {noFit : Bool} (hg : GrowthOk c.g) {a b : OutSt} (h : Reach d c noFit a b)
    (hpos : a.pos ≤ a.data.length) (hlen : a.data.length < 2 ^ 63) :
    Valid b ∧ a.data.length ≤ b.data.length ∧ b.data.length ≤ max a.data.length (min c.g.limit c.g.maxMem) ∧
    (c.g.resizable = false → b.data.length = a.data.length) := by
  induction h with
  | init => exact ⟨⟨hpos, hlen⟩, Nat.le_refl _, Nat.le_max_left _ _, fun _ => rfl⟩
  | call items _ ih =>
    obtain ⟨v, i0, i1, i2⟩ := ih
    have s := outCall_safe d c hg noFit items _ v
    refine ⟨s.valid hg v, Nat.le_trans i0 s.len_ge, ?_, fun hf => by rw [s.fixed hf, i2 hf]⟩
    have := s.len_bd
    unfold capOf at this
    omega
  | seek p _ hp ih =>
    obtain ⟨v, i0, i1, i2⟩ := ih
    exact ⟨⟨hp, v.len_lt⟩, i0, i1, i2⟩

/-- C07. Over every history of calls (any items, successful or failing) and repositionings, the buffer is never
longer than the larger of its initial size and the allocation limit; also while a further call is running,
before its final fitting. -/
theorem C07_alloc_limit (d : Nat) (c : Cfg) (noFit : Bool) (a b : OutSt) (hg : GrowthOk c.g)
    (hpos : a.pos ≤ a.data.length) (hlen : a.data.length < 2 ^ 63) (h : Reach d c noFit a b) :
    b.data.length ≤ max a.data.length c.g.limit ∧
    ∀ items, (encMany d c items b).2.data.length ≤ max a.data.length c.g.limit := by
  obtain ⟨v, _, i1, _⟩ := reach_inv hg h hpos hlen
  refine ⟨by omega, fun items => ?_⟩
  have := (encMany_safe d c hg items b v).len_bd
  unfold capOf at this
  omega

example : outCall 20 (Checks.le { Checks.grow with limit := 8 } (.fixed 4)) false
    [(.scalar .int 4, .num 7), (.scalar .int 4, .num 8)] ⟨[], 0⟩ = (.err .noBufferSpace, ⟨[7, 0, 0, 0], 4⟩) := by
  decide +kernel

/-- C08, weaker than stated: the bytes written for bitsets do not depend on the old content if the target
bytes are zero (fresh growing buffers; cleared fixed buffers). Missing: other old content, where the claim is
false (`C08_depends_on_old_content`). -/
theorem C08_bitset_partial (d : Nat) (c : Cfg) (noFit : Bool) (n : Nat) (bits : List Bool) (st st' : OutSt)
    (hg : GrowthOk c.g) (ha : AbiOk c.sizeof) (he : EnvGood c)
    (hpos : st.pos ≤ st.data.length) (hlen : st.data.length < 2 ^ 63)
    (hd : 2 ≤ d) (hn : bits.length = n) (hb : n < 2 ^ 63) (hz : ∀ b ∈ st.data.drop st.pos, b = 0)
    (hok : outCall d c noFit [(.bitset n, .bits bits)] st = (.ok, st')) :
    (st'.data.take st'.pos).drop st.pos = packBits n bits := by
  refine C03_wire_format d c noFit _ st st' _ hpos hlen ⟨hg, ha, he, ?_⟩ ?_ (Or.inr hz) ?_ ?_ hok
  · intro x hx; simp only [List.mem_singleton] at hx; subst hx; rfl
  · intro x hx; simp only [List.mem_singleton] at hx; subst hx; simpa [depth] using hd
  · simp [wireItems, wire, hn, cat]
  · rw [packBits_length]; omega

/-- C08 fails in general: the same bitset written over two different old bytes. -/
theorem C08_depends_on_old_content : ∃ (c : Cfg) (bits : List Bool) (a b : List UInt8),
    a.length = b.length ∧
    outCall 20 c false [(.bitset 4, .bits bits)] ⟨a, 0⟩ = (.ok, ⟨[0x01], 1⟩) ∧
    outCall 20 c false [(.bitset 4, .bits bits)] ⟨b, 0⟩ = (.ok, ⟨[0xff], 1⟩) := by
  refine ⟨Checks.le Checks.fixed (.fixed 4), [true, false, false, false], [0], [0xff], ?_⟩
  decide +kernel

example : packBits 12 [true, false, false, false, false, false, false, false, true, true, false, true] = [1, 11] := by
  decide +kernel

/-! ## Histories, patching, failures -/

/-- C51. A call that fails (or succeeds) never changes a byte in front of the position at its start, and the
archive stays usable: over any further history the position is inside the buffer, and the buffer never
becomes shorter than it was. -/
theorem C51_earlier_output_survives (d : Nat) (c : Cfg) (noFit : Bool) (items : List (Ty × Val)) (st : OutSt)
    (hg : GrowthOk c.g) (hpos : st.pos ≤ st.data.length) (hlen : st.data.length < 2 ^ 63) :
    let r := outCall d c noFit items st
    r.2.data.take st.pos = st.data.take st.pos ∧ st.pos ≤ r.2.pos ∧ r.2.pos ≤ r.2.data.length ∧
    r.2.data.length < 2 ^ 63 ∧ ∀ b, Reach d c noFit r.2 b → b.pos ≤ b.data.length ∧ r.2.data.length ≤ b.data.length := by
  have h := outCall_safe d c hg noFit items st ⟨hpos, hlen⟩
  have hv := h.valid hg ⟨hpos, hlen⟩
  refine ⟨h.keep, h.mono, h.inb, hv.len_lt, fun b hr => ?_⟩
  obtain ⟨v, i0, _⟩ := reach_inv hg hr hv.pos_le hv.len_lt
  exact ⟨v.pos_le, i0⟩

/-- The second item does not fit; the first stays. -/
example : outCall 20 (Checks.le Checks.fixed (.fixed 4)) false [(.scalar .int 2, .num 258), (exTy, exVal)]
    ⟨List.replicate 12 7, 1⟩ = (.err .resultOutOfRange, ⟨[7, 2, 1, 2, 0, 0, 0, 65, 66, 7, 7, 7], 9⟩) := by
  decide +kernel

/-- C45. Rewinding to an earlier position `p` and writing items whose encoding `bs` lies inside what is
already there replaces exactly the bytes `[p, p + |bs|)` and nothing else; the buffer does not get shorter. -/
theorem C45_patch_local (d : Nat) (c : Cfg) (noFit : Bool) (items : List (Ty × Val)) (st st' : OutSt) (p : Nat)
    (bs : List UInt8) (hpb : p + bs.length ≤ st.data.length) (hlen : st.data.length < 2 ^ 63)
    (hs : Supported c items) (hd : StackOk d items) (hb : ∀ x ∈ items, noBits x.2 = true)
    (hw : wireItems (fmtOf c) items = some bs)
    (hok : outCall d c noFit items { st with pos := p } = (.ok, st')) :
    st'.pos = p + bs.length ∧ st'.data.take st.data.length =
      st.data.take p ++ bs ++ st.data.drop (p + bs.length) ∧ st.data.length ≤ st'.data.length := by
  obtain ⟨h1, k, h2⟩ := C04_growing_appends d c noFit items { st with pos := p } st' bs (by simp only; omega) hlen hs hd
    (Or.inl hb) hw (by omega) hok
  simp only at h1 h2
  have hl : (st.data.take p ++ bs ++ st.data.drop (p + bs.length)).length = st.data.length := by
    simp; omega
  refine ⟨h1, ?_, ?_⟩
  · rw [h2, ← hl, List.take_left]
  · rw [h2, List.length_append, hl]; omega

/-- Write a placeholder, the body, then patch the placeholder. -/
example :
    let c := Checks.le Checks.grow (.fixed 4)
    let i4 : Ty := .scalar .int 4
    let s1 := (outCall 20 c false [(i4, .num 0), (exTy, exVal)] ⟨[], 0⟩).2
    let s2 := outCall 20 c false [(i4, .num s1.pos)] { s1 with pos := 0 }
    s2 = (.ok, ⟨[26, 0, 0, 0] ++ exBytes, 4⟩) := by decide +kernel

end Zpp.Props
