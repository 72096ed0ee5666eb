import Verif.Model.Out
import Verif.Spec.Archive
import Verif.Proof.Varint
/-! # Lemmas about the output primitives -/

namespace Zpp
open Spec

theorem resizeBytes_of_ge (data : List UInt8) (n : Nat) (h : data.length ≤ n) :
    resizeBytes data n = data ++ List.replicate (n - data.length) 0 := by
  simp [resizeBytes, List.take_of_length_le h]

/-- Size requested from the container when growing by `add`. -/
def newSize (g : Growth) (size add : Nat) : Nat := (size + add) * g.mul / g.div

theorem OutM.andThen_ok {m1 m2 : OutM} {st st' : OutSt} (h : m1 st = (.ok, st')) :
    m1.andThen m2 st = m2 st' := by
  simp only [OutM.andThen, h]

theorem OutM.andThen_ne {m1 m2 : OutM} {st : OutSt} (h : (m1 st).1 ≠ .ok) :
    m1.andThen m2 st = m1 st := by
  unfold OutM.andThen
  split
  · rename_i st' e; rw [e] at h; exact absurd rfl h
  · rfl

theorem wrap_of_lt {n : Nat} (h : n < 2 ^ 64) : wrap n = n := Nat.mod_eq_of_lt h

theorem wrap_mul_div_ne {r m : Nat} (hm : m < 2 ^ 64) (hm0 : 0 < m)
    (h : 2 ^ 64 ≤ r * m) : wrap (r * m) / m ≠ r := by
  intro he
  unfold wrap at he
  have h1 : r * m % 2 ^ 64 < r * m := Nat.lt_of_lt_of_le (Nat.mod_lt _ (by omega)) h
  have h2 : r * m % 2 ^ 64 ≤ r * m - 2 ^ 64 := by
    have : r * m % 2 ^ 64 = (r * m - 2 ^ 64) % 2 ^ 64 := Nat.mod_eq_sub_mod h
    rw [this]; exact Nat.mod_le _ _
  have h3 : r * m % 2 ^ 64 + m ≤ r * m := by omega
  have h4 : (r * m % 2 ^ 64) / m < r := by
    rw [Nat.div_lt_iff_lt_mul hm0]; omega
  omega

/-- What growing does. -/
theorem enlargeFor_spec (g : Growth) (hg : GrowthLaws g) (add : Nat) (st : OutSt) (hv : Valid st)
    (ha : add < 2 ^ 63) :
    (add ≤ st.data.length - st.pos ∧ enlargeFor g add st = (.ok, st)) ∨
    (st.data.length - st.pos < add ∧
      ((enlargeFor g add st = (.err .noBufferSpace, st) ∧
          (2 ^ 64 ≤ (st.data.length + add) * g.mul ∨ g.limit < newSize g st.data.length add)) ∨
       (enlargeFor g add st = (.badAlloc, st) ∧ g.maxMem < newSize g st.data.length add) ∨
       (enlargeFor g add st =
          (.ok, { st with data := st.data ++
            List.replicate (newSize g st.data.length add - st.data.length) 0 }) ∧
          st.data.length + add ≤ newSize g st.data.length add ∧
          (g.limit = sizeMax ∨ newSize g st.data.length add ≤ g.limit) ∧
          newSize g st.data.length add ≤ g.maxMem))) := by
  obtain ⟨h1, h2⟩ := hv
  obtain ⟨hd, hdm, hm, hno, hmm⟩ := hg
  have hsub := subSz_of_le h1
  by_cases hlt : st.data.length - st.pos < add
  case neg =>
    left
    refine ⟨by omega, ?_⟩
    simp only [enlargeFor, hsub, if_neg hlt]
  right
  refine ⟨hlt, ?_⟩
  have hreq : wrap (st.data.length + add) = st.data.length + add := wrap_of_lt (by omega)
  have hm0 : 0 < g.mul := by omega
  by_cases hov : 2 ^ 64 ≤ (st.data.length + add) * g.mul
  · left
    refine ⟨?_, Or.inl hov⟩
    have hne : g.mul ≠ 1 := by intro h; rw [h] at hov; omega
    have := wrap_mul_div_ne (r := st.data.length + add) (m := g.mul) hm hm0 hov
    simp only [enlargeFor, hsub, if_pos hlt, hreq, hno]
    rw [if_neg (by omega), if_neg hne, if_pos ⟨hne, by simp, this⟩]
  · have hlt64 : (st.data.length + add) * g.mul < 2 ^ 64 := by omega
    have hw : wrap ((st.data.length + add) * g.mul) = (st.data.length + add) * g.mul := wrap_of_lt hlt64
    have hn0 : (if g.mul = 1 then st.data.length + add else wrap ((st.data.length + add) * g.mul))
        = (st.data.length + add) * g.mul := by
      split
      · rename_i h; rw [h]; omega
      · exact hw
    have hn1 : (if g.div = 1 then (st.data.length + add) * g.mul
        else (st.data.length + add) * g.mul / g.div) = newSize g st.data.length add := by
      unfold newSize
      split
      · rename_i h; rw [h]; omega
      · rfl
    have hge : st.data.length + add ≤ newSize g st.data.length add := by
      unfold newSize
      rw [Nat.le_div_iff_mul_le hd]
      exact Nat.mul_le_mul_left _ hdm
    have hns : newSize g st.data.length add < 2 ^ 64 :=
      Nat.lt_of_le_of_lt (Nat.div_le_self _ _) hlt64
    have hdiv : (st.data.length + add) * g.mul / g.mul = st.data.length + add :=
      Nat.mul_div_cancel _ hm0
    simp only [enlargeFor, hsub, if_pos hlt, hreq, hno, hn0, hn1, hdiv]
    rw [if_neg (by omega), if_neg (by simp)]
    by_cases hlim : g.limit ≠ sizeMax ∧ g.limit < newSize g st.data.length add
    · left
      exact ⟨by rw [if_pos hlim], Or.inr hlim.2⟩
    · rw [if_neg hlim]
      by_cases hmem : g.maxMem < newSize g st.data.length add
      · right; left
        exact ⟨by rw [if_pos hmem], hmem⟩
      · right; right
        rw [if_neg hmem, resizeBytes_of_ge _ _ (by omega)]
        refine ⟨rfl, hge, ?_, by omega⟩
        by_cases h : g.limit = sizeMax
        · exact Or.inl h
        · right; exact Nat.le_of_not_lt fun h' => hlim ⟨h, h'⟩

/-! ## Safety -/

/-- Upper bound of the buffer after growing. -/
def capOf (g : Growth) : Nat := min g.limit g.maxMem

/-- Outcomes an output operation may have. -/
def OutCode (g : Growth) (len : Nat) : Status → Prop
  | .ok => True
  | .stack => True
  | .illFormed => True
  | .err .invalidArgument => True
  | .err .resultOutOfRange => g.resizable = false ∨ 2 ^ 56 ≤ len
  | .err .noBufferSpace => g.resizable = true
  | .badAlloc => g.resizable = true
  | _ => False

/-- Facts that hold after any output operation, successful or not. -/
structure SafeStep (g : Growth) (st : OutSt) (r : Status × OutSt) : Prop where
  code : OutCode g r.2.pos r.1
  mono : st.pos ≤ r.2.pos
  inb : r.2.pos ≤ r.2.data.length
  keep : r.2.data.take st.pos = st.data.take st.pos
  len_ge : st.data.length ≤ r.2.data.length
  len_bd : r.2.data.length ≤ max st.data.length (capOf g)
  fixed : g.resizable = false → r.2.data.length = st.data.length
  tail : r.2.data.drop r.2.pos =
    (st.data ++ List.replicate (r.2.data.length - st.data.length) 0).drop r.2.pos

/-- Safe from every valid state. -/
def SafeOut (g : Growth) (m : OutM) : Prop := ∀ st, Valid st → SafeStep g st (m st)

theorem OutCode.mono {g : Growth} {a b : Nat} (h : a ≤ b) {s : Status} (hs : OutCode g a s) :
    OutCode g b s := by
  cases s with
  | err e =>
    cases e <;> simp_all [OutCode]
    rcases hs with h' | h'
    · exact Or.inl h'
    · right; omega
  | _ => simp_all [OutCode]

theorem SafeStep.valid {g : Growth} (hg : GrowthOk g) {st : OutSt} {r} (h : SafeStep g st r)
    (hv : Valid st) : Valid r.2 := by
  refine ⟨h.inb, ?_⟩
  have h1 := h.len_bd
  have h2 := hv.len_lt
  cases hr : g.resizable with
  | false => rw [h.fixed hr]; exact h2
  | true =>
    have h3 := (hg hr).maxMem
    unfold capOf at h1
    omega

theorem SafeStep.refl {g : Growth} {st : OutSt} (hv : Valid st) {s : Status}
    (hs : OutCode g st.pos s) : SafeStep g st (s, st) :=
  ⟨hs, Nat.le_refl _, hv.pos_le, rfl, Nat.le_refl _, Nat.le_max_left _ _, fun _ => rfl, by simp⟩

theorem SafeStep.trans {g : Growth} {st : OutSt} {r1 r2 : Status × OutSt}
    (h1 : SafeStep g st r1) (h2 : SafeStep g r1.2 r2) : SafeStep g st r2 := by
  refine ⟨h2.code, Nat.le_trans h1.mono h2.mono, h2.inb, ?_, Nat.le_trans h1.len_ge h2.len_ge, ?_, ?_, ?_⟩
  · have e1 := congrArg (List.take st.pos) h2.keep
    rw [List.take_take, List.take_take, Nat.min_eq_left h1.mono] at e1
    rw [e1, h1.keep]
  · have a := h1.len_bd
    have b := h2.len_bd
    omega
  · intro hf; rw [h2.fixed hf, h1.fixed hf]
  · rw [h2.tail]
    have e : r2.2.pos = r1.2.pos + (r2.2.pos - r1.2.pos) := by have := h2.mono; omega
    have l1 := h1.len_ge
    have l2 := h2.len_ge
    have i1 := h1.inb
    have key : (r1.2.data ++ List.replicate (r2.2.data.length - r1.2.data.length) (0:UInt8)).drop r1.2.pos
        = (st.data ++ List.replicate (r2.2.data.length - st.data.length) 0).drop r1.2.pos := by
      rw [List.drop_append_of_le_length i1, h1.tail]
      have : List.replicate (r2.2.data.length - st.data.length) (0:UInt8) =
          List.replicate (r1.2.data.length - st.data.length) 0 ++
          List.replicate (r2.2.data.length - r1.2.data.length) 0 := by
        rw [List.replicate_append_replicate]; congr 1; omega
      rw [this, ← List.append_assoc, List.drop_append_of_le_length (l₁ := st.data ++ _)]
      simp; omega
    have := congrArg (List.drop (r2.2.pos - r1.2.pos)) key
    rw [List.drop_drop, List.drop_drop, ← e] at this
    exact this

theorem SafeOut.andThen {g : Growth} (hg : GrowthOk g) {a b : OutM} (ha : SafeOut g a) (hb : SafeOut g b) :
    SafeOut g (a.andThen b) := by
  intro st hv
  have h1 := ha st hv
  unfold OutM.andThen
  split
  · rename_i st' he
    rw [he] at h1
    exact SafeStep.trans h1 (hb st' (h1.valid hg hv))
  · exact h1

theorem SafeOut.skip (g : Growth) : SafeOut g OutM.skip := fun _ hv => .refl hv trivial

theorem SafeOut.fail (g : Growth) {s : Status} (hs : ∀ n, OutCode g n s) : SafeOut g (OutM.fail s) :=
  fun _ hv => .refl hv (hs _)

/-- Growing. -/
theorem enlargeFor_safe {g : Growth} (hg : GrowthOk g) (hr : g.resizable = true) (n : Nat) (hn : n < 2 ^ 63)
    (st : OutSt) (hv : Valid st) :
    SafeStep g st (enlargeFor g n st) ∧ (enlargeFor g n st).2.pos = st.pos ∧
    ((enlargeFor g n st).1 = .ok → st.pos + n ≤ (enlargeFor g n st).2.data.length) := by
  have hp := hv.pos_le
  rcases enlargeFor_spec g (hg hr) n st hv hn with ⟨h, e⟩ | ⟨h, ⟨e, _⟩ | ⟨e, _⟩ | ⟨e, h1, h2, h3⟩⟩ <;> rw [e]
  · exact ⟨.refl hv trivial, rfl, fun _ => by simp; omega⟩
  · exact ⟨.refl hv hr, rfl, nofun⟩
  · exact ⟨.refl hv hr, rfl, nofun⟩
  · refine ⟨⟨trivial, Nat.le_refl _, ?_, ?_, ?_, ?_, ?_, ?_⟩, rfl, ?_⟩
    · simp; omega
    · simp [List.take_append_of_le_length hp]
    · simp
    · simp
      unfold capOf
      have : g.limit = sizeMax → newSize g st.data.length n ≤ g.limit := by
        intro he; rw [he]; unfold sizeMax; have := (hg hr).maxMem; omega
      omega
    · simp [hr]
    · simp
    · intro _; simp; omega

theorem claim_safe {g : Growth} (hg : GrowthOk g) (n : Nat) (st : OutSt) (hv : Valid st) :
    SafeStep g st (claim g n st) ∧ (claim g n st).2.pos = st.pos ∧
    ((claim g n st).1 = .ok → st.pos + n ≤ (claim g n st).2.data.length) := by
  have hp := hv.pos_le
  unfold claim
  split
  · exact ⟨.refl hv trivial, rfl, nofun⟩
  · split
    · rename_i h1 h2
      exact enlargeFor_safe hg h2 n (by omega) st hv
    · rename_i h1 h2
      rw [subSz_of_le hp]
      split
      · exact ⟨.refl hv (Or.inl (by simpa using h2)), rfl, nofun⟩
      · exact ⟨.refl hv trivial, rfl, fun _ => by simp; omega⟩

theorem memcpyAt_eq {st : OutSt} {bs : List UInt8} (h : st.pos + bs.length ≤ st.data.length) :
    memcpyAt bs st = (.ok, { data := st.data.take st.pos ++ bs ++ st.data.drop (st.pos + bs.length),
                             pos := st.pos + bs.length }) := by
  simp [memcpyAt, h]

theorem memcpyAt_safe {g : Growth} {st : OutSt} {bs : List UInt8}
    (h : st.pos + bs.length ≤ st.data.length) : SafeStep g st (memcpyAt bs st) := by
  rw [memcpyAt_eq h]
  have hl : (st.data.take st.pos ++ bs ++ st.data.drop (st.pos + bs.length)).length = st.data.length := by
    simp; omega
  refine ⟨trivial, by simp, ?_, ?_, ?_, ?_, ?_, ?_⟩
  · simp only [hl]; exact h
  · simp only [List.append_assoc]
    rw [List.take_append_of_le_length (by simp; omega), List.take_take, Nat.min_self]
  · simp only [hl]; exact Nat.le_refl _
  · simp only [hl]; exact Nat.le_max_left _ _
  · intro _; exact hl
  · simp only [hl, Nat.sub_self, List.replicate_zero, List.append_nil]
    rw [List.drop_append]
    have : (st.data.take st.pos ++ bs).length = st.pos + bs.length := by simp; omega
    rw [List.drop_eq_nil_of_le (by omega), this]
    simp

/-- Claim followed by a write of at most the claimed number of bytes. -/
theorem claim_then {g : Growth} (hg : GrowthOk g) {n : Nat} {m : OutM}
    (hm : ∀ st, Valid st → st.pos + n ≤ st.data.length → SafeStep g st (m st)) :
    SafeOut g ((claim g n).andThen m) := by
  intro st hv
  obtain ⟨h1, h2, h3⟩ := claim_safe hg n st hv
  unfold OutM.andThen
  split
  · rename_i st' he
    rw [he] at h1 h2 h3
    exact h1.trans (hm st' (h1.valid hg hv) (by have := h3 rfl; simp only at h2 this; omega))
  · exact h1

theorem put_safe {g : Growth} (hg : GrowthOk g) (bs : List UInt8) : SafeOut g (put g bs) :=
  claim_then hg fun _ _ h => memcpyAt_safe h

theorem putBytes_safe {g : Growth} (hg : GrowthOk g) (bs : List UInt8) : SafeOut g (putBytes g bs) := by
  unfold putBytes; split
  · exact SafeOut.skip g
  · exact put_safe hg bs

theorem putVarint_safe {g : Growth} (hg : GrowthOk g) {n value : Nat} (hn : 0 < n) (hmx : n < 2 ^ 60)
    (hv : value < 2 ^ (8 * n)) : SafeOut g (putVarint g n value) := by
  intro st hst
  have hp := hst.pos_le
  have hlen := varintBytes_length_le_max n value hv
  have hsz := varintSize_eq_length n value hn hv
  unfold putVarint
  split
  · rename_i hr
    obtain ⟨h1, h2, h3⟩ := enlargeFor_safe hg hr (varintMaxSize n) (by unfold varintMaxSize; omega) st hst
    unfold OutM.andThen
    split
    · rename_i st' he
      rw [he] at h1 h2 h3
      refine h1.trans (memcpyAt_safe ?_)
      have := h3 rfl
      simp only at this h2 ⊢
      omega
    · exact h1
  · rename_i hr
    rw [if_neg (by omega)]
    split
    · exact .refl hst (Or.inl (by simpa using hr))
    · apply memcpyAt_safe; omega

/-! ## Exact effect -/

theorem Spec.LimitRoom.mono {g : Growth} {a b : Nat} (h : a ≤ b) (hb : LimitRoom g b) : LimitRoom g a := by
  have : 2 * (a + 10) * g.mul ≤ 2 * (b + 10) * g.mul := Nat.mul_le_mul_right _ (by omega)
  exact ⟨Nat.lt_of_le_of_lt this hb.1, Nat.le_trans (Nat.div_le_div_right this) hb.2⟩

theorem Spec.MemRoom.mono {g : Growth} {a b : Nat} (h : a ≤ b) (hb : MemRoom g b) : MemRoom g a := by
  have : 2 * (a + 10) * g.mul ≤ 2 * (b + 10) * g.mul := Nat.mul_le_mul_right _ (by omega)
  exact Nat.le_trans (Nat.div_le_div_right this) hb

/-- All bytes are zero. -/
def AllZero (bs : List UInt8) : Prop := ∀ b ∈ bs, b = 0

/-- Result of emitting `bs` at the end of `pre` into a buffer whose remaining bytes are `rest`. -/
def EmitRes (g : Growth) (bs pre rest : List UInt8) (r : Status × OutSt) : Prop :=
  (∃ k, r = (.ok, ⟨pre ++ bs ++ (rest ++ List.replicate k 0).drop bs.length, pre.length + bs.length⟩) ∧
      bs.length ≤ rest.length + k ∧ (g.resizable = false → k = 0) ∧ rest.length + pre.length + k < 2 ^ 63) ∨
  (g.resizable = false ∧ r.1 = .err .resultOutOfRange ∧ rest.length < bs.length) ∨
  (g.resizable = true ∧ r.1 = .err .noBufferSpace ∧ ¬ LimitRoom g (pre.length + bs.length)) ∨
  (g.resizable = true ∧ r.1 = .badAlloc ∧ ¬ MemRoom g (pre.length + bs.length))

/-- `m` writes exactly `bs`, or fails because there is no room. With `z`, only on zeroed buffers. -/
def Emits (g : Growth) (z : Bool) (bs : List UInt8) (m : OutM) : Prop :=
  ∀ pre rest : List UInt8, (z = true → AllZero rest) → pre.length + rest.length < 2 ^ 63 →
    EmitRes g bs pre rest (m ⟨pre ++ rest, pre.length⟩)

theorem Emits.skip (g : Growth) (z : Bool) : Emits g z [] OutM.skip := by
  intro pre rest _ hl
  left
  exact ⟨0, by simp [OutM.skip], by simp, fun _ => rfl, by omega⟩

theorem AllZero.rest {rest : List UInt8} (h : AllZero rest) (k n : Nat) :
    AllZero ((rest ++ List.replicate k 0).drop n) := by
  intro b hb
  have := List.mem_of_mem_drop hb
  rcases List.mem_append.mp this with h' | h'
  · exact h b h'
  · exact List.eq_of_mem_replicate h'

theorem Emits.andThen {g : Growth} {z : Bool} {b1 b2 : List UInt8} {m1 m2 : OutM}
    (h1 : Emits g z b1 m1) (h2 : Emits g z b2 m2) : Emits g z (b1 ++ b2) (m1.andThen m2) := by
  intro pre rest hz hl
  have h := h1 pre rest hz hl
  rcases h with ⟨k, he, hk, hf, hb⟩ | ⟨hr, he, hlt⟩ | ⟨hr, he, hlt⟩ | ⟨hr, he, hlt⟩
  · rw [OutM.andThen_ok he]
    have hlen : ((rest ++ List.replicate k 0).drop b1.length).length = rest.length + k - b1.length := by
      simp
    have h' := h2 (pre ++ b1) ((rest ++ List.replicate k 0).drop b1.length)
      (fun hz' => (hz hz').rest k _) (by rw [hlen]; simp; omega)
    rw [List.length_append] at h'
    rcases h' with ⟨k2, he2, hk2, hf2, hb2⟩ | ⟨hr, he2, hlt⟩ | ⟨hr, he2, hlt⟩ | ⟨hr, he2, hlt⟩
    · left
      refine ⟨k + k2, ?_, ?_, ?_, ?_⟩
      · rw [he2]
        simp only [Prod.mk.injEq, OutSt.mk.injEq, true_and, List.length_append]
        refine ⟨?_, by omega⟩
        rw [← List.replicate_append_replicate, ← List.drop_drop]
        rw [← List.append_assoc rest, List.drop_append_of_le_length (l₁ := rest ++ _) (by simp; omega)]
        simp [List.append_assoc]
      · rw [hlen] at hk2; simp; omega
      · intro hf'; rw [hf hf', hf2 hf']
      · rw [hlen, List.length_append] at hb2; omega
    · right; left
      refine ⟨hr, he2, ?_⟩
      rw [hlen] at hlt; simp; have := hf hr; omega
    · right; right; left
      refine ⟨hr, he2, ?_⟩
      rw [List.length_append] at hlt ⊢
      rw [← Nat.add_assoc]; exact hlt
    · right; right; right
      refine ⟨hr, he2, ?_⟩
      rw [List.length_append] at hlt ⊢
      rw [← Nat.add_assoc]; exact hlt
  · rw [OutM.andThen_ne (by rw [he]; simp)]
    right; left
    exact ⟨hr, he, by simp; omega⟩
  · rw [OutM.andThen_ne (by rw [he]; simp)]
    right; right; left
    exact ⟨hr, he, fun hh => hlt (hh.mono (by simp))⟩
  · rw [OutM.andThen_ne (by rw [he]; simp)]
    right; right; right
    exact ⟨hr, he, fun hh => hlt (hh.mono (by simp))⟩

/-- Exact effect of growing by `add`, when the eventual total is at least `N ≥ |pre|` and
`add ≤ N - |pre| + 10`. -/
theorem enlargeFor_emit {g : Growth} (hg : GrowthLaws g) {add N : Nat} (pre rest : List UInt8)
    (hl : pre.length + rest.length < 2 ^ 63) (ha : add < 2 ^ 63)
    (haN : pre.length + add ≤ N + 10) :
    (∃ k, enlargeFor g add ⟨pre ++ rest, pre.length⟩ = (.ok, ⟨pre ++ (rest ++ List.replicate k 0), pre.length⟩) ∧
      add ≤ rest.length + k ∧ rest.length + pre.length + k < 2 ^ 63) ∨
    ((enlargeFor g add ⟨pre ++ rest, pre.length⟩).1 = .err .noBufferSpace ∧ ¬ LimitRoom g N) ∨
    ((enlargeFor g add ⟨pre ++ rest, pre.length⟩).1 = .badAlloc ∧ ¬ MemRoom g N) := by
  have hv : Valid ⟨pre ++ rest, pre.length⟩ := ⟨by simp, by simp; omega⟩
  have hd := hg.div_pos
  have hsz : ∀ h : rest.length < add, (pre.length + rest.length + add) * g.mul ≤ 2 * (N + 10) * g.mul :=
    fun h => Nat.mul_le_mul_right _ (by omega)
  rcases enlargeFor_spec g hg add _ hv ha with ⟨h, e⟩ | ⟨h, ⟨e, hc⟩ | ⟨e, hc⟩ | ⟨e, h1, h2, h3⟩⟩ <;>
    rw [e] <;> simp only [List.length_append, Nat.add_sub_cancel_left] at *
  · left; exact ⟨0, by simp, by omega, by omega⟩
  · right; left
    refine ⟨trivial, fun hroom => ?_⟩
    have := hsz h
    rcases hc with hc | hc
    · have := hroom.1; omega
    · have h4 : newSize g (pre.length + rest.length) add ≤ 2 * (N + 10) * g.mul / g.div :=
        Nat.div_le_div_right this
      have := hroom.2; omega
  · right; right
    refine ⟨trivial, fun hroom => ?_⟩
    have := hsz h
    have h4 : newSize g (pre.length + rest.length) add ≤ 2 * (N + 10) * g.mul / g.div :=
      Nat.div_le_div_right this
    unfold MemRoom at hroom; omega
  · left
    refine ⟨newSize g (pre.length + rest.length) add - (pre.length + rest.length), ?_, by omega, ?_⟩
    · simp [List.append_assoc]
    · have := hg.maxMem; omega

theorem memcpyAt_append (pre r bs : List UInt8) (h : bs.length ≤ r.length) :
    memcpyAt bs ⟨pre ++ r, pre.length⟩ = (.ok, ⟨pre ++ bs ++ r.drop bs.length, pre.length + bs.length⟩) := by
  rw [memcpyAt_eq (by simp; omega)]
  simp

/-- Claim `n` bytes, then do something that writes exactly `bs` given `n` free bytes. -/
theorem Emits.claim {g : Growth} (hg : GrowthOk g) {z : Bool} {n : Nat} {bs : List UInt8} {m : OutM}
    (hn : n = bs.length) (hlt : n < 2 ^ 63)
    (hm : ∀ pre r : List UInt8, (z = true → AllZero r) → bs.length ≤ r.length →
      m ⟨pre ++ r, pre.length⟩ = (.ok, ⟨pre ++ bs ++ r.drop bs.length, pre.length + bs.length⟩)) :
    Emits g z bs ((claim g n).andThen m) := by
  subst hn
  intro pre rest hz hl
  unfold OutM.andThen Zpp.claim
  rw [if_neg (by omega)]
  cases hr : g.resizable with
  | false =>
    simp only [Bool.false_eq_true, if_false, List.length_append]
    rw [subSz_of_le (by omega)]
    split
    · rename_i st' he
      split at he
      · cases he
      · cases he
        left
        refine ⟨0, ?_, by omega, fun _ => rfl, by omega⟩
        rw [hm _ _ hz (by omega)]; simp
    · rename_i hne
      split at hne
      · rename_i hlt'
        rw [if_pos hlt']
        right; left
        exact ⟨hr, rfl, by omega⟩
      · exact absurd rfl (hne _)
  | true =>
    simp only [if_true]
    rcases enlargeFor_emit (hg hr) (add := bs.length) (N := pre.length + bs.length) pre rest hl hlt
      (by omega) with ⟨k, he, hk, hb⟩ | ⟨he, hlim⟩ | ⟨he, hmem⟩
    · rw [he]
      left
      refine ⟨k, ?_, hk, fun h => (by rw [hr] at h; cases h), hb⟩
      simp only
      rw [hm pre (rest ++ List.replicate k 0) (fun hz' => by simpa using (hz hz').rest k 0)
        (by simp; omega)]
    · have hne : (enlargeFor g bs.length ⟨pre ++ rest, pre.length⟩).1 ≠ .ok := by rw [he]; simp
      right; right; left
      refine ⟨hr, ?_, hlim⟩
      split
      · rename_i st' e; rw [e] at he; cases he
      · exact he
    · right; right; right
      refine ⟨hr, ?_, hmem⟩
      split
      · rename_i st' e; rw [e] at he; cases he
      · exact he

theorem put_emits {g : Growth} (hg : GrowthOk g) (z : Bool) (bs : List UInt8) (h : bs.length < 2 ^ 63) :
    Emits g z bs (put g bs) :=
  Emits.claim hg rfl h fun pre r _ hle => memcpyAt_append pre r bs hle

theorem putBytes_emits {g : Growth} (hg : GrowthOk g) (z : Bool) (bs : List UInt8) (h : bs.length < 2 ^ 63) :
    Emits g z bs (putBytes g bs) := by
  unfold putBytes
  split
  · rename_i h0
    rw [List.length_eq_zero_iff.mp h0]; exact Emits.skip g z
  · exact put_emits hg z bs h

theorem putVarint_emits {g : Growth} (hg : GrowthOk g) (z : Bool) {n value : Nat} (hn : IntWidth n)
    (hv : value < 2 ^ (8 * n)) : Emits g z (varintBytes value) (putVarint g n value) := by
  have hn0 : 0 < n := by rcases hn with h | h | h | h <;> omega
  have hmx : varintMaxSize n ≤ 10 := by rcases hn with h | h | h | h <;> subst h <;> decide
  have hlen := varintBytes_length_le_max n value hv
  have hpos := varintBytes_length_pos value
  have hsz := varintSize_eq_length n value hn0 hv
  intro pre rest hz hl
  unfold putVarint
  cases hr : g.resizable with
  | false =>
    simp only [Bool.false_eq_true, if_false, List.length_append, Nat.add_sub_cancel_left]
    rw [if_neg (by omega)]
    split
    · right; left; exact ⟨hr, rfl, by omega⟩
    · left
      refine ⟨0, ?_, by omega, fun _ => rfl, by omega⟩
      rw [memcpyAt_append _ _ _ (by omega)]; simp
  | true =>
    simp only [if_true, OutM.andThen]
    rcases enlargeFor_emit (hg hr) (add := varintMaxSize n) (N := pre.length + (varintBytes value).length)
      pre rest hl (by omega) (by omega) with ⟨k, he, hk, hb⟩ | ⟨he, hlim⟩ | ⟨he, hmem⟩
    · rw [he]
      left
      refine ⟨k, ?_, by omega, fun h => (by rw [hr] at h; cases h), hb⟩
      simp only
      rw [memcpyAt_append _ _ _ (by simp; omega)]
    · right; right; left
      refine ⟨hr, ?_, hlim⟩
      split
      · rename_i st' e; rw [e] at he; cases he
      · exact he
    · right; right; right
      refine ⟨hr, ?_, hmem⟩
      split
      · rename_i st' e; rw [e] at he; cases he
      · exact he

end Zpp
