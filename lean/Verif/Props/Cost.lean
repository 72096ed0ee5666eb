import Verif.Props.Exact
/-!
# Cost of growing

`resize` of the buffer value-initializes the bytes it adds. During one call the buffer is only ever enlarged
(zpp_bits.h:1999), so the bytes added by all `resize` calls of one call are the difference between the sizes of the buffer
before the call and after its last item, before the buffer is fitted (2450).
-/

namespace Zpp.Props
open Zpp Zpp.Spec

/-- The bytes that all calls of `resize` during one call of the archive add to the buffer. -/
def filled (d : Nat) (c : Cfg) (items : List (Ty × Val)) (st : OutSt) : Nat :=
  (encMany d c items st).2.data.length - st.data.length

/-- The bytes added to the buffer, in all, during a history of calls. -/
def work (d : Nat) (c : Cfg) : List (Bool × List (Ty × Val)) → OutSt → Nat
  | [], _ => 0
  | (noFit, items) :: rest, st => filled d c items st + work d c rest (outCall d c noFit items st).2

/-- C68, one call. A single call that writes `n` bytes in all adds at most a constant factor of them to the buffer, however
many objects it has. -/
theorem C68_call (d : Nat) (c : Cfg) (items : List (Ty × Val)) (st : OutSt) (hg : GrowthLaws c.g)
    (hpos : st.pos ≤ st.data.length) (hlen : st.data.length < 2 ^ 63) (noFit : Bool) :
    filled d c items st ≤ 2 * ((outCall d c noFit items st).2.pos + 9) * c.g.mul / c.g.div := by
  have h1 := encMany_near d c (fun _ => hg) track_linear items st ⟨hpos, hlen⟩
  rw [(outCall_state (d := d) (fun _ => hg) noFit items ⟨hpos, hlen⟩).1]
  simp only [filled] at h1 ⊢
  generalize 2 * ((encMany d c items st).2.pos + 9) * c.g.mul / c.g.div = b at *
  omega

/-- C68, archives that do not fit the buffer (`no_fit_size`, or `exact_enlarger`). After any history of calls with any
outcomes, all calls together have added only the difference of the sizes of the buffer, which is at most a constant factor
of the data written. -/
theorem C68_linear_partial (d : Nat) (c : Cfg) (calls : List (Bool × List (Ty × Val))) (st : OutSt)
    (hfit : (∀ x ∈ calls, x.1 = true) ∨ (c.g.mul = 1 ∧ c.g.div = 1))
    (hg : GrowthLaws c.g) (hpos : st.pos ≤ st.data.length) (hlen : st.data.length < 2 ^ 63) :
    st.data.length + work d c calls st = (callAll d c calls st).data.length ∧
    work d c calls st ≤ 2 * ((callAll d c calls st).pos + 9) * c.g.mul / c.g.div := by
  have key : ∀ (calls : List (Bool × List (Ty × Val))) (st : OutSt), Valid st →
      ((∀ x ∈ calls, x.1 = true) ∨ (c.g.mul = 1 ∧ c.g.div = 1)) →
      st.data.length + work d c calls st = (callAll d c calls st).data.length := by
    intro calls
    induction calls with
    | nil => intro st _ _; rfl
    | cons x rest ih =>
      intro st hv hf
      obtain ⟨noFit, items⟩ := x
      have hs := outCall_safe d c (fun _ => hg) noFit items st hv
      have he := (encMany_safe d c (fun _ => hg) items st hv).len_ge
      have hno : outCall d c noFit items st = encMany d c items st := by
        unfold outCall fitCall
        rw [if_neg]
        rcases hf with hf | hf
        · have := hf (noFit, items) (List.mem_cons_self ..)
          simp_all
        · simp [hf.1, hf.2]
      have := ih _ (hs.valid (fun _ => hg) hv) (hf.imp (fun h x hx => h x (List.mem_cons_of_mem _ hx)) id)
      simp only [work, callAll, filled]
      rw [hno] at this ⊢
      omega
  have h1 := key calls st ⟨hpos, hlen⟩ hfit
  have h2 := C65_memory d c calls st hg hpos hlen
  refine ⟨h1, ?_⟩
  generalize 2 * ((callAll d c calls st).pos + 9) * c.g.mul / c.g.div = b at *
  omega

/-- C68, any archive: a history of `k` calls adds at most `k` times what the last call may add. -/
theorem C68_at_most (d : Nat) (c : Cfg) (calls : List (Bool × List (Ty × Val))) (st : OutSt)
    (hg : GrowthLaws c.g) (hpos : st.pos ≤ st.data.length) (hlen : st.data.length < 2 ^ 63) :
    work d c calls st ≤ calls.length * (2 * ((callAll d c calls st).pos + 9) * c.g.mul / c.g.div) := by
  have key : ∀ (calls : List (Bool × List (Ty × Val))) (st : OutSt), Valid st →
      st.pos ≤ (callAll d c calls st).pos ∧
      work d c calls st ≤ calls.length * (2 * ((callAll d c calls st).pos + 9) * c.g.mul / c.g.div) := by
    intro calls
    induction calls with
    | nil => intro st _; exact ⟨Nat.le_refl _, by simp [work]⟩
    | cons x rest ih =>
      intro st hv
      obtain ⟨noFit, items⟩ := x
      have hs := outCall_safe d c (fun _ => hg) noFit items st hv
      have h1 := C68_call d c items st hg hv.1 hv.2 noFit
      have hm := hs.mono
      obtain ⟨i1, i2⟩ := ih _ (hs.valid (fun _ => hg) hv)
      simp only [work, callAll, List.length_cons]
      refine ⟨by omega, ?_⟩
      have mono : 2 * ((outCall d c noFit items st).2.pos + 9) * c.g.mul / c.g.div ≤
          2 * ((callAll d c rest (outCall d c noFit items st).2).pos + 9) * c.g.mul / c.g.div :=
        Nat.div_le_div_right (Nat.mul_le_mul_right _ (by omega))
      rw [Nat.add_mul, Nat.one_mul]
      omega
  exact (key calls st ⟨hpos, hlen⟩).2

/-- One call that writes a byte at the end of a buffer: it is enlarged to half as much again and cut back. -/
theorem byte_call (d : Nat) (c : Cfg) (hr : c.g.resizable = true) (hm : c.g.mul = 3) (hdv : c.g.div = 2)
    (hl : c.g.limit = sizeMax) (hg : GrowthLaws c.g) (data : List UInt8) (x : Nat)
    (hmem : (data.length + 1) * 3 / 2 ≤ c.g.maxMem) :
    filled (d + 1) c [(.scalar .byte 1, .num x)] ⟨data, data.length⟩ = (data.length + 1) * 3 / 2 - data.length ∧
    ∃ b, outCall (d + 1) c false [(.scalar .byte 1, .num x)] ⟨data, data.length⟩ =
      (.ok, ⟨data ++ [b], data.length + 1⟩) := by
  have hmax := hg.maxMem
  obtain ⟨b, hb⟩ : ∃ b, ioBytes c 1 x = [b] := by
    have : (ioBytes c 1 x).length = 1 := by rw [ioBytes_eq]; simp
    exact List.length_eq_one_iff.mp this
  have he : enlargeFor c.g 1 ⟨data, data.length⟩ = (.ok, ⟨resizeBytes data ((data.length + 1) * 3 / 2), data.length⟩) := by
    have w1 : wrap (data.length + 1) = data.length + 1 := Nat.mod_eq_of_lt (by omega)
    have w2 : wrap ((data.length + 1) * 3) = (data.length + 1) * 3 := Nat.mod_eq_of_lt (by omega)
    simp only [enlargeFor, subSz_of_le (Nat.le_refl _), Nat.sub_self, Nat.zero_lt_one, if_true, w1, hm, hdv, hl,
      hg.checked, show ¬ (3 : Nat) = 1 by decide, show ¬ (2 : Nat) = 1 by decide, if_false, w2]
    rw [if_neg (by omega), if_neg (by omega), if_neg (by simp), if_neg (by omega)]
  have hlen : (resizeBytes data ((data.length + 1) * 3 / 2)).length = (data.length + 1) * 3 / 2 := by
    simp only [resizeBytes, List.length_append, List.length_take, List.length_replicate]
    omega
  have henc : encMany (d + 1) c [(.scalar .byte 1, .num x)] ⟨data, data.length⟩ =
      (.ok, ⟨data ++ [b] ++ (resizeBytes data ((data.length + 1) * 3 / 2)).drop (data.length + 1), data.length + 1⟩) := by
    simp only [encMany, encode, OutM.andThen, put, hb, List.length_singleton, claim, hr, if_true, he, memcpyAt, OutM.skip]
    rw [if_neg (by decide)]
    simp only
    rw [if_pos (by omega)]
    simp only [resizeBytes]
    rw [List.take_append_of_le_length (by simp; omega), List.take_take, Nat.min_eq_left (by omega),
      List.take_of_length_le (Nat.le_refl _)]
  refine ⟨?_, b, ?_⟩
  · simp only [filled, henc, List.length_append, List.length_drop, hlen, List.length_singleton]
    omega
  · simp only [outCall, fitCall, henc, hr, hm, hdv]
    rw [if_pos (by simp), if_pos (by omega), if_neg (by simp only [List.length_append, List.length_drop, hlen, List.length_singleton]; omega)]
    simp only [resizeBytes, List.length_append, List.length_drop, List.length_singleton]
    rw [List.take_append_of_le_length (by simp), List.take_of_length_le (by simp)]
    rw [Nat.sub_eq_zero_of_le (Nat.le_add_right _ _)]
    simp

/-- C68 fails for the default options, which fit the buffer after every call: writing `n` bytes by `n` calls adds (and
initializes) at least `n * n / 4` bytes, because every call enlarges the buffer to half as much again and cuts it back.
The only assumption is that memory does not run out. -/
theorem C68_quadratic (d : Nat) (c : Cfg) (hr : c.g.resizable = true) (hm : c.g.mul = 3) (hdv : c.g.div = 2)
    (hl : c.g.limit = sizeMax) (hg : GrowthLaws c.g) (xs : List Nat) (hmem : xs.length * 3 / 2 ≤ c.g.maxMem) :
    let calls := xs.map fun x => (false, [((.scalar .byte 1 : Ty), Val.num x)])
    (callAll (d + 1) c calls ⟨[], 0⟩).pos = xs.length ∧ xs.length * xs.length ≤ 4 * work (d + 1) c calls ⟨[], 0⟩ := by
  have key : ∀ (xs : List Nat) (data : List UInt8), (data.length + xs.length) * 3 / 2 ≤ c.g.maxMem →
      let calls := xs.map fun x => (false, [((.scalar .byte 1 : Ty), Val.num x)])
      (callAll (d + 1) c calls ⟨data, data.length⟩).pos = data.length + xs.length ∧
      (data.length + xs.length) * (data.length + xs.length) ≤
        data.length * data.length + 4 * work (d + 1) c calls ⟨data, data.length⟩ := by
    intro xs
    induction xs with
    | nil => intro data _; simp [callAll]
    | cons x xs ih =>
      intro data hb
      simp only [List.length_cons] at hb
      obtain ⟨h1, b, h2⟩ := byte_call d c hr hm hdv hl hg data x (by omega)
      have h3 := ih (data ++ [b]) (by simp only [List.length_append, List.length_singleton]; omega)
      simp only [List.length_append, List.length_singleton] at h3
      simp only [List.map_cons, callAll, work, h1, h2, List.length_cons]
      refine ⟨by omega, ?_⟩
      have e1 : data.length + 1 + xs.length = data.length + (xs.length + 1) := by omega
      rw [e1] at h3
      have e2 : (data.length + 1) * (data.length + 1) = data.length * data.length + 2 * data.length + 1 := by
        rw [Nat.mul_add, Nat.add_mul]; omega
      have := h3.2
      omega
  have := key xs [] (by simpa using hmem)
  simpa using this

/-- Eight bytes by eight calls and by one call. -/
example : work 20 (Checks.le Checks.grow .none) ((List.replicate 8 0).map fun x => (false, [(.scalar .byte 1, .num x)])) ⟨[], 0⟩ = 24 ∧
    work 20 (Checks.le Checks.grow .none) [(false, (List.replicate 8 0).map fun x => (.scalar .byte 1, .num x))] ⟨[], 0⟩ = 10 ∧
    work 20 (Checks.le Checks.grow .none) ((List.replicate 8 0).map fun x => (true, [(.scalar .byte 1, .num x)])) ⟨[], 0⟩ = 10 := by
  decide +kernel

/-- The default growth of a buffer satisfies the assumptions (for up to 600 bytes if memory is 1000 bytes). -/
example : let g : Growth := { Checks.grow with mul := 3, div := 2, limit := sizeMax, maxMem := 1000 }
    g.resizable = true ∧ g.mul = 3 ∧ g.div = 2 ∧ g.limit = sizeMax ∧ GrowthLaws g :=
  ⟨rfl, rfl, rfl, rfl, by decide, by decide, by decide, rfl, by decide⟩

end Zpp.Props
