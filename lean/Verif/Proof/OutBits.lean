import Verif.Proof.OutCall
import Verif.Proof.Bits
/-! # Bitsets written over any old content -/

namespace Zpp
open Spec

theorem andThen_assoc (a b e : OutM) : (a.andThen b).andThen e = a.andThen (b.andThen e) := by
  funext st
  unfold OutM.andThen
  generalize a st = r
  obtain ⟨s, st'⟩ := r
  cases s <;> rfl

theorem skip_andThen (a : OutM) : OutM.skip.andThen a = a := rfl

theorem andThen_skip (a : OutM) : a.andThen OutM.skip = a := by
  funext st
  unfold OutM.andThen
  generalize a st = r
  obtain ⟨s, st'⟩ := r
  cases s <;> rfl

/-- A successful claim extends the buffer by zero bytes. -/
theorem claim_data {g : Growth} (hg : GrowthOk g) (n : Nat) {st st1 : OutSt} (hv : Valid st)
    (h : claim g n st = (.ok, st1)) : st1.pos = st.pos ∧ st.pos + n ≤ st1.data.length ∧
      ∃ k, st1.data = st.data ++ List.replicate k 0 := by
  obtain ⟨_, h2, h3⟩ := claim_safe hg n st hv
  rw [h] at h2 h3
  refine ⟨h2, h3 rfl, ?_⟩
  unfold claim at h
  split at h
  · cases h
  · split at h
    · rename_i hn hr
      rcases enlargeFor_spec g (hg hr) n st hv (by omega) with ⟨_, e⟩ | ⟨_, ⟨e, _⟩ | ⟨e, _⟩ | ⟨e, _⟩⟩ <;> rw [e] at h <;>
        cases h
      · exact ⟨0, by simp⟩
      · exact ⟨_, rfl⟩
    · split at h
      · cases h
      · cases h
        exact ⟨0, by simp⟩

/-- A bitset over any old content. -/
theorem encBitset_or {g : Growth} (hg : GrowthOk g) {n : Nat} {bits : List Bool} {st st' : OutSt} (hv : Valid st)
    (h : encBitset g n bits st = (.ok, st')) : st'.pos = st.pos + bitsetBytes n ∧
      ∀ j k, j < bitsetBytes n → k < 8 → (st'.data.getD (st.pos + j) 0).toNat.testBit k =
        ((st.data.getD (st.pos + j) 0).toNat.testBit k || bits.getD (8 * j + k) false) := by
  have hp := hv.pos_le
  unfold encBitset at h
  split at h
  · unfold OutM.andThen at h
    generalize hc : claim g (bitsetBytes n) st = r at h
    obtain ⟨s, st1⟩ := r
    cases s with
    | ok =>
      obtain ⟨h1, h2, k0, h3⟩ := claim_data hg _ hv hc
      simp only at h
      rw [if_pos (by omega)] at h
      split at h
      · rename_i bs hb
        obtain ⟨hl, ht⟩ := orBits_testBit _ _ _ _ hb
        have hl' : bs.length = bitsetBytes n := by rw [hl]; simp; omega
        unfold memcpyAt at h
        rw [if_pos (by omega)] at h
        cases h
        refine ⟨by simp only; omega, fun j k hj hk => ?_⟩
        have e1 : ((st1.data.take st1.pos ++ bs ++ st1.data.drop (st1.pos + bs.length)).getD (st.pos + j) 0) =
            bs.getD j 0 := by
          have hlen : (st1.data.take st1.pos).length = st.pos := by simp; omega
          simp only [List.getD_eq_getElem?_getD]
          rw [List.append_assoc, List.getElem?_append_right (by omega), hlen, Nat.add_sub_cancel_left,
            List.getElem?_append_left (by omega)]
        simp only
        rw [e1, ht j k hk (by omega)]
        simp only [Nat.zero_le, decide_true, Bool.true_and, Nat.sub_zero]
        congr 3
        simp only [List.getD_eq_getElem?_getD]
        rw [List.getElem?_take_of_lt hj, List.getElem?_drop, h1, h3]
        by_cases hlt : st.pos + j < st.data.length
        · rw [List.getElem?_append_left hlt]
        · have hn : st.data[st.pos + j]? = none := List.getElem?_eq_none (by omega)
          rw [List.getElem?_append_right (by omega), hn, List.getElem?_replicate]
          split <;> rfl
      · cases h
    | _ => cases h
  · cases h

/-- A message with a size field of `k` bytes, in any archive: the size is written in the byte order of the host. -/
theorem encByProtocol_native {c : Cfg} (hg : GrowthOk c.g) (z : Bool) {k : Nat} {body : OutM} {bs : List UInt8}
    (hb : Emits c.g z bs body) (hlen : k + bs.length < 2 ^ 63) :
    Emits c.g z (digits c.host k (bs.length % 256 ^ k) ++ bs) (encByProtocol c (.fixed k) body) := by
  have hh : Emits c.g z (ioBytes c k (0 % 256 ^ k)) (encHdr c (.fixed k) 0) := by
    apply put_emits hg
    rw [ioBytes_eq]; simp; omega
  have hhb := hh.andThen hb
  have hx : (ioBytes c k (0 % 256 ^ k)).length = k := by rw [ioBytes_eq]; simp
  generalize ioBytes c k (0 % 256 ^ k) = x at hh hhb hx
  intro pre rest hz hl
  unfold encByProtocol
  simp only
  rcases hhb pre rest hz hl with ⟨kk, he, hk, hf, hbd⟩ | ⟨hr, he, hlt'⟩ | ⟨hr, he, hlt'⟩ | ⟨hr, he, hlt'⟩
  · rw [OutM.andThen_ok he]
    left
    refine ⟨kk, ?_, by simp at hk ⊢; omega, hf, hbd⟩
    simp only [List.length_append]
    rw [subSz_of_le (by omega : pre.length ≤ pre.length + (x.length + bs.length)), subSz_of_le (by omega)]
    rw [show pre.length + (x.length + bs.length) - pre.length - k = bs.length by omega]
    unfold patchSize
    simp only
    rw [← digits_host]
    have := patch_write pre x (bs ++ (rest ++ List.replicate kk 0).drop (x.length + bs.length))
      (digits c.host k (bs.length % 256 ^ k)) (pre.length + (x.length + bs.length)) (by simp [hx])
    simp only [List.append_assoc] at this ⊢
    refine Eq.trans this ?_
    simp [hx]
  · rw [OutM.andThen_ne (by rw [he]; simp)]
    right; left
    refine ⟨hr, he, ?_⟩
    simp at hlt' ⊢; omega
  · rw [OutM.andThen_ne (by rw [he]; simp)]
    right; right; left
    refine ⟨hr, he, ?_⟩
    simpa [hx] using hlt'
  · rw [OutM.andThen_ne (by rw [he]; simp)]
    right; right; right
    refine ⟨hr, he, ?_⟩
    simpa [hx] using hlt'

end Zpp
