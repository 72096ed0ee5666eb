import Verif.Proof.OutSafe
import Verif.Proof.WireLemmas
import Verif.Proof.Bits
/-! # Exact effect of headers, bitsets and protocol messages -/

namespace Zpp
open Spec

theorem encHdr_emits {c : Cfg} (hg : GrowthOk c.g) (z : Bool) {sz : SizeTy} {n : Nat} {p : List UInt8}
    (h : sizePrefix (fmtOf c) sz n = some p) (hp : p.length < 2 ^ 63) : Emits c.g z p (encHdr c sz n) := by
  unfold sizePrefix at h
  cases sz with
  | fixed k =>
    simp only at h
    split at h
    · rename_i hlt
      cases h
      unfold encHdr
      simp only
      rw [Nat.mod_eq_of_lt hlt, ioBytes_eq]
      exact put_emits hg z _ hp
    · cases h
  | varint =>
    simp only at h
    split at h
    · rename_i hlt
      cases h
      unfold encHdr
      simp only
      rw [Nat.mod_eq_of_lt hlt, leb_eq n hlt]
      exact putVarint_emits hg z (by simp [IntWidth]) (by omega)
    · cases h
  | none => cases h; exact Emits.skip _ _

theorem encBitset_emits {g : Growth} (hg : GrowthOk g) {n : Nat} {bits : List Bool} (hn : bits.length = n)
    (hl : (packBits n bits).length < 2 ^ 63) : Emits g true (packBits n bits) (encBitset g n bits) := by
  unfold encBitset
  rw [if_pos hn]
  have hlen := packBits_length n bits
  refine Emits.claim hg (by rw [hlen]; rfl) (by rw [hlen] at hl; exact hl) ?_
  intro pre r hz hle
  have hle' : bitsetBytes n ≤ r.length := by rw [hlen] at hle; exact hle
  rw [if_pos (by simp; exact hle')]
  have : ((pre ++ r).drop pre.length).take (bitsetBytes n) = r.take (bitsetBytes n) := by simp
  simp only [this]
  rw [orBits_zero n bits hn (r.take (bitsetBytes n)) (by simp; omega)
    (fun b hb => hz rfl b (List.mem_of_mem_take hb))]
  simp only
  rw [memcpyAt_append pre r _ hle]

theorem patch_write (pre x rest bs : List UInt8) (p : Nat) (h : x.length = bs.length) :
    (match memcpyAt bs ⟨pre ++ x ++ rest, pre.length⟩ with
      | (.ok, st') => (Status.ok, { st' with pos := p })
      | (s, _) => (s, ⟨pre ++ x ++ rest, p⟩)) = (.ok, ⟨pre ++ bs ++ rest, p⟩) := by
  rw [List.append_assoc, memcpyAt_append pre (x ++ rest) bs (by simp; omega)]
  simp [← h]

theorem encByProtocol_emits {c : Cfg} (hg : GrowthOk c.g) (z : Bool) {sz : SizeTy}
    (hsz : msgSzOk { c with dsz := sz } none = true) {body : OutM} {bs p : List UInt8}
    (hb : Emits c.g z bs body) (hp : msgPrefix (fmtOf c) sz bs.length = some p)
    (hlen : (p ++ bs).length < 2 ^ 63) : Emits c.g z (p ++ bs) (encByProtocol c sz body) := by
  cases sz with
  | none =>
    simp only [msgPrefix, sizePrefix] at hp
    cases hp
    exact hb
  | fixed k =>
    simp only [msgPrefix, sizePrefix] at hp
    split at hp
    case isFalse => cases hp
    rename_i hlt
    cases hp
    simp only [List.length_append, digits_length] at hlen
    have hh : Emits c.g z (ioBytes c k (0 % 256 ^ k)) (encHdr c (.fixed k) 0) := by
      apply put_emits hg
      rw [ioBytes_eq]; simp; omega
    have hhb := hh.andThen hb
    have hx : (ioBytes c k (0 % 256 ^ k)).length = k := by rw [ioBytes_eq]; simp
    generalize ioBytes c k (0 % 256 ^ k) = x at hh hhb hx
    have hdig : digits (fmtOf c).order k bs.length = hostBytes c.host k bs.length := by
      simp only [msgSzOk, Option.getD_none, Bool.or_eq_true, Bool.not_eq_true', decide_eq_true_eq] at hsz
      rw [digits_host]
      unfold fmtOf
      rcases hsz with h | h
      · simp [h]
      · rcases Nat.le_one_iff_eq_zero_or_eq_one.mp h with h | h
        · subst h; cases c.aware <;> simp
          cases c.host <;> rfl
        · subst h; cases c.aware <;> simp
          cases c.host <;> rfl
    intro pre rest hz hl
    unfold encByProtocol
    simp only
    rcases hhb pre rest hz hl with ⟨kk, he, hk, hf, hbd⟩ | ⟨hr, he, hlt'⟩ | ⟨hr, he, hlt'⟩ | ⟨hr, he, hlt'⟩
    · rw [OutM.andThen_ok he]
      left
      refine ⟨kk, ?_, by simp at hk ⊢; omega, hf, hbd⟩
      simp only [List.length_append]
      rw [subSz_of_le (by omega : pre.length ≤ pre.length + (x.length + bs.length)), subSz_of_le (by omega)]
      rw [show pre.length + (x.length + bs.length) - pre.length - k = bs.length by omega]
      unfold patchSize
      simp only
      rw [Nat.mod_eq_of_lt hlt, ← hdig]
      have := patch_write pre x (bs ++ (rest ++ List.replicate kk 0).drop (x.length + bs.length))
        (digits (fmtOf c).order k bs.length) (pre.length + (x.length + bs.length)) (by simp [hx])
      simp only [List.append_assoc] at this ⊢
      refine Eq.trans this ?_
      simp [hx]
    · rw [OutM.andThen_ne (by rw [he]; simp)]
      right; left
      refine ⟨hr, he, ?_⟩
      simp at hlt' ⊢; omega
    · rw [OutM.andThen_ne (by rw [he]; simp)]
      right; right; left
      refine ⟨hr, he, ?_⟩
      simpa [hx] using hlt'
    · rw [OutM.andThen_ne (by rw [he]; simp)]
      right; right; right
      refine ⟨hr, he, ?_⟩
      simpa [hx] using hlt'
  | varint =>
    simp only [msgPrefix] at hp
    split at hp
    case isFalse => cases hp
    rename_i hlt
    cases hp
    rw [leb_eq _ (by omega)] at hlen ⊢
    simp only [List.length_append] at hlen
    have hh : Emits c.g z (varintBytes (0 % 2 ^ 64)) (encHdr c .varint 0) :=
      putVarint_emits hg z (by simp [IntWidth]) (by omega)
    have hx : (varintBytes (0 % 2 ^ 64)).length = 1 := by
      rw [Nat.zero_mod, varintBytes_small (by omega)]; rfl
    have hhb := hh.andThen hb
    generalize varintBytes (0 % 2 ^ 64) = x at hh hhb hx
    have hvs := varintSize_eq_length 8 bs.length (by omega) (by omega)
    have hvp := varintBytes_length_pos bs.length
    have hv8 : (varintBytes bs.length).length ≤ 8 := by
      rw [varintBytes_length_le_iff _ _ (by omega)]; omega
    intro pre rest hz hl
    unfold encByProtocol
    simp only
    have hle : x.length + bs.length ≤ (varintBytes bs.length).length + bs.length := by omega
    rcases hhb pre rest hz hl with ⟨kk, he, hk, hf, hbd⟩ | ⟨hr, he, hlt'⟩ | ⟨hr, he, hlt'⟩ | ⟨hr, he, hlt'⟩
    · rw [OutM.andThen_ok he]
      simp only [List.length_append]
      rw [subSz_of_le (by omega : pre.length ≤ pre.length + (x.length + bs.length)), subSz_of_le (by omega)]
      rw [show pre.length + (x.length + bs.length) - pre.length - 1 = bs.length by omega]
      -- the final patch
      have hpatch : ∀ (y tl : List UInt8) (p : Nat), y.length = (varintBytes bs.length).length →
          patchSize c .varint pre.length bs.length ⟨pre ++ y ++ tl, p⟩ =
            (.ok, ⟨pre ++ varintBytes bs.length ++ tl, p⟩) := by
        intro y tl p hy
        unfold patchSize
        simp only
        rw [if_neg (by omega)]
        exact patch_write pre y tl _ p hy
      generalize hr' : (rest ++ List.replicate kk 0).drop (x.length + bs.length) = r'
      have hr'l : r'.length = rest.length + kk - (x.length + bs.length) := by rw [← hr']; simp
      have hr'z : z = true → AllZero r' := fun h => by rw [← hr']; exact (hz h).rest kk _
      simp only [List.length_append] at hk
      -- moveAhead
      have hmove : moveAhead c.g pre.length ⟨pre ++ (x ++ bs) ++ r', pre.length + (x.length + bs.length)⟩ =
          if (varintBytes bs.length).length - 1 = 0 then
            (.ok, ⟨pre ++ (x ++ bs) ++ r', pre.length + (x.length + bs.length)⟩)
          else match claim c.g ((varintBytes bs.length).length - 1)
              ⟨pre ++ (x ++ bs) ++ r', pre.length + (x.length + bs.length)⟩ with
            | (.ok, st1) =>
              if pre.length + (x.length + bs.length) + ((varintBytes bs.length).length - 1) ≤ st1.data.length ∧
                  pre.length + 1 ≤ pre.length + (x.length + bs.length) then
                (.ok, { data := st1.data.take (pre.length + 1 + ((varintBytes bs.length).length - 1)) ++
                          (st1.data.take (pre.length + (x.length + bs.length))).drop (pre.length + 1) ++
                          st1.data.drop (pre.length + (x.length + bs.length) + ((varintBytes bs.length).length - 1)),
                        pos := pre.length + (x.length + bs.length) + ((varintBytes bs.length).length - 1) })
              else (.ub, st1)
            | r => r := by
        unfold moveAhead
        simp only
        rw [subSz_of_le (by omega : pre.length ≤ pre.length + (x.length + bs.length)), subSz_of_le (by omega)]
        rw [show pre.length + (x.length + bs.length) - pre.length - 1 = bs.length by omega, hvs]
        rfl
      by_cases hA : (varintBytes bs.length).length - 1 = 0
      · rw [if_pos hA] at hmove
        rw [OutM.andThen_ok hmove]
        left
        refine ⟨kk, ?_, by simp; omega, hf, hbd⟩
        have := hpatch x (bs ++ r') (pre.length + (x.length + bs.length)) (by omega)
        rw [← List.append_assoc pre, List.append_assoc (pre ++ x), this]
        simp only [List.length_append]
        rw [← hr']
        have e : (varintBytes bs.length).length = x.length := by omega
        simp [e]
      · rw [if_neg hA] at hmove
        generalize hAA : (varintBytes bs.length).length - 1 = A at *
        -- success of the claim
        have hok : ∀ k2 : Nat, A ≤ r'.length + k2 → (c.g.resizable = false → k2 = 0) →
            rest.length + pre.length + (kk + k2) < 2 ^ 63 →
            claim c.g A ⟨pre ++ (x ++ bs) ++ r', pre.length + (x.length + bs.length)⟩ =
              (.ok, ⟨pre ++ (x ++ bs) ++ (r' ++ List.replicate k2 0), pre.length + (x.length + bs.length)⟩) →
            EmitRes c.g (varintBytes bs.length ++ bs) pre rest
              ((moveAhead c.g pre.length).andThen (patchSize c .varint pre.length bs.length)
                ⟨pre ++ (x ++ bs) ++ r', pre.length + (x.length + bs.length)⟩) := by
          intro k2 h1 h2 h3 hcl
          rw [hcl] at hmove
          simp only at hmove
          rw [if_pos ⟨by simp; omega, by omega⟩] at hmove
          rw [OutM.andThen_ok hmove]
          left
          refine ⟨kk + k2, ?_, ?_, ?_, h3⟩
          · have hb1 : ((pre ++ (x ++ bs) ++ (r' ++ List.replicate k2 0)).take
                (pre.length + (x.length + bs.length))).drop (pre.length + 1) = bs := by
              rw [List.take_append_of_le_length (by simp), List.take_of_length_le (by simp),
                ← List.append_assoc pre, List.drop_append_of_le_length (by simp; omega)]
              rw [List.drop_of_length_le (by simp; omega)]
              simp
            have hb2 : (pre ++ (x ++ bs) ++ (r' ++ List.replicate k2 0)).take (pre.length + 1 + A) =
                pre ++ ((x ++ bs ++ (r' ++ List.replicate k2 0)).take (1 + A)) := by
              rw [List.append_assoc pre, List.take_append, List.take_of_length_le (by omega)]
              congr 2; omega
            have hb3 : (pre ++ (x ++ bs) ++ (r' ++ List.replicate k2 0)).drop
                (pre.length + (x.length + bs.length) + A) = (r' ++ List.replicate k2 0).drop A := by
              rw [List.drop_append, List.drop_of_length_le (by simp)]
              simp
            rw [hb1, hb2, hb3]
            rw [List.append_assoc (pre ++ _) bs]
            rw [hpatch _ _ _ (by simp; omega)]
            have hb4 : (rest ++ List.replicate (kk + k2) 0).drop ((varintBytes bs.length ++ bs).length) =
                (r' ++ List.replicate k2 0).drop A := by
              rw [← hr', ← List.replicate_append_replicate, ← List.append_assoc,
                ← List.drop_append_of_le_length (l₁ := rest ++ List.replicate kk 0) (by simp; omega),
                List.drop_drop]
              congr 1
              simp; omega
            rw [hb4]
            simp only [List.append_assoc, List.length_append, Prod.mk.injEq, OutSt.mk.injEq, true_and]
            omega
          · simp; omega
          · intro hf'; rw [hf hf', h2 hf']
        have hrest : pre ++ (x ++ bs) ++ r' = (pre ++ (x ++ bs)) ++ r' := rfl
        have hposl : pre.length + (x.length + bs.length) = (pre ++ (x ++ bs)).length := by simp
        have hclaim : claim c.g A ⟨pre ++ (x ++ bs) ++ r', pre.length + (x.length + bs.length)⟩ =
            if c.g.resizable then enlargeFor c.g A ⟨pre ++ (x ++ bs) ++ r', pre.length + (x.length + bs.length)⟩
            else if r'.length < A then (.err .resultOutOfRange, ⟨pre ++ (x ++ bs) ++ r', pre.length + (x.length + bs.length)⟩)
            else (.ok, ⟨pre ++ (x ++ bs) ++ r', pre.length + (x.length + bs.length)⟩) := by
          unfold claim
          rw [if_neg (by omega)]
          simp only [List.length_append]
          rw [subSz_of_le (by omega)]
          rw [show pre.length + (x.length + bs.length) + r'.length - (pre.length + (x.length + bs.length)) =
            r'.length by omega]
        have hfail : ∀ s st1, claim c.g A ⟨pre ++ (x ++ bs) ++ r', pre.length + (x.length + bs.length)⟩ = (s, st1) →
            s ≠ .ok →
            ((moveAhead c.g pre.length).andThen (patchSize c .varint pre.length bs.length)
                ⟨pre ++ (x ++ bs) ++ r', pre.length + (x.length + bs.length)⟩) = (s, st1) := by
          intro s st1 hcl hs
          rw [hcl] at hmove
          have hmove' : moveAhead c.g pre.length ⟨pre ++ (x ++ bs) ++ r', pre.length + (x.length + bs.length)⟩ = (s, st1) := by
            rw [hmove]
            cases s <;> first | exact absurd rfl hs | rfl
          rw [OutM.andThen_ne (by rw [hmove']; exact hs), hmove']
        cases hres : c.g.resizable with
        | false =>
          rw [hres] at hclaim
          simp only [Bool.false_eq_true, if_false] at hclaim
          by_cases hshort : r'.length < A
          · rw [if_pos hshort] at hclaim
            rw [hfail _ _ hclaim (by simp)]
            right; left
            have := hf hres
            exact ⟨hres, rfl, by simp; omega⟩
          · rw [if_neg hshort] at hclaim
            refine hok 0 (by omega) (fun _ => rfl) (by omega) ?_
            rw [hclaim]; simp
        | true =>
          rw [hres] at hclaim
          simp only [if_true] at hclaim
          rw [hposl] at hclaim ⊢
          rw [hposl] at hok hfail
          rcases enlargeFor_emit (hg hres) (add := A) (N := pre.length + (varintBytes bs.length ++ bs).length)
            (pre ++ (x ++ bs)) r' (by simp; omega) (by omega) (by simp; omega) with
            ⟨k2, he2, hk2, hb2⟩ | ⟨he2, hlim⟩ | ⟨he2, hmem⟩
          · refine hok k2 hk2 (fun h => by rw [hres] at h; cases h) ?_ ?_
            · simp at hb2; omega
            · rw [hclaim, he2]
          · rw [← hclaim] at he2
            rw [hfail _ _ (Prod.ext he2 rfl) (by simp)]
            right; right; left
            exact ⟨hres, rfl, hlim⟩
          · rw [← hclaim] at he2
            rw [hfail _ _ (Prod.ext he2 rfl) (by simp)]
            right; right; right
            exact ⟨hres, rfl, hmem⟩
    · rw [OutM.andThen_ne (by rw [he]; simp)]
      right; left
      refine ⟨hr, he, ?_⟩
      simp at hlt' ⊢; omega
    · rw [OutM.andThen_ne (by rw [he]; simp)]
      right; right; left
      exact ⟨hr, he, fun hh => hlt' (hh.mono (by simp; omega))⟩
    · rw [OutM.andThen_ne (by rw [he]; simp)]
      right; right; right
      exact ⟨hr, he, fun hh => hlt' (hh.mono (by simp; omega))⟩

end Zpp
