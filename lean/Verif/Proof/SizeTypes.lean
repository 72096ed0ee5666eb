import Verif.Spec.SizeTypes
import Verif.Proof.Reread
import Verif.Proof.InShift
import Verif.Proof.InRoundMain
/-! Lemmas about size types of any integer type. -/

namespace Zpp
open Zpp.Spec

theorem sizeIntOk_width {S : SizeInt} (h : SizeIntOk S) : S.width = 1 ∨ S.width = 2 ∨ S.width = 4 ∨ S.width = 8 := by
  cases S <;> simp only [SizeIntOk, intWidth, Bool.or_eq_true, beq_iff_eq] at h <;> simp only [SizeInt.width] <;> omega

/-- What the conversion to `std::size_t` does, in terms of the number the prefix holds. -/
theorem count_eq {S : SizeInt} (h : SizeIntOk S) {x : Nat} (hx : x < 2 ^ (8 * S.width)) : S.count x = toSize (sizeNumber S x) := by
  unfold SizeInt.count toSize sizeNumber
  cases S.signed
  · simp only [Bool.false_and, Bool.false_eq_true, if_false, false_and]
    rcases (sizeIntOk_width h) with e | e | e | e <;> rw [e] at hx <;> simp only [Nat.reduceMul, Nat.reducePow] at hx <;> omega
  · simp only [Bool.true_and, decide_eq_true_eq, true_and]
    rcases (sizeIntOk_width h) with e | e | e | e <;> rw [e] at hx ⊢ <;>
      simp only [Nat.reduceMul, Nat.reducePow, Nat.reduceSub, Int.reducePow] at hx ⊢ <;> split <;> split <;> omega

theorem count_lt {S : SizeInt} (h : SizeIntOk S) {x : Nat} (hx : x < 2 ^ (8 * S.width)) : S.count x < 2 ^ 64 := by
  rw [count_eq h hx]; unfold toSize; omega

theorem count_stored {S : SizeInt} (h : SizeIntOk S) {n : Nat} (hn : SizeHolds S n) : S.stored n = n ∧ S.count n = n := by
  unfold SizeInt.stored SizeInt.count
  unfold SizeHolds at hn
  have hw := (sizeIntOk_width h)
  generalize S.width = w at *
  cases hs : S.signed <;> rw [hs] at hn
  · simp only [Bool.false_eq_true, if_false] at hn
    exact ⟨Nat.mod_eq_of_lt hn, by simp⟩
  · simp only [if_true] at hn
    refine ⟨Nat.mod_eq_of_lt (by omega), ?_⟩
    simp only [Bool.true_and, decide_eq_true_eq]
    rw [if_neg]
    rcases hw with e | e | e | e <;> subst e <;> simp only [Nat.reduceMul, Nat.reducePow, Nat.reduceSub] at hn ⊢ <;> omega

theorem count_beyond {S : SizeInt} (h : SizeIntOk S) {n : Nat} (hn : ¬ SizeHolds S n) (hl : n < 2 ^ 63) : S.count (S.stored n) ≠ n := by
  unfold SizeInt.count SizeInt.stored
  unfold SizeHolds at hn
  have hw := (sizeIntOk_width h)
  generalize S.width = w at *
  cases hs : S.signed <;> rw [hs] at hn
  · simp only [Bool.false_eq_true, if_false] at hn
    simp only [Bool.false_and, Bool.false_eq_true, if_false]
    rcases hw with e | e | e | e <;> subst e <;> simp only [Nat.reduceMul, Nat.reducePow] at hn ⊢ <;> omega
  · simp only [if_true] at hn
    simp only [Bool.true_and, decide_eq_true_eq]
    rcases hw with e | e | e | e <;> subst e <;> simp only [Nat.reduceMul, Nat.reducePow, Nat.reduceSub] at hn hl ⊢ <;> split <;> omega

/-- The prefix is an integer like any other. -/
theorem prefix_any {c : Cfg} {S : SizeInt} (d : Nat) (old : Val) (data : List UInt8) (p : Nat) :
    decode (d + 1) c S.ty old data p = decode 1 c S.ty old data p := by
  cases S <;> rfl

theorem prefix_out {c : Cfg} {S : SizeInt} (d : Nat) (v : Val) : encode (d + 1) c S.ty v = encode 1 c S.ty v := by
  cases S <;> rfl

/-- The number read is one of the integer type, and the position stays inside the input. -/
theorem prefix_lt {c : Cfg} {S : SizeInt} (h : SizeIntOk S) {data : List UInt8} {p x p1 : Nat} (hp : p ≤ data.length)
    (hd : decode 1 c S.ty (.num 0) data p = ⟨.ok, .num x, p1⟩) : x < 2 ^ (8 * S.width) ∧ p1 ≤ data.length := by
  cases S with
  | int n sgn =>
    simp only [SizeInt.ty, decode, SizeInt.width] at hd ⊢
    have h1 := (getBytes_safe n hp).2
    generalize getBytes data p n = r at *
    obtain ⟨s, b, q⟩ := r
    cases s <;> simp only [Res.mk.injEq, Val.num.injEq, reduceCtorEq, false_and, true_and] at hd
    obtain ⟨rfl, rfl⟩ := hd
    obtain ⟨h2, h3, h4⟩ := h1 rfl
    dsimp only at h2 h3 h4
    have h5 := ioNat_lt c b
    have h6 : b.length = n := by rw [h4]; simp; omega
    rw [h6] at h5
    rw [Nat.pow_mul]
    exact ⟨h5, by omega⟩
  | var n sgn zz =>
    obtain ⟨_, h2, x', h3, h4, _⟩ := getVarint_again (intWidth_iff.mp h.1) zz hp (show getVarint n zz (.num 0) data p = _ from hd)
    cases h3
    exact ⟨h4, h2⟩

theorem decSized_seq {c : Cfg} {S : SizeInt} {d : Nat} {k : SeqKind} {sz : Option SizeTy} {t : Ty} {old : Val} {data : List UInt8}
    {p x p1 : Nat} (hd : decode 1 c S.ty (.num 0) data p = ⟨.ok, .num x, p1⟩) :
    decSized (d + 1) c S (.seq k sz t) old data p =
      seqFill c k t (fun v p => decode d c t v data p) (dflt c d t) old data (S.count x) p1 := by
  rw [decSized, prefix_any, hd]

/-- Reading with any size type is reading with an eight byte prefix that says the same number. -/
theorem decSized_eight {d : Nat} {c : Cfg} {S : SizeInt} {t : Ty} {old : Val} {data : List UInt8} {p x p1 : Nat}
    (hS : SizeIntOk S) (ht : isContainer t = true) (hp : p ≤ data.length)
    (hd : decode 1 c S.ty (.num 0) data p = ⟨.ok, .num x, p1⟩) :
    ∃ q, decode (d + 1) c (withSize (.fixed 8) t) old (digits (fmtOf c).order 8 (S.count x) ++ data.drop p1) 0 =
        ⟨(decSized (d + 1) c S t old data p).s, (decSized (d + 1) c S t old data p).v, 8 + q⟩ ∧
      (decSized (d + 1) c S t old data p).p = p1 + q := by
  obtain ⟨hx, hp1⟩ := prefix_lt hS hp hd
  have hN := count_lt hS hx
  generalize hNe : S.count x = N at *
  have hh : decHdr c (.fixed 8) (digits (fmtOf c).order 8 N ++ data.drop p1) 0 = (.ok, N, 8) := by
    have := decHdr_rd (c := c) (sz := .fixed 8) (data := digits (fmtOf c).order 8 N ++ data.drop p1) (p := 0) (n := N)
      (pre := digits (fmtOf c).order 8 N) (rest := data.drop p1) (by simp)
      (by simp only [sizePrefix]; exact if_pos (by omega)) (Nat.zero_le _) rfl
    rw [this, digits_length]
  have hl8 : (digits (fmtOf c).order 8 N).length = 8 := digits_length _ _ _
  have hlt : (data.take p1).length = p1 := by simp; omega
  have hdt : data = data.take p1 ++ data.drop p1 := (List.take_append_drop p1 data).symm
  have hs8 : ∀ (t' : Ty) (v : Val) (q : Nat), decode d c t' v (digits (fmtOf c).order 8 N ++ data.drop p1) (8 + q) =
      (decode d c t' v (data.drop p1) q).shift 8 := by
    intro t' v q
    have := decode_shift (pre := digits (fmtOf c).order 8 N) (data := data.drop p1) c d t' v q
    rwa [hl8] at this
  have hsp : ∀ (t' : Ty) (v : Val) (q : Nat), decode d c t' v data (p1 + q) = (decode d c t' v (data.drop p1) q).shift p1 := by
    intro t' v q
    have := decode_shift (pre := data.take p1) (data := data.drop p1) c d t' v q
    rwa [hlt, ← hdt] at this
  cases t with
  | seq k sz t' =>
    rw [decSized_seq hd, hNe]
    simp only [withSize, decode, effSz, Option.getD_some, hh]
    have a := seqFill_shift (pre := digits (fmtOf c).order 8 N) (data := data.drop p1)
      (rec := fun v p => decode d c t' v (digits (fmtOf c).order 8 N ++ data.drop p1) p)
      (rec' := fun v p => decode d c t' v (data.drop p1) p) (by intro v q; rw [hl8]; exact hs8 t' v q) c k t' (dflt c d t') old N 0
    have b := seqFill_shift (pre := data.take p1) (data := data.drop p1)
      (rec := fun v p => decode d c t' v data p)
      (rec' := fun v p => decode d c t' v (data.drop p1) p) (by intro v q; rw [hlt]; exact hsp t' v q) c k t' (dflt c d t') old N 0
    rw [hl8, Nat.add_zero] at a
    rw [hlt, ← hdt, Nat.add_zero] at b
    rw [a, b]
    exact ⟨_, rfl, rfl⟩
  | assoc multi hashed sz key mapped =>
    rw [decSized, prefix_any, hd]
    simp only [withSize, decode, effSz, Option.getD_some, hh, hNe]
    cases mapped with
    | none =>
      have a := decAssoc_shift (k := 8) (elem := fun p => decode d c key (dflt c d key) (digits (fmtOf c).order 8 N ++ data.drop p1) p)
        (elem' := fun p => decode d c key (dflt c d key) (data.drop p1) p) (fun q => hs8 key _ q)
        (assocInsert (c.keyLt key) multi hashed false) N [] 0
      have b := decAssoc_shift (k := p1) (elem := fun p => decode d c key (dflt c d key) data p)
        (elem' := fun p => decode d c key (dflt c d key) (data.drop p1) p) (fun q => hsp key _ q)
        (assocInsert (c.keyLt key) multi hashed false) N [] 0
      rw [Nat.add_zero] at a b
      simp only [Option.isSome_none]
      rw [a, b]
      exact ⟨_, rfl, rfl⟩
    | some m =>
      have a := decAssoc_shift (k := 8) (elem := fun p => (decFields (fun t v p => decode d c t v
          (digits (fmtOf c).order 8 N ++ data.drop p1) p) [key, m] [dflt c d key, dflt c d m] p).toRes)
        (elem' := fun p => (decFields (fun t v p => decode d c t v (data.drop p1) p) [key, m] [dflt c d key, dflt c d m] p).toRes)
        (fun q => by
          rw [decFields_shift (rec' := fun t v p => decode d c t v (data.drop p1) p) (fun t v q => hs8 t v q)]; rfl)
        (assocInsert (c.keyLt key) multi hashed true) N [] 0
      have b := decAssoc_shift (k := p1) (elem := fun p => (decFields (fun t v p => decode d c t v
          data p) [key, m] [dflt c d key, dflt c d m] p).toRes)
        (elem' := fun p => (decFields (fun t v p => decode d c t v (data.drop p1) p) [key, m] [dflt c d key, dflt c d m] p).toRes)
        (fun q => by
          rw [decFields_shift (rec' := fun t v p => decode d c t v (data.drop p1) p) (fun t v q => hsp t v q)]; rfl)
        (assocInsert (c.keyLt key) multi hashed true) N [] 0
      rw [Nat.add_zero] at a b
      simp only [Option.isSome_some]
      rw [a, b]
      exact ⟨_, rfl, rfl⟩
  | _ => simp [isContainer] at ht

/-- Writing with any size type is writing the number and then the container without a size. -/
theorem encSized_items {d : Nat} {c : Cfg} {S : SizeInt} {t : Ty} {vs : List Val} (ht : isContainer t = true) :
    encSized (d + 1) c S t (.list vs) =
      encMany (d + 1) c [(S.ty, .num (vs.length % 2 ^ (8 * S.width))), (withSize .none t, .list vs)] := by
  have hskip : ∀ b : OutM, OutM.skip.andThen b = b := fun b => rfl
  have hend : ∀ b : OutM, b.andThen OutM.skip = b := by
    intro b
    funext st
    unfold OutM.andThen OutM.skip
    generalize b st = r
    obtain ⟨s, st'⟩ := r
    cases s <;> rfl
  simp only [encMany, hend]
  cases t with
  | seq k sz t' => simp only [encSized, withSize, encode, effSz, Option.getD_some, encHdr, hskip, SizeInt.stored]
  | assoc multi hashed sz key mapped =>
    simp only [encSized, withSize, encode, effSz, Option.getD_some, encHdr, hskip, SizeInt.stored]
    rfl
  | _ => simp [isContainer] at ht

end Zpp
