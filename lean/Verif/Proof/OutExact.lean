import Verif.Proof.OutBroken
/-!
# Lemmas: exact growth

With `enlarger<1, 1>` (`exact_enlarger`) a buffer whose end is the position keeps its end at the position.
-/

namespace Zpp
open Zpp.Spec

/-- `exact_enlarger` on a growing buffer. -/
structure ExactGrowth (g : Growth) : Prop where
  laws : GrowthLaws g
  grows : g.resizable = true
  mul : g.mul = 1
  div : g.div = 1

theorem ExactGrowth.ok {g : Growth} (h : ExactGrowth g) : GrowthOk g := fun _ => h.laws

/-- The position stays at the end of the buffer. -/
def Exact (m : OutM) : Prop :=
  ∀ st, Valid st → st.pos = st.data.length → (m st).2.pos = (m st).2.data.length

theorem Exact.skip : Exact OutM.skip := fun _ _ h => h
theorem Exact.fail (s : Status) : Exact (OutM.fail s) := fun _ _ h => h

theorem Exact.andThen {g : Growth} (hg : ExactGrowth g) {a b : OutM} (sa : SafeOut g a) (_sb : SafeOut g b)
    (ha : Exact a) (hb : Exact b) : Exact (a.andThen b) := by
  intro st hv hp
  have h1 := ha st hv hp
  have s1 := sa st hv
  unfold OutM.andThen
  split
  · rename_i st' he
    rw [he] at h1 s1
    exact hb st' (s1.valid hg.ok hv) h1
  · exact h1

theorem claimWrite_exact {g : Growth} (hg : ExactGrowth g) {n : Nat} {m : OutM}
    (hm : ∀ st, Valid st → st.pos + n ≤ st.data.length →
      (m st).2.data.length = st.data.length ∧ (m st).2.pos = st.pos + n) :
    Exact ((claim g n).andThen m) := by
  intro st hv hp
  obtain ⟨c1, c2, c3⟩ := claim_safe hg.ok n st hv
  have hl := hv.2
  have key : claim g n st = (.ok, { st with data := resizeBytes st.data (st.data.length + n) }) ∨
      ((claim g n st).1 ≠ .ok ∧ (claim g n st).2 = st) := by
    unfold claim
    split
    · exact Or.inr ⟨by simp, rfl⟩
    · rename_i hn
      rw [if_pos hg.grows]
      have hw : wrap (st.data.length + n) = st.data.length + n := by
        simp only [wrap]; omega
      have hs : subSz st.data.length st.pos = 0 := by rw [hp]; simp [subSz]
      unfold enlargeFor
      simp only [hs, hw, hg.mul, hg.div, hg.laws.checked, if_true]
      split
      · rw [if_neg (by omega), if_neg (by simp)]
        split
        · exact Or.inr ⟨by simp, rfl⟩
        · split
          · exact Or.inr ⟨by simp, rfl⟩
          · exact Or.inl rfl
      · have : n = 0 := by omega
        subst this
        left
        simp [resizeBytes]
  unfold OutM.andThen
  rcases key with k | ⟨k1, k2⟩
  · rw [k] at c1 ⊢
    have hv' := c1.valid hg.ok hv
    have hlen : (resizeBytes st.data (st.data.length + n)).length = st.data.length + n := by simp [resizeBytes]
    have := hm _ hv' (by simp only [hlen]; omega)
    simp only [hlen] at this ⊢
    omega
  · split
    · rename_i st' he
      exact absurd (congrArg Prod.fst he) k1
    · rw [k2]; exact hp

theorem put_exact {g : Growth} (hg : ExactGrowth g) (bs : List UInt8) : Exact (put g bs) := by
  refine claimWrite_exact hg ?_
  intro st hv h
  rw [memcpyAt_eq h]
  simp; omega

theorem putBytes_exact {g : Growth} (hg : ExactGrowth g) (bs : List UInt8) : Exact (putBytes g bs) := by
  unfold putBytes; split
  · exact Exact.skip
  · exact put_exact hg bs

theorem encRep_exact {g : Growth} (hg : ExactGrowth g) (r) : Exact (encRep g r) := by
  cases r
  · exact Exact.fail _
  · exact putBytes_exact hg _

theorem encAll_exact {g : Growth} (hg : ExactGrowth g) {rec : Val → OutM} (s : ∀ v, SafeOut g (rec v))
    (h : ∀ v, Exact (rec v)) : ∀ vs, Exact (encAll rec vs)
  | [] => Exact.skip
  | v :: vs => Exact.andThen hg (s v) (encAll_safe hg.ok s vs) (h v) (encAll_exact hg s h vs)

theorem encFields_exact {g : Growth} (hg : ExactGrowth g) {rec : Ty → Val → OutM} (s : ∀ t v, SafeOut g (rec t v)) :
    ∀ ts vs, (∀ t ∈ ts, ∀ v, Exact (rec t v)) → Exact (encFields rec ts vs)
  | [], [], _ => Exact.skip
  | [], _ :: _, _ => Exact.fail _
  | _ :: _, [], _ => Exact.fail _
  | t :: ts, v :: vs, h => Exact.andThen hg (s t v) (encFields_safe hg.ok s ts vs) (h t (by simp) v)
      (encFields_exact hg s ts vs fun t' ht => h t' (by simp [ht]))

theorem encHdr_exact {c : Cfg} (hg : ExactGrowth c.g) {sz : SizeTy} (hsz : sz ≠ .varint) (n : Nat) :
    Exact (encHdr c sz n) := by
  cases sz with
  | fixed k => exact put_exact hg _
  | varint => exact absurd rfl hsz
  | none => exact Exact.skip

theorem encBitset_exact {g : Growth} (hg : ExactGrowth g) (n : Nat) (bits : List Bool) : Exact (encBitset g n bits) := by
  unfold encBitset
  split
  · rename_i hn
    refine claimWrite_exact hg ?_
    intro st hv h
    rw [if_pos h]
    obtain ⟨r, e, hl⟩ := orBits_isSome bits 0 ((st.data.drop st.pos).take (bitsetBytes n))
      (by simp [bitsetBytes] at h ⊢; omega)
    rw [e]
    simp only
    have hlr : r.length = bitsetBytes n := by rw [hl]; simp; omega
    rw [memcpyAt_eq (by omega)]
    simp; omega
  · exact Exact.fail _

theorem encode_exact (d : Nat) {c : Cfg} (hg : ExactGrowth c.g) (henv : ∀ i, noVarint c.dsz (c.env i) = true) :
    ∀ t v, noVarint c.dsz t = true → Exact (encode d c t v) := by
  induction d with
  | zero => intro t v _; exact Exact.fail _
  | succ d ih =>
    intro t v hn
    have hs := encode_safe d c hg.ok
    unfold encode
    cases t with
    | scalar k n => cases v <;> first | exact Exact.fail _ | exact put_exact hg _
    | bool => cases v <;> first | exact Exact.fail _ | exact put_exact hg _
    | varint n zz => simp [noVarint] at hn
    | empty => exact Exact.skip
    | struct ok fs =>
      cases v <;> first | exact Exact.fail _ | skip
      simp only
      split
      · exact encRep_exact hg _
      · exact encFields_exact hg hs _ _ fun t ht v => ih t v (noVarintL_mem (by simpa [noVarint] using hn) t ht)
    | array n t' =>
      cases v <;> first | exact Exact.fail _ | skip
      simp only
      split
      · exact Exact.fail _
      · split
        · exact encRep_exact hg _
        · exact encAll_exact hg (hs _) (fun v => ih t' v (by simpa [noVarint] using hn)) _
    | seq k sz t' =>
      cases v <;> first | exact Exact.fail _ | skip
      simp only [noVarint, Bool.and_eq_true, bne_iff_ne, ne_eq] at hn
      simp only
      refine Exact.andThen hg (encHdr_safe hg.ok _ _) ?_ (encHdr_exact hg hn.1 _) ?_
      · split
        · exact encRep_safe hg.ok _
        · exact encAll_safe hg.ok (hs _) _
      · split
        · exact encRep_exact hg _
        · exact encAll_exact hg (hs _) (fun v => ih t' v hn.2) _
    | assoc multi hashed sz key mapped =>
      cases v <;> first | exact Exact.fail _ | skip
      have hk : sz.getD c.dsz ≠ .varint ∧ noVarint c.dsz key = true ∧ ∀ m, mapped = some m → noVarint c.dsz m = true := by
        cases mapped with
        | none => simp [noVarint] at hn; exact ⟨hn.1, hn.2, nofun⟩
        | some m =>
          simp [noVarint] at hn
          exact ⟨hn.1.1, hn.1.2, fun m' e => by cases e; exact hn.2⟩
      simp only
      have hsafe : ∀ e, SafeOut c.g (match mapped with
            | none => encode d c key e
            | some m =>
              match e with
              | .list es => encFields (encode d c) [key, m] es
              | _ => OutM.fail .illFormed) := by
        intro e
        split
        · exact hs _ _
        · split
          · exact encFields_safe hg.ok hs _ _
          · exact SafeOut.fail _ fun _ => trivial
      refine Exact.andThen hg (encHdr_safe hg.ok _ _) (encAll_safe hg.ok hsafe _) (encHdr_exact hg hk.1 _)
        (encAll_exact hg hsafe ?_ _)
      intro e
      split
      · exact ih _ _ hk.2.1
      · rename_i m
        split
        · refine encFields_exact hg hs _ _ fun t ht v => ih t v ?_
          simp only [List.mem_cons, List.not_mem_nil, or_false] at ht
          rcases ht with rfl | rfl
          · exact hk.2.1
          · exact hk.2.2 _ rfl
        · exact Exact.fail _
    | optional dc t' =>
      have := fun v => ih t' v (by simpa [noVarint] using hn)
      cases v <;> first | exact Exact.fail _ | exact put_exact hg _ |
        exact Exact.andThen hg (put_safe hg.ok _) (hs _ _) (put_exact hg _) (this _)
    | optPtr t' =>
      have := fun v => ih t' v (by simpa [noVarint] using hn)
      cases v <;> first | exact Exact.fail _ | exact put_exact hg _ |
        exact Exact.andThen hg (put_safe hg.ok _) (hs _ _) (put_exact hg _) (this _)
    | uptr t' =>
      have := fun v => ih t' v (by simpa [noVarint] using hn)
      cases v <;> first | exact Exact.fail _ | exact this _
    | variant idTy ids dcs alts =>
      simp only [noVarint, Bool.and_eq_true] at hn
      cases v <;> first | exact Exact.fail _ | skip
      simp only [encVariant]
      split
      · rename_i id t hid halt
        exact Exact.andThen hg (hs _ _) (hs _ _) (ih _ _ hn.1)
          (ih _ _ (noVarintL_mem hn.2 t (List.mem_of_getElem? halt)))
      · exact Exact.fail _
    | bitset n => cases v <;> first | exact Exact.fail _ | exact encBitset_exact hg _ _
    | msg sz ok maps nums fs => simp [noVarint] at hn
    | ref i => exact ih _ _ (henv i)

theorem encMany_exact (d : Nat) {c : Cfg} (hg : ExactGrowth c.g) (henv : ∀ i, noVarint c.dsz (c.env i) = true) :
    ∀ items : List (Ty × Val), (∀ x ∈ items, noVarint c.dsz x.1 = true) → Exact (encMany d c items)
  | [], _ => Exact.skip
  | (t, v) :: rest, h => Exact.andThen hg (encode_safe d c hg.ok t v) (encMany_safe d c hg.ok rest)
      (encode_exact d hg henv t v (h (t, v) (by simp)))
      (encMany_exact d hg henv rest fun y hy => h y (by simp [hy]))

end Zpp
