import Verif.Proof.FetchOnce
import Verif.Proof.OutBroken
/-! # Without varints every byte is fetched once -/

namespace Zpp
open Spec

variable {inl : Bool}

theorem decFields_same {f g : Ty → Val → Nat → Res} : ∀ ts vs p, (∀ t ∈ ts, f t = g t) → decFields f ts vs p = decFields g ts vs p := by
  intro ts
  induction ts with
  | nil => intros; rfl
  | cons t ts ih =>
    intro vs p h
    simp only [decFields]
    rw [h t (by simp)]
    split
    · simp only [ih _ _ fun t ht => h t (by simp [ht])]
    · rfl

/-- The memory as the first fetch at every position sees it. -/
def memFirst (mem : Mem) : Mem := fun p _ => mem p 0

theorem steady_first (mem : Mem) : Steady (memFirst mem) := fun _ => rfl

theorem decHdrT_first {c : Cfg} {sz : SizeTy} {mem : Mem} (h : sz ≠ .varint) (p : Nat) : decHdrT inl c sz mem p = decHdrT inl c sz (memFirst mem) p := by
  cases sz with
  | varint => exact absurd rfl h
  | _ => rfl

theorem decodeT_first {c : Cfg} {mem : Mem} (henv : ∀ i, noVarint c.dsz (c.env i) = true) :
    ∀ (d : Nat) (t : Ty), noVarint c.dsz t = true → (fun old p => decodeT inl d c t old mem p) = fun old p => decodeT inl d c t old (memFirst mem) p := by
  intro d
  induction d with
  | zero => intro t _; rfl
  | succ d ih =>
    intro t hn
    funext old p
    cases t with
    | varint n zz => cases hn
    | msg => cases hn
    | struct ok fs =>
      simp only [noVarint] at hn
      simp only [decodeT]
      rw [decFields_same fs old.elems p (fun t ht => ih t (noVarintL_mem hn t ht))]
      rfl
    | array n t' =>
      simp only [noVarint] at hn
      simp only [decodeT]
      rw [ih t' hn]
      rfl
    | seq k sz t' =>
      simp only [noVarint, Bool.and_eq_true, bne_iff_ne] at hn
      have hz : effSz c sz ≠ .varint := hn.1
      simp only [decodeT]
      rw [ih t' hn.2]
      generalize effSz c sz = z at *
      cases z with
      | varint => exact absurd rfl hz
      | _ => rfl
    | assoc mu ha sz key m =>
      cases m with
      | none =>
        simp only [noVarint, Bool.and_eq_true, bne_iff_ne] at hn
        have hz : effSz c sz ≠ .varint := hn.1
        simp only [decodeT]
        rw [decHdrT_first hz]
        have := congrFun (ih key hn.2) (dflt c d key)
        change (fun p => decodeT inl d c key (dflt c d key) mem p) = fun p => decodeT inl d c key (dflt c d key) (memFirst mem) p at this
        rw [this]
      | some m =>
        simp only [noVarint, Bool.and_eq_true, bne_iff_ne] at hn
        have hz : effSz c sz ≠ .varint := hn.1.1
        simp only [decodeT]
        rw [decHdrT_first hz]
        have : (fun p => (decFields (fun t v p => decodeT inl d c t v mem p) [key, m] [dflt c d key, dflt c d m] p).toRes) =
            fun p => (decFields (fun t v p => decodeT inl d c t v (memFirst mem) p) [key, m] [dflt c d key, dflt c d m] p).toRes := by
          funext p
          rw [decFields_same _ _ p]
          intro t ht
          simp only [List.mem_cons, List.not_mem_nil, or_false] at ht
          rcases ht with rfl | rfl
          · exact ih _ hn.1.2
          · exact ih _ hn.2
        rw [this]
    | optional dc t' =>
      simp only [noVarint] at hn
      have h : ∀ v p, decodeT inl d c t' v mem p = decodeT inl d c t' v (memFirst mem) p := fun v p => congrFun (congrFun (ih t' hn) v) p
      simp only [decodeT, h]
      rfl
    | optPtr t' =>
      simp only [noVarint] at hn
      have h : ∀ v p, decodeT inl d c t' v mem p = decodeT inl d c t' v (memFirst mem) p := fun v p => congrFun (congrFun (ih t' hn) v) p
      simp only [decodeT, h]
      rfl
    | uptr t' =>
      simp only [noVarint] at hn
      have h : ∀ v p, decodeT inl d c t' v mem p = decodeT inl d c t' v (memFirst mem) p := fun v p => congrFun (congrFun (ih t' hn) v) p
      simp only [decodeT, h]
    | variant idTy ids dcs alts =>
      simp only [noVarint, Bool.and_eq_true] at hn
      have h : ∀ v p, decodeT inl d c idTy v mem p = decodeT inl d c idTy v (memFirst mem) p := fun v p => congrFun (congrFun (ih idTy hn.1) v) p
      simp only [decodeT, h]
      split
      · split
        · rfl
        · split
          · next t' dc ht _ =>
            rw [ih t' (noVarintL_mem hn.2 t' (List.mem_of_getElem? ht))]
          · rfl
      · rfl
    | ref i => exact congrFun (congrFun (ih (c.env i) (henv i)) old) p
    | _ => rfl

theorem decManyT_first {d : Nat} {c : Cfg} {mem : Mem} (henv : ∀ i, noVarint c.dsz (c.env i) = true) :
    ∀ (items : List (Ty × Val)) (p : Nat), (∀ it ∈ items, noVarint c.dsz it.1 = true) →
    decManyT inl d c mem items p = decManyT inl d c (memFirst mem) items p := by
  intro items
  induction items with
  | nil => intros; rfl
  | cons it rest ih =>
    intro p h
    obtain ⟨t, o⟩ := it
    have h1 : decodeT inl d c t o mem p = decodeT inl d c t o (memFirst mem) p := congrFun (congrFun (decodeT_first henv d t (h (t, o) (by simp))) o) p
    simp only [decManyT, h1]
    split
    · simp only [ih _ fun it hi => h it (by simp [hi])]
    · rfl

end Zpp
