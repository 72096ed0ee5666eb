import Verif.Proof.InRound
/-!
# Reading by byte copy and member by member
-/

namespace Zpp
open Zpp.Spec

/-- The reader takes exactly `sz` bytes and makes the object `u` of them, or fails with `result_out_of_range`. -/
def Takes (data : List UInt8) (r : Nat → Res) (sz : Nat) (u : List UInt8 → Val) : Prop :=
  ∀ p, p ≤ data.length →
    (p + sz ≤ data.length → r p = ⟨.ok, u ((data.drop p).take sz), p + sz⟩) ∧
    (data.length < p + sz → (r p).s = .err .resultOutOfRange)

/-- `Takes` for lists. -/
def TakesL (data : List UInt8) (r : Nat → ResL) (sz : Nat) (u : List UInt8 → List Val) : Prop :=
  ∀ p, p ≤ data.length →
    (p + sz ≤ data.length → r p = ⟨.ok, u ((data.drop p).take sz), p + sz⟩) ∧
    (data.length < p + sz → (r p).s = .err .resultOutOfRange)

theorem TakesL.toRes {data : List UInt8} {r : Nat → ResL} {sz : Nat} {u : List UInt8 → List Val} (h : TakesL data r sz u) :
    Takes data (fun p => (r p).toRes) sz (fun bs => .list (u bs)) := by
  intro p hp
  obtain ⟨h1, h2⟩ := h p hp
  exact ⟨fun h => by simp [ResL.toRes, h1 h], fun h => by simp [ResL.toRes, h2 h]⟩

theorem getBytes_takes {data : List UInt8} {p n : Nat} (hp : p ≤ data.length) :
    (p + n ≤ data.length → getBytes data p n = (.ok, (data.drop p).take n, p + n)) ∧
    (data.length < p + n → getBytes data p n = (.err .resultOutOfRange, [], p)) := by
  have hs : subSz data.length p = data.length - p := subSz_of_le hp
  unfold getBytes
  rw [hs]
  refine ⟨fun h => ?_, fun h => ?_⟩
  · rw [if_neg (by omega), if_pos h]
  · rw [if_pos (by omega)]

theorem decRep_takes {c : Cfg} {t : Ty} {n : Nat} {olds : List Val} {data : List UInt8}
    (hn : 0 < n) (hso : 0 < c.sizeof t) :
    TakesL data (decRep c t n olds data) (n * c.sizeof t) (unrepAll c.host c.sizeof t n) := by
  intro p hp
  have h := getBytes_takes (n := n * c.sizeof t) hp
  have : n * c.sizeof t ≠ 0 := Nat.ne_of_gt (Nat.mul_pos hn hso)
  unfold decRep
  rw [if_neg this]
  exact ⟨fun hf => by rw [h.1 hf], fun hf => by rw [h.2 hf]⟩

theorem decode_takes {d : Nat} {c : Cfg} (ha : AbiOk c.sizeof) {data : List UInt8} {t : Ty}
    (hb : asBytes c t = true) (hp : plain t = true) (hg : Good c t = true) (old : Val) :
    Takes data (decode (d + 1) c t old data) (c.sizeof t) (unrep c.host c.sizeof t) := by
  cases t with
  | scalar k n =>
    have hn : 0 < n := by
      simp only [Good, nodeOk] at hg
      cases k <;> simp [scalarOk] at hg <;> omega
    intro p hp'
    rw [decode, ha.scalar k n hn]
    have h := getBytes_takes (n := n) hp'
    refine ⟨fun hf => ?_, fun hf => by rw [h.2 hf]⟩
    rw [h.1 hf]
    simp only [unrep]
    have : ioNat c ((data.drop p).take n) = hostNat c.host ((data.drop p).take n) := by
      unfold ioNat
      cases hw : c.aware with
      | false => rfl
      | true =>
        have hei : (Ty.scalar k n).endianIndep = true := by simpa [asBytes, hw] using hb
        have h1 : n = 1 := by
          simp only [Good, nodeOk] at hg
          cases k <;> simp [Ty.endianIndep, scalarOk] at hei hg <;> exact hg
        subst h1
        have hl1 : ((data.drop p).take 1).length = 1 := by simp; omega
        obtain ⟨b, hb'⟩ := List.length_eq_one_iff.mp hl1
        rw [hb']; rfl
    rw [this]
  | bool =>
    intro p hp'
    rw [decode, ha.bool]
    have h := getBytes_takes (n := 1) hp'
    exact ⟨fun hf => by rw [h.1 hf]; simp only [unrep], fun hf => by rw [h.2 hf]⟩
  | struct ok fs =>
    have h := decRep_takes (c := c) (t := .struct ok fs) (olds := [old]) (data := data) (Nat.one_pos) (ha.pos _)
    intro p hp'
    rw [decode, if_pos hb]
    obtain ⟨h1, h2⟩ := h p hp'
    rw [Nat.one_mul] at h1 h2
    refine ⟨fun hf => ?_, fun hf => ?_⟩
    · simp only [h1 hf]
      simp [unrepAll, chunks, List.take_take]
    · simpa using h2 hf
  | array n t' =>
    have hn : 0 < n := by
      simp only [Good, nodeOk, Bool.and_eq_true, decide_eq_true_eq] at hg
      exact hg.1.1
    have hb' : asBytes c t' = true := hb
    have h := (decRep_takes (c := c) (t := t') (olds := resizeVals old.elems n .unit) (data := data) hn (ha.pos t')).toRes
    intro p hp'
    rw [decode, if_pos hb', ha.array n t' hn]
    obtain ⟨h1, h2⟩ := h p hp'
    dsimp only at h1 h2
    exact ⟨fun hf => by rw [h1 hf]; simp only [unrep, unrepAll], h2⟩
  | _ => simp [plain] at hp

theorem decMany_takes {d : Nat} {c : Cfg} (ha : AbiOk c.sizeof) {data : List UInt8} :
    ∀ ds : List (Ty × Val), (∀ x ∈ ds, asBytes c x.1 = true ∧ plain x.1 = true ∧ Good c x.1 = true) →
      TakesL data (decMany (d + 1) c data ds) ((ds.map fun x => c.sizeof x.1).sum)
        (unrepFields c.host c.sizeof (ds.map Prod.fst)) := by
  intro ds
  induction ds with
  | nil => intro _ p hp; exact ⟨fun _ => rfl, fun h => absurd h (by simp; omega)⟩
  | cons x ds ih =>
    intro h p hp
    obtain ⟨t, o⟩ := x
    have ht := h (t, o) (by simp)
    have hd := decode_takes (d := d) ha ht.1 ht.2.1 ht.2.2 o p hp
    have ih := ih (fun x hx => h x (by simp [hx]))
    dsimp only at hd
    simp only [List.map_cons, List.sum_cons]
    rw [decMany]
    by_cases hf : p + c.sizeof t ≤ data.length
    · rw [hd.1 hf]
      simp only
      obtain ⟨h1, h2⟩ := ih (p + c.sizeof t) hf
      refine ⟨fun hf' => ?_, fun hf' => ?_⟩
      · rw [h1 (by omega)]
        simp only [unrepFields, Nat.add_assoc, ResL.mk.injEq, List.cons.injEq, true_and, and_true]
        refine ⟨?_, ?_⟩
        · rw [List.take_take, Nat.min_eq_left (by omega)]
        · rw [List.drop_take, List.drop_drop, Nat.add_sub_cancel_left]
      · exact h2 (by omega)
    · have hs := hd.2 (by omega)
      generalize decode (d + 1) c t o data p = r at hs
      obtain ⟨s, v, p'⟩ := r
      simp only at hs
      subst hs
      exact ⟨fun h => by omega, fun _ => rfl⟩

theorem decAll_takes {rec : Val → Nat → Res} {data : List UInt8} {sz : Nat} {u : List UInt8 → Val}
    (h : ∀ o, Takes data (rec o) sz u) : ∀ os : List Val, TakesL data (decAll rec os) (os.length * sz) (chunks u sz os.length) := by
  intro os
  induction os with
  | nil => intro p hp; exact ⟨fun _ => by simp [decAll, chunks], fun h => absurd h (by simp; omega)⟩
  | cons o os ih =>
    intro p hp
    have hd := h o p hp
    simp only [List.length_cons, Nat.succ_mul]
    rw [decAll]
    by_cases hf : p + sz ≤ data.length
    · rw [hd.1 hf]
      simp only
      obtain ⟨h1, h2⟩ := ih (p + sz) hf
      refine ⟨fun hf' => ?_, fun hf' => h2 (by omega)⟩
      rw [h1 (by omega)]
      simp only [chunks, ResL.mk.injEq, List.cons.injEq, true_and]
      refine ⟨⟨?_, ?_⟩, by omega⟩
      · rw [List.take_take, Nat.min_eq_left (by omega)]
      · rw [List.drop_take, List.drop_drop, Nat.add_sub_cancel]
    · have hs := hd.2 (by omega)
      generalize rec o p = r at hs
      obtain ⟨s, v, p'⟩ := r
      simp only at hs
      subst hs
      exact ⟨fun h => by omega, fun _ => rfl⟩

theorem unrepFields_replicate (e : Endian) (so : Ty → Nat) (t : Ty) (n : Nat) (bs : List UInt8) :
    unrepFields e so (List.replicate n t) bs = chunks (unrep e so t) (so t) n bs := by
  induction n generalizing bs with
  | zero => rfl
  | succ n ih => simp [List.replicate_succ, unrepFields, chunks, ih]

end Zpp
