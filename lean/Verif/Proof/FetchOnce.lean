import Verif.Proof.FetchSafe
import Verif.Proof.InLocal
/-! # Reading memory that changes: some constant input gives the same -/

namespace Zpp
open Spec

variable {inl : Bool}

/-- Outcome and position of a result. -/
class RunEnd (ρ : Type) where
  st : ρ → Status
  pos : ρ → Nat

instance : RunEnd Res := ⟨Res.s, Res.p⟩
instance : RunEnd ResL := ⟨ResL.s, ResL.p⟩
instance {α : Type} : RunEnd (Status × α × Nat) := ⟨fun r => r.1, fun r => r.2.2⟩

open RunEnd

/-- The bytes from `p` to `q` agree. -/
def AgreeOn (a b : List UInt8) (p q : Nat) : Prop := ∀ i : Nat, p ≤ i → i < q → a[i]? = b[i]?

/-- The result `r` at `p` is that of reading any input with certain bytes, each in the memory at some time. -/
def OnceAt {ρ : Type} [RunEnd ρ] (L : Nat) (mem : Mem) (p : Nat) (r : ρ) (G : List UInt8 → ρ) : Prop :=
  (st r = .ok → p ≤ pos r ∧ pos r ≤ L) ∧
  ∃ data, data.length = L ∧ Held mem data ∧
    ∀ data', data'.length = L → AgreeOn data data' p (if st r = .ok then pos r else L) → G data' = r

variable {ρ σ : Type} [RunEnd ρ] [RunEnd σ] {L : Nat} {mem : Mem} {p : Nat}

theorem OnceAt.map {r : ρ} {G : List UInt8 → ρ} {r' : σ} {G' : List UInt8 → σ} (h : OnceAt L mem p r G)
    (hs : st r' = st r) (hp : pos r' = pos r) (hG : ∀ data, data.length = L → G data = r → G' data = r') :
    OnceAt L mem p r' G' := by
  obtain ⟨h1, data, h2, h3, h4⟩ := h
  refine ⟨by rw [hs, hp]; exact h1, data, h2, h3, fun data' hl ha => ?_⟩
  rw [hs, hp] at ha
  exact hG data' hl (h4 data' hl ha)

/-- A failure stays a failure. -/
theorem OnceAt.bad {r : ρ} {G : List UInt8 → ρ} {r' : σ} {G' : List UInt8 → σ} (h : OnceAt L mem p r G)
    (hs : st r' ≠ .ok) (hG : ∀ data, data.length = L → G data = r → G' data = r') :
    OnceAt L mem p r' G' := by
  obtain ⟨h1, data, h2, h3, h4⟩ := h
  refine ⟨fun h => absurd h hs, data, h2, h3, fun data' hl ha => ?_⟩
  rw [if_neg hs] at ha
  refine hG data' hl (h4 data' hl fun i hi hq => ha i hi ?_)
  split at hq
  · next h => have := (h1 h).2; omega
  · exact hq

theorem getElem?_stitch {a b : List UInt8} {q i : Nat} (hq : q ≤ a.length) (hb : a.length = b.length) :
    (a.take q ++ b.drop q)[i]? = if i < q then a[i]? else b[i]? := by
  split
  · next h =>
    rw [List.getElem?_append_left (by simp; omega), List.getElem?_take, if_pos h]
  · next h =>
    rw [List.getElem?_append_right (by simp; omega), List.getElem?_drop]
    congr 1
    simp; omega

/-- One operation after another. -/
theorem OnceAt.seq {r : ρ} {G : List UInt8 → ρ} {r' : σ} {G' : List UInt8 → σ} (K : List UInt8 → σ) (h : OnceAt L mem p r G)
    (hs : st r = .ok) (hK : pos r ≤ L → OnceAt L mem (pos r) r' K) (hG : ∀ data, data.length = L → G data = r → G' data = K data) :
    OnceAt L mem p r' G' := by
  obtain ⟨h1, d1, l1, e1, f1⟩ := h
  obtain ⟨hp1, hp2⟩ := h1 hs
  obtain ⟨h2, d2, l2, e2, f2⟩ := hK hp2
  refine ⟨fun h => ⟨Nat.le_trans hp1 (h2 h).1, (h2 h).2⟩, d1.take (pos r) ++ d2.drop (pos r), by simp; omega, ?_, ?_⟩
  · intro i b hb
    rw [getElem?_stitch (by omega) (by omega)] at hb
    split at hb
    · exact e1 i b hb
    · exact e2 i b hb
  · intro data' hl ha
    have hle : pos r ≤ (if st r' = .ok then pos r' else L) := by
      split
      · next h => exact (h2 h).1
      · exact hp2
    rw [hG data' hl (f1 data' hl ?_)]
    · refine f2 data' hl fun i hi hq => ?_
      have := ha i (by omega) hq
      rw [getElem?_stitch (by omega) (by omega), if_neg (by omega)] at this
      exact this
    · intro i hi hq
      rw [if_pos hs] at hq
      have := ha i hi (by omega)
      rw [getElem?_stitch (by omega) (by omega), if_pos hq] at this
      exact this

theorem held_self (q j : Nat) : Held mem (mem q j) := fun _ _ h => ⟨q, j, h⟩

/-- Nothing is read. -/
theorem OnceAt.const {r : ρ} {G : List UInt8 → ρ} (hL : Sized L mem) (hp : p ≤ L) (hpos : st r = .ok → pos r = p)
    (hG : ∀ data, data.length = L → G data = r) : OnceAt L mem p r G :=
  ⟨fun h => by rw [hpos h]; exact ⟨Nat.le_refl _, hp⟩, mem 0 0, hL 0 0, held_self 0 0, fun d hl _ => hG d hl⟩

theorem agree_drop {a b : List UInt8} {p q : Nat} (h : AgreeOn a b p q) : (a.drop p).take (q - p) = (b.drop p).take (q - p) := by
  apply List.ext_getElem?
  intro i
  rw [List.getElem?_take, List.getElem?_take]
  split
  · rw [List.getElem?_drop, List.getElem?_drop, h _ (by omega) (by omega)]
  · rfl

theorem agree_dropAll {a b : List UInt8} {p : Nat} (ha : a.length = L) (hb : b.length = L) (h : AgreeOn a b p L) : a.drop p = b.drop p := by
  have := agree_drop h
  rwa [List.take_of_length_le (by simp; omega), List.take_of_length_le (by simp; omega)] at this

theorem getBytes_once (hL : Sized L mem) (hp : p ≤ L) (n : Nat) : OnceAt L mem p (getBytes (mem p 0) p n) (fun data => getBytes data p n) := by
  have hsafe := getBytesT_safe (hL p 0) n hp
  refine ⟨fun h => ⟨hsafe.1.mono, hsafe.1.inb⟩, mem p 0, hL p 0, held_self p 0, fun data hl ha => ?_⟩
  unfold getBytes at ha ⊢
  simp only [hl, hL p 0] at ha ⊢
  split
  · rfl
  · next h1 =>
    rw [if_neg h1] at ha
    split
    · next h2 =>
      rw [if_pos h2] at ha
      change AgreeOn _ _ p (if Status.ok = Status.ok then p + n else L) at ha
      rw [if_pos rfl] at ha
      have := agree_drop ha
      rw [Nat.add_sub_cancel_left] at this
      rw [this]
    · rfl

/-- Every byte is fetched once, or the two fetches agree. -/
def Steadily (inl : Bool) (mem : Mem) : Prop := inl = true ∨ Steady mem

theorem getVarint_once (hL : Sized L mem) (hst : Steadily inl mem) (hp : p ≤ L) {n : Nat} (hn : IntWidth n) (zz : Bool) (old : Val) :
    OnceAt L mem p (getVarintT inl n zz old (mem p) p) (fun data => getVarint n zz old data p) := by
  have hsafe := (getVarintT_safe (inl := inl) (hL p) hn zz old hp).1
  have h : ∃ j, getVarintT inl n zz old (mem p) p = getVarint n zz old (mem p j) p := by
    by_cases hi : inl = true
    · refine ⟨0, ?_⟩
      unfold getVarintT getVarint
      rw [if_neg (by rw [hL]; omega), if_pos hi, if_neg (by rw [hL]; omega), readVarintRaw_eq_decode n hn]
      rfl
    have hst := hst.resolve_left hi
    have key : ∀ b rest, (mem p 0).drop p = b :: rest → b.toNat &&& 0x80 = 0 →
        getVarint n zz old (mem p 0) p = ⟨.ok, .num (varintStore n zz b.toNat), p + 1⟩ := by
      intro b rest h1 h2
      unfold getVarint
      rw [if_neg (by rw [hL]; omega), h1]
      simp only [readVarintRaw, if_pos h2]
    have key2 : getVarint n zz old (mem p 2) p = (match decodeVarint n ((mem p 2).drop p) with
        | .ok x len => (⟨.ok, .num (varintStore n zz x), p + len⟩ : Res)
        | .err e => ⟨.err e, old, p⟩
        | .ub => ⟨.ub, old, p⟩) := by
      unfold getVarint
      rw [if_neg (by rw [hL]; omega), readVarintRaw_eq_decode n hn]
      cases decodeVarint n ((mem p 2).drop p) <;> rfl
    unfold getVarintT
    rw [if_neg (by rw [hL]; omega), if_neg hi]
    split
    · next b rest hb =>
      split
      · next h2 =>
        refine ⟨0, ?_⟩
        rw [key b rest hb h2]
        have : ((mem p 1).drop p).headD 0 = b := by
          rw [List.headD_eq_head?_getD, List.head?_drop, hst p, ← List.head?_drop, hb]; rfl
        rw [this]
      · exact ⟨2, key2.symm⟩
    · exact ⟨2, key2.symm⟩
  obtain ⟨j, hj⟩ := h
  refine ⟨fun h => ⟨hsafe.mono, hsafe.inb⟩, mem p j, hL p j, held_self p j, fun data hl ha => ?_⟩
  rw [hj] at ha ⊢
  dsimp only
  change AgreeOn _ _ p (if (getVarint n zz old (mem p j) p).s = .ok then (getVarint n zz old (mem p j) p).p else L) at ha
  by_cases hok : (getVarint n zz old (mem p j) p).s = .ok
  · have hg : (getVarint n zz old (mem p j) p).t = (.ok, (getVarint n zz old (mem p j) p).v, (getVarint n zz old (mem p j) p).p) := by
      unfold Res.t; rw [hok]
    obtain ⟨w, rest, h1, h2, h3⟩ := getVarint_loc hn zz old (mem p j) p _ _ (by rw [hL]; exact hp) hg
    have h4 := (h3 old).full data p (data.drop (p + w.length)) (by omega) (by
      rw [if_pos hok] at ha
      have := agree_drop ha
      rw [h2, Nat.add_sub_cancel_left, h1] at this
      rw [List.take_left'  rfl] at this
      have h5 := List.take_append_drop w.length (data.drop p)
      rw [← this, List.drop_drop] at h5
      exact h5.symm)
    dsimp only at h4
    rw [← h2, ← hg] at h4
    generalize getVarint n zz old (mem p j) p = x at *
    generalize getVarint n zz old data p = y at *
    obtain ⟨a, b, c⟩ := x
    obtain ⟨a', b', c'⟩ := y
    cases h4; rfl
  · rw [if_neg hok] at ha
    have := agree_dropAll (hL p j) hl ha
    unfold getVarint
    rw [hl, hL, this]

local macro "same" : term => `(fun _ _ e => by (try dsimp only at e); (try dsimp only); rw [e])

theorem decHdr_once (hL : Sized L mem) (hst : Steadily inl mem) (hp : p ≤ L) (c : Cfg) (sz : SizeTy) :
    OnceAt L mem p (decHdrT inl c sz mem p) (fun data => decHdr c sz data p) := by
  cases sz with
  | fixed k =>
    have h := getBytes_once hL hp k
    simp only [decHdrT, decHdr]
    generalize getBytes (mem p 0) p k = r at *
    obtain ⟨s, bs, p'⟩ := r
    cases s <;> exact h.map rfl rfl same
  | varint =>
    have h := getVarint_once hL hst hp intWidth8 false (.num 0)
    simp only [decHdrT, decHdr]
    generalize getVarintT inl 8 false (.num 0) (mem p) p = r at *
    obtain ⟨s, v, p'⟩ := r
    cases s
    · cases v
      case num x => exact h.map rfl rfl same
      all_goals exact h.bad nofun same
    all_goals exact h.map rfl rfl same
  | none => exact .const hL hp nofun (fun _ _ => rfl)

theorem decAll_once (hL : Sized L mem) {rec : Val → Nat → Res} {recG : Val → List UInt8 → Nat → Res}
    (h : ∀ v p, p ≤ L → OnceAt L mem p (rec v p) (fun data => recG v data p)) :
    ∀ vs p, p ≤ L → OnceAt L mem p (decAll rec vs p) (fun data => decAll (fun v p => recG v data p) vs p) := by
  intro vs
  induction vs with
  | nil => intro p hp; exact .const hL hp (fun _ => rfl) (fun _ _ => rfl)
  | cons o os ih =>
    intro p hp
    have h1 := h o p hp
    simp only [decAll]
    generalize rec o p = r at *
    obtain ⟨s, v, p'⟩ := r
    cases s
    · exact h1.seq (fun data => (⟨(decAll (fun v p => recG v data p) os p').s, v :: (decAll (fun v p => recG v data p) os p').vs,
        (decAll (fun v p => recG v data p) os p').p⟩ : ResL)) rfl (fun hp' => (ih p' hp').map rfl rfl same) same
    all_goals exact h1.map rfl rfl same

theorem decFields_once (hL : Sized L mem) {rec : Ty → Val → Nat → Res} {recG : Ty → Val → List UInt8 → Nat → Res} :
    ∀ ts vs p, (∀ t ∈ ts, ∀ v p, p ≤ L → OnceAt L mem p (rec t v p) (fun data => recG t v data p)) → p ≤ L →
    OnceAt L mem p (decFields rec ts vs p) (fun data => decFields (fun t v p => recG t v data p) ts vs p) := by
  intro ts
  induction ts with
  | nil => intro vs p _ hp; exact .const hL hp (fun _ => rfl) (fun _ _ => rfl)
  | cons t ts ih =>
    intro os p h hp
    have h1 := h t (by simp) (os.headD .unit) p hp
    simp only [decFields]
    generalize rec t (os.headD .unit) p = r at *
    obtain ⟨s, v, p'⟩ := r
    cases s
    · exact h1.seq (fun data => (⟨(decFields (fun t v p => recG t v data p) ts os.tail p').s,
        v :: (decFields (fun t v p => recG t v data p) ts os.tail p').vs,
        (decFields (fun t v p => recG t v data p) ts os.tail p').p⟩ : ResL)) rfl
        (fun hp' => (ih os.tail p' (fun t ht => h t (by simp [ht])) hp').map rfl rfl same) same
    all_goals exact h1.map rfl rfl same

theorem decRep_once (hL : Sized L mem) (hp : p ≤ L) (c : Cfg) (t : Ty) (n : Nat) (olds : List Val) :
    OnceAt L mem p (decRep c t n olds (mem p 0) p) (fun data => decRep c t n olds data p) := by
  unfold decRep
  by_cases h0 : n * c.sizeof t = 0
  · simp only [if_pos h0]; exact .const hL hp (fun _ => rfl) (fun _ _ => rfl)
  · simp only [if_neg h0]
    have h := getBytes_once hL hp (n * c.sizeof t)
    generalize getBytes (mem p 0) p (n * c.sizeof t) = r at *
    obtain ⟨s, bs, p'⟩ := r
    cases s <;> exact h.map rfl rfl same

theorem decAssoc_once (hL : Sized L mem) {elem : Nat → Res} {elemG : List UInt8 → Nat → Res} {ins : Val → List Val → List Val}
    (h : ∀ p, p ≤ L → OnceAt L mem p (elem p) (fun data => elemG data p)) :
    ∀ n vs p, p ≤ L → OnceAt L mem p (decAssoc elem ins n vs p) (fun data => decAssoc (fun p => elemG data p) ins n vs p) := by
  intro n
  induction n with
  | zero => intro vs p hp; exact .const hL hp (fun _ => rfl) (fun _ _ => rfl)
  | succ n ih =>
    intro vs p hp
    have h1 := h p hp
    simp only [decAssoc]
    generalize elem p = r at *
    obtain ⟨s, v, p'⟩ := r
    cases s
    · exact h1.seq (fun data => decAssoc (fun p => elemG data p) ins n (ins v vs) p') rfl (fun hp' => ih _ p' hp') same
    all_goals exact h1.map rfl rfl same

theorem OnceAt.toRes {r : ResL} {G : List UInt8 → ResL} (h : OnceAt L mem p r G) : OnceAt L mem p r.toRes (fun data => (G data).toRes) :=
  h.map rfl rfl same

theorem decAlt_once {rec : Val → Nat → Res} {recG : Val → List UInt8 → Nat → Res} (hp : p ≤ L)
    (h : ∀ v p, p ≤ L → OnceAt L mem p (rec v p) (fun data => recG v data p)) (dc : Bool) (i : Nat) (dv old : Val) :
    OnceAt L mem p (decAlt rec dc i dv old p) (fun data => decAlt (fun v p => recG v data p) dc i dv old p) := by
  unfold decAlt
  cases dc
  · simp only [Bool.false_eq_true, if_false]
    have h1 := h dv p hp
    generalize rec dv p = r at *
    obtain ⟨s, v, p'⟩ := r
    cases s <;> exact h1.map rfl rfl same
  · simp only [if_true]
    exact (h _ p hp).map rfl rfl same

theorem seqBody_once (hL : Sized L mem) (hp : p ≤ L) {rec : Val → Nat → Res} {recG : Val → List UInt8 → Nat → Res}
    (h : ∀ v p, p ≤ L → OnceAt L mem p (rec v p) (fun data => recG v data p)) (c : Cfg) (k : SeqKind) (t : Ty) (olds : List Val) :
    OnceAt L mem p (seqBody c k t rec olds (mem p 0) p) (fun data => seqBody c k t (fun v p => recG v data p) olds data p) := by
  unfold seqBody
  by_cases hb : k ≠ .list ∧ asBytes c t = true
  · simp only [if_pos hb]; exact (decRep_once hL hp c t _ olds).toRes
  · simp only [if_neg hb]; exact (decAll_once hL h olds p hp).toRes

theorem seqFill_once (hL : Sized L mem) (hp : p ≤ L) {rec : Val → Nat → Res} {recG : Val → List UInt8 → Nat → Res}
    (h : ∀ v p, p ≤ L → OnceAt L mem p (rec v p) (fun data => recG v data p)) (c : Cfg) (k : SeqKind) (t : Ty) (dv old : Val) (n : Nat) :
    OnceAt L mem p (seqFill c k t rec dv old (mem p 0) n p) (fun data => seqFill c k t (fun v p => recG v data p) dv old data n p) := by
  have hres : ∀ k', OnceAt L mem p
      (if c.g.limit ≠ sizeMax ∧ c.g.limit / c.sizeof t < n then ⟨.err .messageSize, old, p⟩
        else if c.g.maxMem < n * c.sizeof t then ⟨.badAlloc, old, p⟩
        else seqBody c k' t rec (resizeVals old.elems n dv) (mem p 0) p)
      (fun data => if c.g.limit ≠ sizeMax ∧ c.g.limit / c.sizeof t < n then ⟨.err .messageSize, old, p⟩
        else if c.g.maxMem < n * c.sizeof t then ⟨.badAlloc, old, p⟩
        else seqBody c k' t (fun v p => recG v data p) (resizeVals old.elems n dv) data p) := by
    intro k'
    by_cases h1 : c.g.limit ≠ sizeMax ∧ c.g.limit / c.sizeof t < n
    · simp only [if_pos h1]; exact .const hL hp nofun (fun _ _ => rfl)
    · simp only [if_neg h1]
      by_cases h2 : c.g.maxMem < n * c.sizeof t
      · simp only [if_pos h2]; exact .const hL hp nofun (fun _ _ => rfl)
      · simp only [if_neg h2]; exact seqBody_once hL hp h c k' t _
  cases k with
  | view =>
    have h1 := getBytes_once hL hp n
    have e : ∀ data : List UInt8, seqFill c .view t (fun v p => recG v data p) dv old data n p = match getBytes data p n with
        | (.ok, bs, p') => ⟨.ok, .list (unrepAll c.host c.sizeof t n bs), p'⟩
        | (s, _, p') => ⟨s, old, p'⟩ := by
      intro data
      unfold seqFill getBytes
      dsimp only
      split
      · rfl
      · split <;> rfl
    have e' : seqFill c .view t rec dv old (mem p 0) n p = match getBytes (mem p 0) p n with
        | (.ok, bs, p') => ⟨.ok, .list (unrepAll c.host c.sizeof t n bs), p'⟩
        | (s, _, p') => ⟨s, old, p'⟩ := by
      unfold seqFill getBytes
      dsimp only
      split
      · rfl
      · split <;> rfl
    rw [e']
    simp only [e]
    generalize getBytes (mem p 0) p n = r at *
    obtain ⟨s, bs, p'⟩ := r
    cases s <;> exact h1.map rfl rfl same
  | span =>
    simp only [seqFill]
    by_cases h1 : old.elems.length < n
    · simp only [if_pos h1]; exact .const hL hp nofun (fun _ _ => rfl)
    · simp only [if_neg h1]; exact seqBody_once hL hp h c .span t _
  | vector => exact hres _
  | list => exact hres _

theorem seqUnsized_once (hL : Sized L mem) (hp : p ≤ L) {rec : Val → Nat → Res} {recG : Val → List UInt8 → Nat → Res}
    (h : ∀ v p, p ≤ L → OnceAt L mem p (rec v p) (fun data => recG v data p)) (c : Cfg) (k : SeqKind) (t : Ty) (old : Val) :
    OnceAt L mem p (seqUnsized c k t rec old (mem p 0) p) (fun data => seqUnsized c k t (fun v p => recG v data p) old data p) := by
  cases k with
  | view =>
    unfold seqUnsized
    dsimp only
    rw [hL p 0, if_neg (by omega)]
    refine ⟨fun _ => ⟨hp, Nat.le_refl _⟩, mem p 0, hL p 0, held_self p 0, fun data hl ha => ?_⟩
    change AgreeOn _ _ p (if Status.ok = .ok then L else L) at ha
    rw [if_pos rfl] at ha
    dsimp only
    rw [hl, if_neg (by omega), agree_dropAll (hL p 0) hl ha]
  | _ => exact seqBody_once hL hp h c _ t _

theorem pbFetch_once {elem : Nat → Res} {elemG : List UInt8 → Nat → Res}
    (h : OnceAt L mem p (elem p) (fun data => elemG data p)) (c : Cfg) (t : Ty) (vs : List Val) :
    OnceAt L mem p (pbFetch c t elem vs p) (fun data => pbFetch c t (fun p => elemG data p) vs p) := by
  unfold pbFetch
  generalize elem p = r at *
  obtain ⟨s, v, p'⟩ := r
  cases s <;> exact h.map rfl rfl same

theorem pbPacked_once (hL : Sized L mem) {fetch : List Val → Nat → ResL} {fetchG : List UInt8 → List Val → Nat → ResL} {e : Nat}
    (h : ∀ vs p, p ≤ L → OnceAt L mem p (fetch vs p) (fun data => fetchG data vs p)) :
    ∀ f vs p, p ≤ L → OnceAt L mem p (pbPacked fetch e f vs p) (fun data => pbPacked (fetchG data) e f vs p) := by
  intro f
  induction f with
  | zero => intro vs p hp; exact .const hL hp nofun (fun _ _ => rfl)
  | succ f ih =>
    intro vs p hp
    simp only [pbPacked]
    by_cases hlt : p < e
    · simp only [if_pos hlt]
      have h1 := h vs p hp
      generalize fetch vs p = r at *
      obtain ⟨s, vs', p'⟩ := r
      cases s
      · exact h1.seq (fun data => pbPacked (fetchG data) e f vs' p') rfl (fun hp' => ih vs' p' hp') same
      all_goals exact h1.map rfl rfl same
    · simp only [if_neg hlt]; exact .const hL hp (fun _ => rfl) (fun _ _ => rfl)

theorem OnceAt.congr {r : ρ} {G G' : List UInt8 → ρ} (h : OnceAt L mem p r G) (hG : ∀ data, data.length = L → G' data = G data) :
    OnceAt L mem p r G' :=
  h.map rfl rfl (fun data hl e => (hG data hl).trans e)

theorem pbDecPacked_once (hL : Sized L mem) (hst : Steadily inl mem) (hp : p ≤ L) {c : Cfg} {rec : Ty → Val → Nat → Res}
    {recG : Ty → Val → List UInt8 → Nat → Res} {t elemTy : Ty} {fix : Bool} {wt : Nat} {old : Val}
    (he : ∀ v p, p ≤ L → OnceAt L mem p (rec elemTy v p) (fun data => recG elemTy v data p))
    (ht : ∀ v p, p ≤ L → OnceAt L mem p (rec (unsizedTy t) v p) (fun data => recG (unsizedTy t) v data p)) :
    OnceAt L mem p (pbDecPackedT inl c rec t elemTy fix wt old mem p)
      (fun data => pbDecPacked c (fun t v p => recG t v data p) t elemTy fix wt old data p) := by
  unfold pbDecPackedT pbDecPacked
  dsimp only
  have hf : ∀ vs p, p ≤ L → OnceAt L mem p (pbFetch c t (rec elemTy .unit) vs p)
      (fun data => pbFetch c t (fun p => recG elemTy .unit data p) vs p) := fun vs p hp =>
    pbFetch_once (he .unit p hp) c t vs
  by_cases hwt : wt ≠ 2
  · simp only [if_pos hwt]; exact (hf _ p hp).toRes
  · simp only [if_neg hwt]
    have h1 := decHdr_once hL hst hp c .varint
    generalize decHdrT inl c .varint mem p = r at *
    obtain ⟨s, len, p1⟩ := r
    cases s
    · refine h1.seq (fun data => if (hasResize t && fix) = true then
        if c.g.limit ≠ sizeMax ∧ c.g.limit < len then ⟨.err .messageSize, old, p1⟩
        else if c.g.maxMem < len / c.sizeof elemTy * c.sizeof elemTy then ⟨.badAlloc, old, p1⟩
        else recG (unsizedTy t) (.list (resizeVals old.elems (len / c.sizeof elemTy) (.num 0))) data p1
      else if hasReserve t = true ∧ c.g.maxMem < len * c.sizeof elemTy then ⟨.badAlloc, old, p1⟩
      else (pbPacked (fun vs p => pbFetch c t (fun p => recG elemTy .unit data p) vs p) (wrap (len + p1)) (L + 1) old.elems p1).toRes) rfl
        (fun hp1 => ?_) (fun data hl e => by rw [e, hl])
      dsimp only
      rw [hL p 0]
      by_cases b1 : (hasResize t && fix) = true
      · simp only [if_pos b1]
        by_cases b2 : c.g.limit ≠ sizeMax ∧ c.g.limit < len
        · simp only [if_pos b2]; exact .const hL hp1 nofun (fun _ _ => rfl)
        · simp only [if_neg b2]
          by_cases b3 : c.g.maxMem < len / c.sizeof elemTy * c.sizeof elemTy
          · simp only [if_pos b3]; exact .const hL hp1 nofun (fun _ _ => rfl)
          · simp only [if_neg b3]; exact ht _ _ hp1
      · simp only [if_neg b1]
        by_cases b2 : hasReserve t = true ∧ c.g.maxMem < len * c.sizeof elemTy
        · simp only [if_pos b2]; exact .const hL hp1 nofun (fun _ _ => rfl)
        · simp only [if_neg b2]
          exact (pbPacked_once hL hf _ _ _ hp1).toRes
    all_goals exact h1.map rfl rfl same

theorem pbDecField_once (hL : Sized L mem) (hst : Steadily inl mem) (hp : p ≤ L) {c : Cfg} {rec : Ty → Val → Nat → Res}
    {recG : Ty → Val → List UInt8 → Nat → Res} {fresh : Ty → Val} {t : Ty} {wt : Nat} {old : Val} (hw : widthsOk t = true)
    (hr : ∀ t v p, widthsOk t = true → p ≤ L → OnceAt L mem p (rec t v p) (fun data => recG t v data p)) :
    OnceAt L mem p (pbDecFieldT inl c rec fresh t wt old mem p)
      (fun data => pbDecField c (fun t v p => recG t v data p) fresh t wt old data p) := by
  have hE : ∀ e, pbInClass t = pbElemClass e → widthsOk e = true →
      OnceAt L mem p (pbDecFieldT inl c rec fresh t wt old mem p)
        (fun data => pbDecField c (fun t v p => recG t v data p) fresh t wt old data p) := by
    intro e hcl hwe
    unfold pbDecFieldT pbDecField
    simp only [hcl]
    have hu := fun v p hp => hr (unsizedTy t) v p (widthsOk_unsized hw) hp
    cases e with
    | scalar k n =>
      cases k <;> simp only [pbElemClass]
      case enum => exact pbDecPacked_once hL hst hp (fun v p hp => hr _ v p (widthsOk_varint hwe (.inl rfl)) hp) hu
      all_goals exact pbDecPacked_once hL hst hp (fun v p hp => hr _ v p hwe hp) hu
    | bool => exact pbDecPacked_once hL hst hp (fun v p hp => hr _ v p hwe hp) hu
    | varint n zz => exact pbDecPacked_once hL hst hp (fun v p hp => hr _ v p hwe hp) hu
    | _ => exact (pbFetch_once (hr _ _ p hwe hp) c t _).toRes
  cases t with
  | scalar k n =>
    cases k
    case enum => exact getVarint_once hL hst hp (intWidth_iff.mp (widthsOk_varint hw (.inl rfl))) _ _
    case byte => exact getVarint_once hL hst hp (intWidth_iff.mp (widthsOk_varint hw (.inr rfl))) _ _
    all_goals exact hr _ _ _ hw hp
  | seq k sz e => exact hE e rfl hw
  | assoc mu ha sz key m =>
    cases m with
    | none => exact hE key rfl hw
    | some m =>
      simp only [widthsOk, Bool.and_eq_true] at hw
      exact (pbFetch_once (hr _ _ p (widthsOk_entry hw.1 hw.2) hp) c _ _).toRes
  | empty => first | exact hr _ _ _ hw hp | exact .const hL hp (fun _ => rfl) (fun _ _ => rfl)
  | _ => exact hr _ _ _ hw hp

theorem pbDispatch_once (hL : Sized L mem) {field : Ty → Nat → Val → Nat → Res} {fieldG : List UInt8 → Ty → Nat → Val → Nat → Res}
    {maps : List (Nat × Nat)} {num wt : Nat} :
    ∀ fs nums i vs p, (∀ t ∈ fs, ∀ wt v p, p ≤ L → OnceAt L mem p (field t wt v p) (fun data => fieldG data t wt v p)) → p ≤ L →
    OnceAt L mem p (pbDispatch field maps num wt i nums fs vs p) (fun data => pbDispatch (fieldG data) maps num wt i nums fs vs p) := by
  have hend : ∀ os p, p ≤ L → OnceAt L mem p (if num = 0 then (⟨.err .protocolError, os, p⟩ : ResL) else ⟨.ok, os, p⟩)
      (fun _ => if num = 0 then (⟨.err .protocolError, os, p⟩ : ResL) else ⟨.ok, os, p⟩) := by
    intro os p hp
    by_cases h : num = 0
    · simp only [if_pos h]; exact .const hL hp nofun (fun _ _ => rfl)
    · simp only [if_neg h]; exact .const hL hp (fun _ => rfl) (fun _ _ => rfl)
  intro fs
  induction fs with
  | nil => intro nums i vs p _ hp; cases nums <;> exact hend vs p hp
  | cons t ts ih =>
    intro nums i os p h hp
    cases nums with
    | nil => exact hend os p hp
    | cons n nums =>
      simp only [pbDispatch]
      by_cases hn : pbNumber maps n i = num
      · simp only [if_pos hn]; exact (h t (by simp) _ _ p hp).map rfl rfl same
      · simp only [if_neg hn]
        exact (ih nums (i + 1) os.tail p (fun t ht => h t (by simp [ht])) hp).map rfl rfl same

theorem pbLoop_once (hL : Sized L mem) (hst : Steadily inl mem) {field : Ty → Nat → Val → Nat → Res}
    {fieldG : List UInt8 → Ty → Nat → Val → Nat → Res} {maps : List (Nat × Nat)} {nums : List (Option Nat)} {fs : List Ty}
    (h : ∀ t ∈ fs, ∀ wt v p, p ≤ L → OnceAt L mem p (field t wt v p) (fun data => fieldG data t wt v p)) :
    ∀ f vs p, p ≤ L → OnceAt L mem p (pbLoopT inl field maps nums fs mem f vs p)
      (fun data => pbLoop (fieldG data) maps nums fs data f vs p) := by
  intro f
  induction f with
  | zero => intro vs p hp; exact .const hL hp nofun (fun _ _ => rfl)
  | succ f ih =>
    intro vs p hp
    simp only [pbLoopT, pbLoop]
    rw [hL p 0]
    by_cases hlt : p < L
    · rw [if_pos hlt]
      have h1 := getVarint_once hL hst hp (n := 4) (by decide) false (.num 0)
      generalize getVarintT inl 4 false (.num 0) (mem p) p = r at *
      obtain ⟨s, v, p1⟩ := r
      cases s
      · cases v
        case num tag =>
          refine h1.seq (fun data => match pbDispatch (fieldG data) maps (tag >>> 3) (tag &&& 7) 0 nums fs vs p1 with
            | ⟨.ok, vs', p2⟩ => pbLoop (fieldG data) maps nums fs data f vs' p2
            | r => r) rfl (fun hp1 => ?_) (fun data hl e => by
              rw [if_pos (by omega), e]
              dsimp only
              generalize pbDispatch (fieldG data) maps (tag >>> 3) (tag &&& 7) 0 nums fs vs p1 = q
              obtain ⟨s, vs', p2⟩ := q
              cases s <;> rfl)
          have h2 := pbDispatch_once hL (maps := maps) (num := tag >>> 3) (wt := tag &&& 7) fs nums 0 vs p1 h hp1
          dsimp only
          generalize pbDispatch field maps (tag >>> 3) (tag &&& 7) 0 nums fs vs p1 = q at *
          obtain ⟨s, vs', p2⟩ := q
          cases s
          · exact h2.seq (fun data => pbLoop (fieldG data) maps nums fs data f vs' p2) rfl (fun hp2 => ih vs' p2 hp2) same
          all_goals exact h2.map rfl rfl same
        all_goals exact h1.bad nofun (fun data hl e => by rw [if_pos (by omega), e])
      all_goals exact h1.map rfl rfl (fun data hl e => by rw [if_pos (by omega), e])
    · rw [if_neg hlt]
      exact .const hL hp (fun _ => rfl) (fun data hl => by rw [hl, if_neg hlt])

theorem msgSub_get {data : List UInt8} {p size i : Nat} :
    (msgSub data p size)[i]? = if i < min size (data.length - p) then data[p + i]? else none := by
  unfold msgSub
  rw [List.getElem?_take, List.getElem?_drop]

theorem sized_sub (hL : Sized L mem) (p size : Nat) : Sized (min size (L - p)) (memSub mem p size) := fun q j => by
  show (msgSub (mem (p + q) j) p size).length = _
  rw [msgSub_length, hL]

theorem steady_sub (hL : Sized L mem) (hst : Steadily inl mem) (p size : Nat) : Steadily inl (memSub mem p size) := hst.imp id fun hst q => by
  show (msgSub (mem (p + q) 1) p size)[q]? = (msgSub (mem (p + q) 0) p size)[q]?
  rw [msgSub_get, msgSub_get, hL, hL, hst]

theorem OnceAt.sub (hL : Sized L mem) (hp : p ≤ L) {size : Nat} {r : ResL} {G : List UInt8 → ResL}
    (h : OnceAt (min size (L - p)) (memSub mem p size) 0 r G) :
    OnceAt L mem p (⟨r.s, .list r.vs, p + r.p⟩ : Res)
      (fun data => ⟨(G (msgSub data p size)).s, .list (G (msgSub data p size)).vs, p + (G (msgSub data p size)).p⟩) := by
  obtain ⟨h1, sub, l, e, f⟩ := h
  have hd : ∀ i : Nat, ((mem 0 0).take p ++ (sub ++ (mem 0 0).drop (p + min size (L - p))))[i]? =
      if i < p then (mem 0 0)[i]? else if i < p + min size (L - p) then sub[i - p]? else (mem 0 0)[i]? := by
    intro i
    have h0 := hL 0 0
    split
    · next h => rw [List.getElem?_append_left (by simp; omega), List.getElem?_take, if_pos h]
    · have hlen : ((mem 0 0).take p).length = p := by simp; omega
      rw [List.getElem?_append_right (by omega), hlen]
      split
      · rw [List.getElem?_append_left (by omega)]
      · rw [List.getElem?_append_right (by omega), List.getElem?_drop]
        congr 1
        omega
  refine ⟨fun h => ?_, (mem 0 0).take p ++ (sub ++ (mem 0 0).drop (p + min size (L - p))), ?_, ?_, ?_⟩
  · have h2 := (h1 h).2
    change r.p ≤ _ at h2
    show p ≤ p + r.p ∧ p + r.p ≤ L
    omega
  · have h0 := hL 0 0
    simp only [List.length_append, List.length_take, List.length_drop, h0, l]
    omega
  · intro i b hb
    rw [hd] at hb
    split at hb
    · exact ⟨0, 0, hb⟩
    · split at hb
      · obtain ⟨q, j, hq⟩ := e _ _ hb
        change (msgSub (mem (p + q) j) p size)[i - p]? = some b at hq
        rw [msgSub_get] at hq
        split at hq
        · exact ⟨p + q, j, by rwa [Nat.add_sub_cancel' (by omega)] at hq⟩
        · cases hq
      · exact ⟨0, 0, hb⟩
  · intro data' hl ha
    have : G (msgSub data' p size) = r := by
      refine f _ (by rw [msgSub_length, hl]) fun i _ hi => ?_
      have hi' : i < min size (L - p) := by
        split at hi
        · next h => have := (h1 h).2; omega
        · exact hi
      rw [msgSub_get, hl, if_pos hi', ← ha (p + i) (by omega) ?_, hd, if_neg (by omega), if_pos (by omega), Nat.add_sub_cancel_left]
      change p + i < if r.s = .ok then p + r.p else L
      change i < if r.s = .ok then r.p else min size (L - p) at hi
      split
      · next h => rw [if_pos h] at hi; omega
      · omega
    dsimp only
    rw [this]

theorem msgRun_once (hL : Sized L mem) (hst : Steadily inl mem) {c' : Cfg} {rec : Ty → Val → Mem → Nat → Res}
    {recG : Ty → Val → List UInt8 → Nat → Res} {fresh : Ty → Val} {maps : List (Nat × Nat)}
    {nums : List (Option Nat)} {fs : List Ty} {old : Val} (size p : Nat) (hp : p ≤ L) (hw : ∀ t ∈ fs, widthsOk t = true)
    (hr : ∀ t v L sub p, widthsOk t = true → Sized L sub → Steadily inl sub → p ≤ L →
      OnceAt L sub p (rec t v sub p) (fun data => recG t v data p)) :
    OnceAt L mem p (msgRunT inl c' rec fresh maps nums fs old mem size p) (fun data => msgRun c' recG fresh maps nums fs old data size p) := by
  have hs := sized_sub hL p size
  have hs' := steady_sub hL hst p size
  have h := pbLoop_once hs hs' (maps := maps) (nums := nums) (fs := fs)
    (field := fun t wt v q => pbDecFieldT inl c' (fun t v q => rec t v (memSub mem p size) q) fresh t wt v (memSub mem p size) q)
    (fieldG := fun sub t wt v q => pbDecField c' (fun t v q => recG t v sub q) fresh t wt v sub q)
    (fun t ht wt v q hq => pbDecField_once hs hs' hq (hw t ht) (fun t v q hw hq => hr t v _ _ q hw hs hs' hq))
    (min size (L - p) + 1) (pbClear fs old.elems) 0 (by omega)
  have h2 := h.sub hL hp
  unfold msgRunT msgRun
  rw [if_neg (by rw [hL]; omega)]
  dsimp only
  rw [hs 0 0]
  refine h2.congr fun data hl => ?_
  rw [if_neg (by omega), msgSub_length, hl]

theorem decode_once : ∀ (d : Nat) (c : Cfg) (t : Ty) (old : Val) (L : Nat) (mem : Mem) (p : Nat),
    (∀ i, widthsOk (c.env i) = true) → widthsOk t = true → Sized L mem → Steadily inl mem → p ≤ L →
    OnceAt L mem p (decodeT inl d c t old mem p) (fun data => decode d c t old data p) := by
  intro d
  induction d with
  | zero => intro c t old L mem p _ _ hL _ hp; exact .const hL hp nofun (fun _ _ => rfl)
  | succ d ih =>
    intro c t old L mem p henv hw hL hst hp
    have ih' : ∀ t', widthsOk t' = true → ∀ v p, p ≤ L → OnceAt L mem p (decodeT inl d c t' v mem p) (fun data => decode d c t' v data p) :=
      fun t' hw v p hp => ih c t' v L mem p henv hw hL hst hp
    cases t with
    | scalar k n =>
      simp only [decodeT, decode]
      have h := getBytes_once hL hp n
      generalize getBytes (mem p 0) p n = r at *
      obtain ⟨s, bs, p'⟩ := r
      cases s <;> exact h.map rfl rfl same
    | bool =>
      simp only [decodeT, decode]
      have h := getBytes_once hL hp 1
      generalize getBytes (mem p 0) p 1 = r at *
      obtain ⟨s, bs, p'⟩ := r
      cases s <;> exact h.map rfl rfl same
    | varint n zz => exact getVarint_once hL hst hp (intWidth_iff.mp hw) zz old
    | empty => exact .const hL hp (fun _ => rfl) (fun _ _ => rfl)
    | struct ok fs =>
      simp only [decodeT, decode]
      by_cases hb : asBytes c (.struct ok fs) = true
      · simp only [if_pos hb]
        exact (decRep_once hL hp c (.struct ok fs) 1 [old]).map rfl rfl same
      · simp only [hb, Bool.false_eq_true, if_false]
        exact (decFields_once hL fs _ p (fun t ht => ih' t (widthsOkL_mem hw t ht)) hp).toRes
    | array n t' =>
      simp only [decodeT, decode]
      by_cases hb : asBytes c t' = true
      · simp only [if_pos hb]; exact (decRep_once hL hp c t' n _).toRes
      · simp only [hb, Bool.false_eq_true, if_false]; exact (decAll_once hL (ih' t' hw) _ p hp).toRes
    | seq k sz t' =>
      simp only [decodeT, decode]
      generalize effSz c sz = z
      have hgo : OnceAt L mem p (match decHdrT inl c z mem p with
          | (.ok, n, p1) => seqFill c k t' (fun v p => decodeT inl d c t' v mem p) (dflt c d t') old (mem p1 0) n p1
          | (s', _, p1) => ⟨s', old, p1⟩ : Res) (fun data => match decHdr c z data p with
          | (.ok, n, p1) => seqFill c k t' (fun v p => decode d c t' v data p) (dflt c d t') old data n p1
          | (s', _, p1) => ⟨s', old, p1⟩) := by
        have h1 := decHdr_once hL hst hp c z
        generalize decHdrT inl c z mem p = r at *
        obtain ⟨s, n, p1⟩ := r
        cases s
        · exact h1.seq (fun data => seqFill c k t' (fun v p => decode d c t' v data p) (dflt c d t') old data n p1) rfl
            (fun hp1 => seqFill_once hL hp1 (ih' t' hw) c k t' _ old n) same
        all_goals exact h1.map rfl rfl same
      cases z with
      | none => exact seqUnsized_once hL hp (ih' t' hw) c k t' old
      | _ => exact hgo
    | assoc mu ha sz key m =>
      simp only [decodeT, decode]
      have h1 := decHdr_once hL hst hp c (effSz c sz)
      generalize decHdrT inl c (effSz c sz) mem p = r at *
      obtain ⟨s, n, p1⟩ := r
      cases s
      · cases m with
        | none =>
          exact h1.seq (fun data => (decAssoc (fun p => decode d c key (dflt c d key) data p)
            (assocInsert (c.keyLt key) mu ha false) n [] p1).toRes) rfl
            (fun hp1 => (decAssoc_once hL (fun p hp => ih' key hw _ p hp) n [] p1 hp1).toRes) (fun _ _ e => by rw [e]; rfl)
        | some m =>
          simp only [widthsOk, Bool.and_eq_true] at hw
          refine h1.seq (fun data => (decAssoc (fun p => (decFields (fun t v p => decode d c t v data p) [key, m]
            [dflt c d key, dflt c d m] p).toRes)
            (assocInsert (c.keyLt key) mu ha true) n [] p1).toRes) rfl
            (fun hp1 => (decAssoc_once hL (fun p hp => (decFields_once hL _ _ p ?_ hp).toRes) n [] p1 hp1).toRes) (fun _ _ e => by rw [e]; rfl)
          intro t ht
          simp only [List.mem_cons, List.not_mem_nil, or_false] at ht
          rcases ht with rfl | rfl
          · exact ih' _ hw.1
          · exact ih' _ hw.2
      all_goals exact h1.map rfl rfl same
    | optional dc t' =>
      simp only [decodeT, decode]
      have h1 := getBytes_once hL hp 1
      generalize getBytes (mem p 0) p 1 = r at *
      obtain ⟨s, bs, p1⟩ := r
      cases s
      · dsimp only
        by_cases h0 : leNat bs = 0
        · rw [if_pos h0]
          exact h1.map rfl rfl (fun data _ e => by (try dsimp only); rw [e]; exact if_pos h0)
        · rw [if_neg h0]
          cases dc
          · rw [if_neg (by simp)]
            refine h1.seq (fun data => match decode d c t' (dflt c d t') data p1 with
              | ⟨.ok, v, p2⟩ => ⟨.ok, .some v, p2⟩
              | ⟨s, _, p2⟩ => ⟨s, old, p2⟩) rfl (fun hp1 => ?_) (fun data _ e => by
                (try dsimp only); rw [e]; exact if_neg h0)
            have h2 := ih' t' hw (dflt c d t') p1 hp1
            generalize decodeT inl d c t' (dflt c d t') mem p1 = r at *
            obtain ⟨s, v, p2⟩ := r
            cases s <;> exact h2.map rfl rfl same
          · rw [if_pos rfl]
            refine h1.seq (fun data => (let r := decode d c t' (match old with | .some v => v | _ => dflt c d t') data p1
              ⟨r.s, .some r.v, r.p⟩)) rfl (fun hp1 => ?_) (fun data _ e => by
                (try dsimp only); rw [e]; exact if_neg h0)
            cases old <;> exact (ih' t' hw _ p1 hp1).map rfl rfl same
      all_goals exact h1.map rfl rfl same
    | optPtr t' =>
      simp only [decodeT, decode]
      have h1 := getBytes_once hL hp 1
      generalize getBytes (mem p 0) p 1 = r at *
      obtain ⟨s, bs, p1⟩ := r
      cases s
      · dsimp only
        by_cases h0 : leNat bs = 0
        · rw [if_pos h0]
          exact h1.map rfl rfl (fun data _ e => by (try dsimp only); rw [e]; exact if_pos h0)
        · rw [if_neg h0]
          refine h1.seq (fun data => match decode d c t' (dflt c d t') data p1 with
            | ⟨.ok, v, p2⟩ => ⟨.ok, .some v, p2⟩
            | ⟨s, _, p2⟩ => ⟨s, old, p2⟩) rfl (fun hp1 => ?_) (fun data _ e => by
              (try dsimp only); rw [e]; exact if_neg h0)
          have h2 := ih' t' hw (dflt c d t') p1 hp1
          generalize decodeT inl d c t' (dflt c d t') mem p1 = r at *
          obtain ⟨s, v, p2⟩ := r
          cases s <;> exact h2.map rfl rfl same
      all_goals exact h1.map rfl rfl same
    | uptr t' =>
      simp only [decodeT, decode]
      have h2 := ih' t' hw (dflt c d t') p hp
      generalize decodeT inl d c t' (dflt c d t') mem p = r at *
      obtain ⟨s, v, p2⟩ := r
      cases s <;> exact h2.map rfl rfl same
    | variant idTy ids dcs alts =>
      simp only [widthsOk, Bool.and_eq_true] at hw
      simp only [decodeT, decode]
      have h1 := ih' idTy hw.1 (dflt c d idTy) p hp
      generalize decodeT inl d c idTy (dflt c d idTy) mem p = r at *
      obtain ⟨s, id, p1⟩ := r
      cases s
      · dsimp only
        cases hid : findId id ids 0 with
        | none => exact h1.bad nofun (fun data _ e => by (try dsimp only); rw [e]; dsimp only; rw [hid])
        | some i =>
          dsimp only
          cases ht : alts[i]? with
          | none => exact h1.bad nofun (fun data _ e => by (try dsimp only); rw [e]; dsimp only; rw [hid]; dsimp only; rw [ht])
          | some t' =>
            cases hdc : dcs[i]? with
            | none => exact h1.bad nofun (fun data _ e => by (try dsimp only); rw [e]; dsimp only; rw [hid]; dsimp only; rw [ht, hdc])
            | some dc =>
              exact h1.seq (fun data => decAlt (fun v p => decode d c t' v data p) dc i (dflt c d t') old p1) rfl
                (fun hp1 => decAlt_once hp1 (ih' t' (widthsOkL_mem hw.2 t' (List.mem_of_getElem? ht))) dc i _ old)
                (fun data _ e => by (try dsimp only); rw [e]; dsimp only; rw [hid]; dsimp only; rw [ht, hdc])
      all_goals exact h1.map rfl rfl same
    | bitset n =>
      simp only [decodeT, decode]
      have h := getBytes_once hL hp ((n + 7) / 8)
      generalize getBytes (mem p 0) p ((n + 7) / 8) = r at *
      obtain ⟨s, bs, p'⟩ := r
      cases s <;> exact h.map rfl rfl same
    | msg sz ok maps nums fs =>
      have hrun : ∀ size p, p ≤ L → _ := fun size p hp =>
        msgRun_once hL hst (c' := pbCfg c) (rec := decodeT inl d (pbCfg c)) (recG := decode d (pbCfg c)) (fresh := dflt (pbCfg c) d)
          (maps := maps) (nums := nums) (fs := fs) (old := old) size p hp (widthsOkL_mem hw)
          (fun t v L sub p hw hL hst hp => ih (pbCfg c) t v L sub p henv hw hL hst hp)
      simp only [decodeT, decode]
      generalize effSz c sz = z
      have hgo : OnceAt L mem p (match decHdrT inl c z mem p with
          | (.ok, n, p1) => msgRunT inl (pbCfg c) (decodeT inl d (pbCfg c)) (dflt (pbCfg c) d) maps nums fs old mem n p1
          | (s', _, p1) => ⟨s', old, p1⟩ : Res) (fun data => match decHdr c z data p with
          | (.ok, n, p1) => msgRun (pbCfg c) (decode d (pbCfg c)) (dflt (pbCfg c) d) maps nums fs old data n p1
          | (s', _, p1) => ⟨s', old, p1⟩) := by
        have h1 := decHdr_once hL hst hp c z
        generalize decHdrT inl c z mem p = r at *
        obtain ⟨s, n, p1⟩ := r
        cases s
        · exact h1.seq (fun data => msgRun (pbCfg c) (decode d (pbCfg c)) (dflt (pbCfg c) d) maps nums fs old data n p1) rfl
            (fun hp1 => hrun _ _ hp1) same
        all_goals exact h1.map rfl rfl same
      cases z with
      | none => exact hrun _ _ hp
      | _ => exact hgo
    | ref i => exact ih' (c.env i) (henv i) old p hp

theorem decMany_once {d : Nat} {c : Cfg} (hL : Sized L mem) (hst : Steadily inl mem) (henv : ∀ i, widthsOk (c.env i) = true) :
    ∀ (items : List (Ty × Val)) (p : Nat), (∀ it ∈ items, widthsOk it.1 = true) → p ≤ L →
    OnceAt L mem p (decManyT inl d c mem items p) (fun data => decMany d c data items p) := by
  intro items
  induction items with
  | nil => intro p _ hp; exact .const hL hp (fun _ => rfl) (fun _ _ => rfl)
  | cons it rest ih =>
    intro p hw hp
    obtain ⟨t, o⟩ := it
    simp only [decManyT, decMany]
    have h1 := decode_once d c t o L mem p henv (hw (t, o) (by simp)) hL hst hp
    generalize decodeT inl d c t o mem p = r at *
    obtain ⟨s, v, p1⟩ := r
    cases s
    · exact h1.seq (fun data => (⟨(decMany d c data rest p1).s, v :: (decMany d c data rest p1).vs, (decMany d c data rest p1).p⟩ : ResL)) rfl
        (fun hp1 => (ih p1 (fun it h => hw it (by simp [h])) hp1).map rfl rfl same) same
    all_goals exact h1.map rfl rfl same

end Zpp
