import Verif.Spec.Indexed
import Verif.Props.RoundTrip
import Verif.Props.Output
/-! # A file with an index -/

namespace Zpp
open Spec Props

/-- The archive has written `pre` and nothing else. -/
structure Tidy (pre : List UInt8) (st : OutSt) : Prop where
  pos : st.pos = pre.length
  data : ∃ k, st.data = pre ++ List.replicate k 0
  len : st.data.length < 2 ^ 63

theorem limitRoom_le {g : Growth} {n m : Nat} (h : LimitRoom g m) (hn : n ≤ m) : LimitRoom g n := by
  have h1 : 2 * (n + 10) * g.mul ≤ 2 * (m + 10) * g.mul := Nat.mul_le_mul_right _ (by omega)
  exact ⟨Nat.lt_of_le_of_lt h1 h.1, Nat.le_trans (Nat.div_le_div_right h1) h.2⟩

theorem memRoom_le {g : Growth} {n m : Nat} (h : MemRoom g m) (hn : n ≤ m) : MemRoom g n := by
  have h1 : 2 * (n + 10) * g.mul ≤ 2 * (m + 10) * g.mul := Nat.mul_le_mul_right _ (by omega)
  exact Nat.le_trans (Nat.div_le_div_right h1) h

/-- One call. -/
theorem Tidy.step {d : Nat} {c : Cfg} {noFit : Bool} {items : List (Ty × Val)} {pre b : List UInt8} {st : OutSt} (h : Tidy pre st)
    (hr : c.g.resizable = true) (hs : Supported c items) (hd : StackOk d items) (hw : wireItems (fmtOf c) items = some b)
    (hl : b.length < 2 ^ 63) (hlim : LimitRoom c.g (pre.length + b.length)) (hmem : MemRoom c.g (pre.length + b.length)) :
    ∃ st', outCall d c noFit items st = (.ok, st') ∧ Tidy (pre ++ b) st' := by
  obtain ⟨k, hk⟩ := h.data
  have hp : st.pos ≤ st.data.length := by rw [h.pos, hk, List.length_append]; omega
  have hb : BitsOk items st := by
    refine Or.inr fun x hx => ?_
    rw [h.pos, hk, List.drop_left] at hx
    exact (List.mem_replicate.mp hx).2
  have hok := C06_growing_succeeds d c noFit items st b hr hp h.len hs hd hb hw hl (by rw [h.pos]; exact hlim) (by rw [h.pos]; exact hmem)
  obtain ⟨st', hst⟩ : ∃ st', outCall d c noFit items st = (.ok, st') := ⟨_, Prod.ext hok rfl⟩
  obtain ⟨h1, k', h2⟩ := C04_growing_appends d c noFit items st st' b hp h.len hs hd hb hw hl hst
  have hv := ((outCall_safe d c hs.growth noFit items st ⟨hp, h.len⟩).valid hs.growth ⟨hp, h.len⟩).len_lt
  rw [hst] at hv
  refine ⟨st', hst, by rw [h1, h.pos, List.length_append], ⟨k - b.length + k', ?_⟩, hv⟩
  rw [h2, h.pos, hk, List.take_left, List.drop_append, Nat.add_sub_cancel_left, List.drop_eq_nil_of_le (by omega), List.nil_append,
    List.drop_replicate, List.append_assoc, List.replicate_append_replicate]

/-- Where the records begin. -/
def starts : Nat → List (List UInt8) → List Nat
  | _, [] => []
  | p, b :: bs => p :: starts (p + b.length) bs

theorem starts_length : ∀ (p : Nat) (bss : List (List UInt8)), (starts p bss).length = bss.length
  | _, [] => rfl
  | p, b :: bs => by simp [starts, starts_length]

theorem starts_le : ∀ (p : Nat) (bss : List (List UInt8)), ∀ x ∈ starts p bss, x ≤ p + bss.flatten.length := by
  intro p bss
  induction bss generalizing p with
  | nil => simp [starts]
  | cons b bs ih =>
    intro x hx
    simp only [starts, List.mem_cons] at hx
    rcases hx with rfl | hx
    · omega
    · have := ih _ x hx
      simp only [List.flatten_cons, List.length_append]
      omega

theorem starts_get : ∀ (p i : Nat) (bss : List (List UInt8)), i < bss.length → (starts p bss)[i]? = some (p + (bss.take i).flatten.length) := by
  intro p i bss
  induction bss generalizing p i with
  | nil => intro h; simp at h
  | cons b bs ih =>
    intro h
    cases i with
    | zero => simp [starts]
    | succ i =>
      simp only [starts, List.getElem?_cons_succ, List.take_succ_cons, List.flatten_cons, List.length_append]
      rw [ih _ _ (by simpa using h), Nat.add_assoc]

theorem putRecords_spec {d : Nat} {c : Cfg} {noFit : Bool} (hr : c.g.resizable = true) {total : Nat} (hlt : total < 2 ^ 63)
    (hlim : LimitRoom c.g total) (hmem : MemRoom c.g total) :
    ∀ (recs : List (List (Ty × Val))) (bss : List (List UInt8)) (pre : List UInt8) (st : OutSt), Tidy pre st →
    (∀ r ∈ recs, Supported c r ∧ StackOk d r) → recs.map (wireItems (fmtOf c)) = bss.map some → pre.length + bss.flatten.length ≤ total →
    ∃ st', putRecords d c noFit recs st = some (st', starts pre.length bss) ∧ Tidy (pre ++ bss.flatten) st' := by
  intro recs
  induction recs with
  | nil =>
    intro bss pre st h _ hw _
    have : bss = [] := by simpa using hw.symm
    subst this
    exact ⟨st, rfl, by simpa using h⟩
  | cons r rs ih =>
    intro bss pre st h hs hw hl
    cases bss with
    | nil => simp at hw
    | cons b bs =>
      simp only [List.map_cons, List.cons.injEq] at hw
      simp only [List.flatten_cons, List.length_append] at hl
      obtain ⟨s1, s2⟩ := hs r List.mem_cons_self
      obtain ⟨st1, e1, t1⟩ := h.step (noFit := noFit) hr s1 s2 hw.1 (by omega) (limitRoom_le hlim (by omega)) (memRoom_le hmem (by omega))
      obtain ⟨st2, e2, t2⟩ := ih bs (pre ++ b) st1 t1 (fun x hx => hs x (List.mem_cons_of_mem _ hx)) hw.2 (by rw [List.length_append]; omega)
      refine ⟨st2, ?_, by rw [List.flatten_cons, ← List.append_assoc]; exact t2⟩
      rw [putRecords, e1]
      simp only [e2, Option.map_some, starts, h.pos, List.length_append]

/-- Positions as bytes. -/
def posBytes (f : Fmt) (ns : List Nat) : List UInt8 := (ns.map (digits f.order 8)).flatten

theorem posBytes_length (f : Fmt) (ns : List Nat) : (posBytes f ns).length = 8 * ns.length := by
  induction ns with
  | nil => rfl
  | cons n ns ih =>
    rw [posBytes] at ih
    simp only [posBytes, List.map_cons, List.flatten_cons, List.length_append, digits_length, List.length_cons, ih]
    omega

theorem index_wire (f : Fmt) (ns : List Nat) (h : ∀ n ∈ ns, n < 2 ^ 63) (hl : ns.length < 2 ^ 63) :
    wireItems f [(indexTy, .list (ns.map Val.num))] = some (digits f.order 8 ns.length ++ posBytes f ns) := by
  have h1 : ∀ ns : List Nat, (∀ n ∈ ns, n < 2 ^ 63) → wireAll f posTy (ns.map Val.num) = some (posBytes f ns) := by
    intro ns
    induction ns with
    | nil => intro _; rfl
    | cons n ns ih =>
      intro h
      have hn := h n List.mem_cons_self
      simp only [List.map_cons, wireAll, wire, wireNum]
      rw [if_pos (by omega), ih fun x hx => h x (List.mem_cons_of_mem _ hx)]
      simp [cat, posBytes]
  simp only [wireItems, wire, h1 ns h, Option.getD_some, sizePrefix, List.length_map]
  rw [if_pos (by omega)]
  simp [cat]

theorem pos_wire (f : Fmt) (n : Nat) (h : n < 2 ^ 63) : wireItems f [(posTy, .num n)] = some (digits f.order 8 n) := by
  simp only [wireItems, wire, wireNum]
  rw [if_pos (by omega)]
  simp [cat]

theorem index_stack {d : Nat} (hd : 4 ≤ d) (ns : List Nat) : StackOk d [(indexTy, .list (ns.map Val.num))] := by
  have : ∀ ns : List Nat, depthL (ns.map Val.num) ≤ 1 := by
    intro ns
    induction ns with
    | nil => simp [depthL]
    | cons n ns ih => simp only [List.map_cons, depthL, depth]; omega
  intro x hx
  simp only [List.mem_singleton] at hx
  subst hx
  have := this ns
  simp only [depth]
  omega

end Zpp
