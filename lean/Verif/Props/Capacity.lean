import Verif.Model.Capacity
import Verif.Props.Exact
import Verif.Props.Own
/-!
# Properties: reserved buffers stay where they are (C95)
-/

namespace Zpp.Props
open Zpp Zpp.Spec

theorem resize_keep {policy : Nat → Nat → Nat} {s : Storage} {n : Nat} (h : n ≤ s.cap) : s.resize policy n = s := if_pos h

theorem callsS_state {policy : Nat → Nat → Nat} {d : Nat} {c : Cfg} : ∀ (calls : List (Bool × List (Ty × Val))) (x : OutSt × Storage),
    (callsS policy d c calls x).1 = callAll d c calls x.1
  | [], _ => rfl
  | (_, _) :: rest, _ => callsS_state rest _

theorem callAll_keeps {d : Nat} {c : Cfg} (hg : GrowthOk c.g) : ∀ (calls : List (Bool × List (Ty × Val))) (st : OutSt), Valid st →
    st.pos ≤ (callAll d c calls st).pos ∧ (callAll d c calls st).data.take st.pos = st.data.take st.pos
  | [], _, _ => ⟨Nat.le_refl _, rfl⟩
  | (noFit, items) :: rest, st, hv => by
    have hs := outCall_safe d c hg noFit items st hv
    obtain ⟨h1, h2⟩ := callAll_keeps (d := d) hg rest _ (hs.valid hg hv)
    have hm := hs.mono
    refine ⟨Nat.le_trans hm h1, ?_⟩
    have h3 := congrArg (List.take st.pos) h2
    rw [List.take_take, List.take_take, Nat.min_eq_left hm, hs.keep] at h3
    exact h3

/-- A history of calls keeps the block if all sizes that the buffer may have in it are at most the capacity. -/
theorem stays_if {policy : Nat → Nat → Nat} {d : Nat} {c : Cfg} (hg : GrowthOk c.g) {bound : Nat → Nat → Nat → Nat}
    (hb : ∀ items st, Valid st → (encMany d c items st).2.data.length ≤ bound st.data.length st.pos (encMany d c items st).2.pos)
    (hmono : ∀ l p l' p' q, p ≤ p' → p' ≤ q → l' ≤ bound l p p' → p' ≤ l' → bound l' p' q ≤ bound l p q)
    (hmono' : ∀ l p p' q, p ≤ p' → p' ≤ q → bound l p p' ≤ bound l p q) :
    ∀ (calls : List (Bool × List (Ty × Val))) (st : OutSt) (s : Storage), Valid st →
    bound st.data.length st.pos (callAll d c calls st).pos ≤ s.cap → (callsS policy d c calls (st, s)).2 = s
  | [], _, _, _, _ => rfl
  | (noFit, items) :: rest, st, s, hv, hcap => by
    have hs := outCall_safe d c hg noFit items st hv
    have hv' := hs.valid hg hv
    have h1 := hb items st hv
    have h2 := outCall_len_le (d := d) hg noFit items hv
    have h3 := (outCall_state (d := d) hg noFit items hv).1
    have h4 := (callAll_keeps (d := d) hg rest _ hv').1
    rw [← h3] at h1
    simp only [callAll] at hcap
    have h5 := hmono' st.data.length st.pos _ _ hs.mono h4
    simp only [callsS, outCallS]
    have k1 : s.resize policy (encMany d c items st).2.data.length = s := resize_keep (by omega)
    have k2 : s.resize policy (outCall d c noFit items st).2.data.length = s := resize_keep (by omega)
    rw [k1, k2]
    refine stays_if hg hb hmono hmono' rest _ s hv' (Nat.le_trans ?_ hcap)
    exact hmono _ _ _ _ _ hs.mono h4 (by omega) hs.inb

/-- C95. If the capacity of the vector is at least its size and at least the bound of C65 for the data that will have been written (with
the default enlarger three times the data plus 27), no history of calls, with any outcomes, moves the vector. -/
theorem C95_stays (policy : Nat → Nat → Nat) (d : Nat) (c : Cfg) (calls : List (Bool × List (Ty × Val))) (st : OutSt) (s : Storage)
    (hg : GrowthLaws c.g) (hpos : st.pos ≤ st.data.length) (hlen : st.data.length < 2 ^ 63) (hsize : st.data.length ≤ s.cap)
    (hcap : 2 * ((callAll d c calls st).pos + 9) * c.g.mul / c.g.div ≤ s.cap) :
    (callsS policy d c calls (st, s)).2 = s := by
  have mono : ∀ {a b : Nat}, a ≤ b → 2 * (a + 9) * c.g.mul / c.g.div ≤ 2 * (b + 9) * c.g.mul / c.g.div := fun h =>
    Nat.div_le_div_right (Nat.mul_le_mul_right _ (by omega))
  refine stays_if (fun _ => hg) (bound := fun l _ q => max l (2 * (q + 9) * c.g.mul / c.g.div))
    (fun items st hv => encMany_near d c (fun _ => hg) track_linear items st hv) ?_ ?_ calls st s ⟨hpos, hlen⟩ (by omega)
  · intro l p l' p' q _ h2 h3 _
    have := mono h2
    omega
  · intro l p p' q _ h2
    have := mono h2
    omega

/-- C95, `exact_enlarger`: the capacity needs to be no more than the data plus 18 (or plus the room behind the position at the
beginning). -/
theorem C95_exact (policy : Nat → Nat → Nat) (d : Nat) (c : Cfg) (calls : List (Bool × List (Ty × Val))) (st : OutSt) (s : Storage)
    (hg : GrowthLaws c.g) (hr : c.g.resizable = true) (hm : c.g.mul = 1) (hd : c.g.div = 1)
    (hpos : st.pos ≤ st.data.length) (hlen : st.data.length < 2 ^ 63)
    (hcap : (callAll d c calls st).pos + max (st.data.length - st.pos) 18 ≤ s.cap) :
    (callsS policy d c calls (st, s)).2 = s := by
  refine stays_if (fun _ => hg) (bound := fun l p q => q + max (l - p) 18)
    (fun items st hv => encMany_near d c (fun _ => hg) (track_unused ⟨hg, hr, hm, hd⟩) items st hv) ?_ ?_ calls st s ⟨hpos, hlen⟩ hcap
  · intro l p l' p' q _ _ _ _; omega
  · intro l p p' q _ _; omega

/-- C95: arrays, spans and everything else that cannot grow never move. -/
theorem C95_fixed (policy : Nat → Nat → Nat) (d : Nat) (c : Cfg) (calls : List (Bool × List (Ty × Val))) (st : OutSt) (s : Storage)
    (hfix : c.g.resizable = false) (hpos : st.pos ≤ st.data.length) (hlen : st.data.length < 2 ^ 63) (hsize : st.data.length ≤ s.cap) :
    (callsS policy d c calls (st, s)).2 = s := by
  have hg : GrowthOk c.g := fun h => by rw [hfix] at h; cases h
  refine stays_if hg (bound := fun l _ _ => l) (fun items st hv => ?_) ?_ ?_ calls st s ⟨hpos, hlen⟩ hsize
  · rw [(encMany_safe d c hg items st hv).fixed hfix]
    exact Nat.le_refl _
  · intro l p l' p' q _ _ h _; exact h
  · intro l p p' q _ _; exact Nat.le_refl _

/-- C95, views. Objects were read from the first bytes of the vector, those in front of the position of the output archive. After any
history of output calls on a vector with enough capacity, all views in the objects show what they showed when they were read: in every
memory in which the block of the vector has the bytes of the vector, whatever the other blocks have become. -/
theorem C95_views (policy : Nat → Nat → Nat) (d d' : Nat) (ci c : Cfg) (calls : List (Bool × List (Ty × Val))) (st : OutSt) (s : Storage)
    (m m' : Memory) (items : List (Ty × LVal)) (p p' : Nat) (vs : List LVal)
    (hg : GrowthLaws c.g) (hpos : st.pos ≤ st.data.length) (hlen : st.data.length < 2 ^ 63) (hsize : st.data.length ≤ s.cap)
    (hcap : 2 * ((callAll d c calls st).pos + 9) * c.g.mul / c.g.div ≤ s.cap)
    (habi : AbiOk ci.sizeof) (henv : ∀ i, widthsOk (ci.env i) = true) (hw : ∀ it ∈ items, widthsOk it.1 = true)
    (hm : m s.block = st.data) (hp : p ≤ st.data.length)
    (hok : decManyL d' ci m s.block items p = ⟨.ok, vs, p'⟩) (hwritten : p' ≤ st.pos)
    (hm' : m' (callsS policy d c calls (st, s)).2.block = (callsS policy d c calls (st, s)).1.data) :
    vs.map (LVal.look m') = vs.map (LVal.look m) := by
  rw [C95_stays policy d c calls st s hg hpos hlen hsize hcap, callsS_state] at hm'
  refine C90_kept d' ci m m' s.block items p p' vs habi henv hw (by rw [hm]; exact hp) hok ?_
  have h := congrArg (List.take p') (callAll_keeps (d := d) (fun _ => hg) calls st ⟨hpos, hlen⟩).2
  simp only [List.take_take, Nat.min_eq_left hwritten] at h
  rw [hm', hm, h]

/-- C95, passing on. Over a vector with enough capacity, with an input and an output archive: what was read from bytes already
written, views of this very vector included, can be written again; this appends what appending copies of the objects would. -/
theorem C95_pass_on (d d' : Nat) (ci co : Cfg) (noFit : Bool) (m : Memory) (b cap : Nat) (items : List (Ty × LVal)) (vs : List LVal)
    (p p' : Nat) (st : OutSt) (hg : GrowthLaws co.g) (habi : AbiOk ci.sizeof) (henv : ∀ i, widthsOk (ci.env i) = true)
    (hw : ∀ it ∈ items, widthsOk it.1 = true) (hv : Valid st) (hm : m b = st.data) (hp : p ≤ st.data.length)
    (hok : decManyL d ci m b items p = ⟨.ok, vs, p'⟩) (hwritten : p' ≤ st.pos)
    (hcap : 2 * ((outCall d' co noFit (lookItems m ((items.map Prod.fst).zip vs)) st).2.pos + 9) * co.g.mul / co.g.div ≤ cap) :
    outCallL d' co noFit m b cap ((items.map Prod.fst).zip vs) st =
      outCall d' co noFit (lookItems m ((items.map Prod.fst).zip vs)) st := by
  have h := (C90_apart d ci m b items p p' vs habi henv hw (by rw [hm]; exact hp) hok).2.1
  have hmem : m.with b st.data = m := by
    funext i
    simp only [Memory.with]
    split
    · next hi => rw [hi, hm]
    · rfl
  have := C91_own_buffer_partial d' co noFit m b cap ((items.map Prod.fst).zip vs) st (fun _ => hg) hv (fun pl hpl => by
    obtain ⟨v, hv', hpl⟩ := mem_placesAll.mp hpl
    obtain ⟨⟨t, v'⟩, hx, rfl⟩ := List.mem_map.mp hv'
    obtain ⟨h1, _, h3⟩ := h pl (mem_placesAll.mpr ⟨v', (List.of_mem_zip hx).2, hpl⟩)
    exact .inl ⟨h1, Nat.le_trans h3 hwritten⟩) (by
      rw [hmem]
      have h1 := encMany_near d' co (fun _ => hg) track_linear (lookItems m ((items.map Prod.fst).zip vs)) st hv
      rw [(outCall_state (d := d') (fun _ => hg) noFit _ hv).1] at hcap
      omega)
  rwa [hmem] at this

/-! ## The hypotheses are met, and the bound matters -/

/-- Reserving just what is written is not enough: four bytes are written to an empty vector with capacity 4, which is enlarged to six
bytes, moves, and is then cut to four. With capacity 39 = 3 * 4 + 27 it stays, and also with 6. -/
theorem C95_moves (policy : Nat → Nat → Nat) :
    let c := Checks.le Checks.grow (.fixed 4)
    let calls := [(false, [((.scalar .int 4 : Ty), Val.num 7)])]
    (callsS policy 9 c calls (⟨[], 0⟩, ⟨0, 4⟩)).1 = ⟨[7, 0, 0, 0], 4⟩ ∧ (callsS policy 9 c calls (⟨[], 0⟩, ⟨0, 4⟩)).2.block = 1 ∧
    (callsS policy 9 c calls (⟨[], 0⟩, ⟨0, 6⟩)).2 = ⟨0, 6⟩ ∧
    2 * ((callAll 9 c calls ⟨[], 0⟩).pos + 9) * c.g.mul / c.g.div = 39 := by
  have h1 : encMany 9 (Checks.le Checks.grow (.fixed 4)) [(.scalar .int 4, .num 7)] ⟨[], 0⟩ = (.ok, ⟨[7, 0, 0, 0, 0, 0], 4⟩) := by
    decide +kernel
  have h2 : outCall 9 (Checks.le Checks.grow (.fixed 4)) false [(.scalar .int 4, .num 7)] ⟨[], 0⟩ = (.ok, ⟨[7, 0, 0, 0], 4⟩) := by
    decide +kernel
  refine ⟨by simp only [callsS, outCallS, h2], ?_, ?_, by decide +kernel⟩
  · have e : Storage.resize policy ⟨0, 4⟩ 6 = ⟨1, max 6 (policy 4 6)⟩ := rfl
    have k : Storage.resize policy ⟨1, max 6 (policy 4 6)⟩ 4 = ⟨1, max 6 (policy 4 6)⟩ :=
      resize_keep (Nat.le_trans (by decide) (Nat.le_max_left _ _))
    simp only [callsS, outCallS, h1, h2, List.length_cons, List.length_nil, Nat.zero_add, Nat.reduceAdd, e, k]
  · simp only [callsS, outCallS, h1, h2, Storage.resize, List.length_cons, List.length_nil]
    rfl

/-- The views of `C91_growing`, in a vector with capacity: the view is appended to the vector it shows. -/
example :
    let c := Checks.le Checks.grow (.fixed 1)
    let t : Ty := .seq .view none Checks.chr
    2 * ((outCall 9 c false [(t, viewOf [65, 66])] ⟨[2, 65, 66], 3⟩).2.pos + 9) * c.g.mul / c.g.div = 45 ∧
    outCallL 9 c false (oneBuffer [2, 65, 66]) 0 45 [(t, .view ⟨0, 1, 2⟩)] ⟨[2, 65, 66], 3⟩ = (.ok, ⟨[2, 65, 66, 2, 65, 66], 6⟩) ∧
    (outCallL 9 c false (oneBuffer [2, 65, 66]) 0 3 [(t, .view ⟨0, 1, 2⟩)] ⟨[2, 65, 66], 3⟩).1 = .ub := by decide +kernel

end Zpp.Props
