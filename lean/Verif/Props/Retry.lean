import Verif.Spec.Retry
import Verif.Props.RoundTrip
import Verif.Props.Output
/-!
# C115: writing again with a larger buffer, C116: relays
-/

namespace Zpp.Props
open Spec

/-- C115. An encodable object of any size is written completely, from any size of the first buffer and with any bytes in it; the number of attempts is
logarithmic in the length of the encoding. Objects with bitsets need new buffers of zeros. -/
theorem C115_retry (d : Nat) (c : Cfg) (noFit keep : Bool) (items : List (Ty × Val)) (bs : List UInt8) (hfix : c.g.resizable = false)
    (hs : Supported c items) (hd : StackOk d items) (hw : wireItems (fmtOf c) items = some bs) (hl : bs.length < 2 ^ 62) (n : Nat)
    (buf : List UInt8) (hbuf : buf.length < 2 ^ 63) (hn : bs.length < 2 ^ n * (buf.length + 1))
    (hb : (∀ x ∈ items, noBits x.2 = true) ∨ (keep = false ∧ ∀ b ∈ buf, b = 0)) :
    retry d c noFit keep items n buf = some bs := by
  induction n generalizing buf with
  | zero =>
    have h := (C02_fixed_exact d c noFit items ⟨buf, 0⟩ bs hfix (Nat.zero_le _) hbuf hs hd (hb.imp id fun h => h.2) hw (by omega)).1
      (by simp only [Nat.zero_add]; omega)
    simp only [List.take_zero, List.nil_append, Nat.zero_add] at h
    rw [retry, h]
    simp
  | succ n ih =>
    have h := C02_fixed_exact d c noFit items ⟨buf, 0⟩ bs hfix (Nat.zero_le _) hbuf hs hd (hb.imp id fun h => h.2) hw (by omega)
    simp only [List.take_zero, List.nil_append, Nat.zero_add] at h
    by_cases hle : bs.length ≤ buf.length
    · rw [retry, h.1 hle]
      simp
    · have he := h.2 (by omega)
      have hlen : (outCall d c noFit items ⟨buf, 0⟩).2.data.length = buf.length :=
        (C01_fixed_buffer_safe d c noFit items ⟨buf, 0⟩ hfix (Nat.zero_le _) hbuf).2.2.2.1
      rw [retry]
      generalize outCall d c noFit items ⟨buf, 0⟩ = r at he hlen
      obtain ⟨s, st⟩ := r
      simp only at he hlen
      subst he
      simp only
      refine ih _ ?_ ?_ ?_
      · cases keep <;> simp only [List.length_append, List.length_replicate, Bool.false_eq_true, if_false, if_true, hlen] <;> omega
      · rw [Nat.pow_succ] at hn
        have e : 2 ^ n * 2 * (buf.length + 1) = 2 ^ n * (2 * buf.length + 1 + 1) := by rw [Nat.mul_assoc]; congr 1
        have e2 : ∀ k : Bool, (if k then st.data ++ List.replicate (buf.length + 1) 0 else List.replicate (2 * buf.length + 1) 0).length = 2 * buf.length + 1 := by
          intro k
          cases k <;> simp only [List.length_append, List.length_replicate, Bool.false_eq_true, if_false, if_true, hlen] <;> omega
        rw [e2, ← e]
        exact hn
      · rcases hb with hb | ⟨rfl, hb⟩
        · exact Or.inl hb
        · exact Or.inr ⟨rfl, fun b hb => by simpa using hb⟩

/-! ## Relays -/

theorem zip_fst_snd (items : List (Ty × Val)) : (items.map Prod.fst).zip (items.map Prod.snd) = items := by
  induction items with
  | nil => rfl
  | cons x xs ih => simp [ih]

theorem relayHop_spec {items dests : List (Ty × Val)} {data : List UInt8} {ri : Nat × Cfg} {ro : Nat × Cfg × Bool}
    (hdata : wireItems (fmtOf ri.2) items = some data) (hi : HopOk items ri.1 ri.2) (ho : HopOk items ro.1 ro.2.1)
    (hds : dests.map Prod.fst = items.map Prod.fst) : ∃ data', relayHop dests data ri ro = some data' ∧ wireItems (fmtOf ro.2.1) items = some data' := by
  obtain ⟨b0, e0, l0, -⟩ := hi.room
  rw [hdata] at e0
  cases e0
  have h := C10_read_encoding ri.1 ri.2 items dests [] data [] (by simp only [List.nil_append, List.append_nil]; omega) hdata hi.read hi.stack hds
  simp only [List.nil_append, List.append_nil, List.length_nil] at h
  obtain ⟨b, e, l, hlim, hmem⟩ := ho.room
  have hok := C06_growing_succeeds ro.1 ro.2.1 ro.2.2 items ⟨[], 0⟩ b ho.grows (Nat.le_refl _) (by simp) ho.sup ho.stack (Or.inr (by simp)) e l
    (by simpa using hlim) (by simpa using hmem)
  obtain ⟨st, hst⟩ : ∃ st, outCall ro.1 ro.2.1 ro.2.2 items ⟨[], 0⟩ = (.ok, st) := ⟨_, Prod.ext hok rfl⟩
  obtain ⟨h1, k, h2⟩ := C04_growing_appends ro.1 ro.2.1 ro.2.2 items ⟨[], 0⟩ st b (Nat.le_refl _) (by simp) ho.sup ho.stack (Or.inr (by simp)) e l hst
  refine ⟨b, ?_, e⟩
  rw [relayHop, h]
  simp only [hds, zip_fst_snd, hst]
  simp only [List.take_nil, List.nil_append, List.drop_nil, List.append_nil, Nat.zero_add] at h1 h2
  rw [h1, h2, List.take_left]

/-- C116. A message goes through relays, each of which reads it with the options with which it was written and writes it with options of its own (byte order, size
types, everything). In the end the message is the encoding of the same objects with the options of the last relay, and they are read from it. -/
theorem C116_relays (items dests ds : List (Ty × Val)) (data : List UInt8) (first : Nat × Cfg) (relays : List (Nat × Cfg × Bool))
    (hdata : wireItems (fmtOf first.2) items = some data) (hfirst : HopOk items first.1 first.2) (hrelays : ∀ r ∈ relays, HopOk items r.1 r.2.1)
    (hdests : dests.map Prod.fst = items.map Prod.fst) (hds : ds.map Prod.fst = items.map Prod.fst) :
    let last := ((relays.map fun r => (r.1, r.2.1)).getLast?).getD first
    ∃ data', relayAll dests data first relays = some (data', last) ∧ wireItems (fmtOf last.2) items = some data' ∧
      decMany last.1 last.2 data' ds 0 = ⟨.ok, items.map Prod.snd, data'.length⟩ := by
  induction relays generalizing data first with
  | nil =>
    refine ⟨data, rfl, hdata, ?_⟩
    obtain ⟨b0, e0, l0, -⟩ := hfirst.room
    rw [hdata] at e0
    cases e0
    have h := C10_read_encoding first.1 first.2 items ds [] data [] (by simp only [List.nil_append, List.append_nil]; omega) hdata hfirst.read hfirst.stack hds
    simpa using h
  | cons r rs ih =>
    have hr := hrelays r List.mem_cons_self
    obtain ⟨data1, e1, w1⟩ := relayHop_spec (ro := r) hdata hfirst hr hdests
    obtain ⟨data', h1, h2⟩ := ih data1 (r.1, r.2.1) w1 hr (fun x hx => hrelays x (List.mem_cons_of_mem _ hx))
    have e : (((r :: rs).map fun r => (r.1, r.2.1)).getLast?).getD first = ((rs.map fun r => (r.1, r.2.1)).getLast?).getD (r.1, r.2.1) := by
      rw [List.map_cons, List.getLast?_cons, Option.getD_some]
    simp only [e]
    exact ⟨data', by rw [relayAll, e1, Option.bind_some, h1], h2⟩

/-! ## The hypotheses are met -/

/-- A string of five characters, first tried with an empty buffer; and flags, with new buffers. -/
example :
    let c := Checks.le Checks.fixed (.fixed 1)
    retry 9 c false true [(Checks.str, Checks.strV [1, 2, 3, 4, 5])] 3 [] = some [5, 1, 2, 3, 4, 5] ∧
    retry 9 c false true [(Checks.str, Checks.strV [1, 2, 3, 4, 5])] 2 [] = none ∧
    retry 9 c false false [(.bitset 16, .bits (List.replicate 16 true))] 2 [] = some [255, 255] := by decide +kernel

example :
    let c := Checks.le Checks.fixed (.fixed 1)
    let items : List (Ty × Val) := [(Checks.str, Checks.strV [1, 2, 3, 4, 5])]
    c.g.resizable = false ∧ Supported c items ∧ StackOk 9 items ∧ wireItems (fmtOf c) items = some [5, 1, 2, 3, 4, 5] ∧
    (∀ x ∈ items, noBits x.2 = true) := by
  refine ⟨rfl, ⟨(fun h => nomatch h), so_abi, fun _ => ⟨rfl, rfl⟩, ?_⟩, ?_, by decide +kernel, ?_⟩ <;> intro x hx <;> simp only [List.mem_singleton] at hx <;>
    subst hx <;> first | rfl | decide

/-- Objects with bitsets do need new buffers of zeros if the first buffer is not zero. -/
theorem C115_bits_refuted :
    let c := Checks.le Checks.fixed (.fixed 1)
    retry 9 c false true [(.bitset 8, .bits (List.replicate 8 false))] 2 [7] = some [7] ∧
    wireItems (fmtOf c) [(.bitset 8, .bits (List.replicate 8 false))] = some [0] := by decide +kernel

/-- A text in little endian order with two-byte sizes goes through a relay that writes sizes as varints and a relay that also writes numbers in big endian order. -/
example :
    let c0 := Checks.le Checks.grow (.fixed 2)
    let c1 := Checks.le Checks.grow .varint
    let items : List (Ty × Val) := [(Checks.str, Checks.strV [65, 66]), (.scalar .int 2, .num 0x102)]
    let dests : List (Ty × Val) := [(Checks.str, Checks.strV []), (.scalar .int 2, .num 0)]
    wireItems (fmtOf c0) items = some [2, 0, 65, 66, 2, 1] ∧
    (relayAll dests [2, 0, 65, 66, 2, 1] (9, c0) [(9, c1, false), (9, { c1 with aware := true }, true)]).map (·.1) = some [2, 65, 66, 1, 2] ∧
    HopOk items 9 c0 ∧ HopOk items 9 c1 ∧ HopOk items 9 { c1 with aware := true } := by
  intro c0 c1 items dests
  have hok : ∀ c ∈ [c0, c1, { c1 with aware := true }], HopOk items 9 c := by
    intro c hc
    simp only [List.mem_cons, List.not_mem_nil, or_false] at hc
    refine ⟨?_, ⟨?_, ?_, ?_, ?_⟩, ⟨?_, ?_, ?_, ?_⟩, ?_, ?_⟩
    · rcases hc with rfl | rfl | rfl <;> rfl
    · rcases hc with rfl | rfl | rfl <;> exact grow_ok
    · rcases hc with rfl | rfl | rfl <;> exact so_abi
    · rcases hc with rfl | rfl | rfl <;> exact fun _ => ⟨rfl, rfl⟩
    · rcases hc with rfl | rfl | rfl <;> intro x hx <;> simp only [items, List.mem_cons, List.not_mem_nil, or_false] at hx <;> rcases hx with rfl | rfl <;> rfl
    · rcases hc with rfl | rfl | rfl <;> exact so_abi
    · rcases hc with rfl | rfl | rfl <;> exact fun _ => ⟨rfl, rfl⟩
    · rcases hc with rfl | rfl | rfl <;> intro x hx <;> simp only [items, List.mem_cons, List.not_mem_nil, or_false] at hx <;> rcases hx with rfl | rfl <;> rfl
    · rcases hc with rfl | rfl | rfl <;> intro x hx <;> simp only [items, List.mem_cons, List.not_mem_nil, or_false] at hx <;> rcases hx with rfl | rfl <;>
        simp [c0, c1, Loadable, LoadableL, Checks.str, Checks.strV, Fits, Checks.le, Checks.grow, Checks.so, Checks.chr]
    · intro x hx
      simp only [items, List.mem_cons, List.not_mem_nil, or_false] at hx
      rcases hx with rfl | rfl <;> decide
    · rcases hc with rfl | rfl | rfl <;> refine ⟨_, rfl, by decide +kernel, ?_, ?_⟩ <;> (first | unfold LimitRoom | unfold MemRoom) <;> decide +kernel
  exact ⟨by decide +kernel, by decide +kernel, hok _ (by simp), hok _ (by simp), hok _ (by simp)⟩

end Zpp.Props
