import Verif.Spec.Envelope
import Verif.Proof.Indexed
import Verif.Props.RoundTrip2
import Verif.Checks
/-!
# C121: records in envelopes
-/

namespace Zpp.Props
open Spec

theorem valBytes_bytesVal (bs : List UInt8) : valBytes (bytesVal bs) = bs := by
  simp only [valBytes, bytesVal, List.map_map]
  conv => rhs; rw [← List.map_id bs]
  refine List.map_congr_left fun b _ => ?_
  simp

/-- The bytes of an envelope. -/
def envBytes (f : Fmt) (e : Nat × List UInt8) : List UInt8 := digits f.order 1 e.1 ++ (digits f.order 4 e.2.length ++ e.2)

theorem envBytes_length (f : Fmt) (e : Nat × List UInt8) : (envBytes f e).length = 5 + e.2.length := by
  simp only [envBytes, List.length_append, digits_length]
  omega

theorem digits_one (o : Endian) (b : UInt8) : digits o 1 b.toNat = [b] := by
  have h := b.toNat_lt
  cases o <;> simp [digits]

theorem envelope_wire (f : Fmt) (e : Nat × List UInt8) (h1 : e.1 < 256) (h2 : e.2.length < 2 ^ 32) :
    wireItems f (envelope e) = some (envBytes f e) := by
  have h : ∀ bs : List UInt8, wireAll f (.scalar .byte 1) (bs.map fun b => Val.num b.toNat) = some bs := by
    intro bs
    induction bs with
    | nil => rfl
    | cons b bs ih =>
      have hb := b.toNat_lt
      have e : wire f (.scalar .byte 1) (.num b.toNat) = some [b] := by
        simp only [wire, wireNum]
        rw [if_pos (by omega), digits_one]
      simp only [List.map_cons, wireAll, ih, e, cat, List.singleton_append]
  simp only [envelope, wireItems, wire, bytesVal, h, Option.getD_some, sizePrefix, List.length_map, wireNum]
  rw [if_pos (by omega), if_pos (by omega)]
  simp [cat, envBytes]

theorem envelope_good (c : Cfg) (e : Nat × List UInt8) : ∀ x ∈ envelope e, Good c x.1 = true := by
  intro x hx
  simp only [envelope, List.mem_cons, List.not_mem_nil, or_false] at hx
  rcases hx with rfl | rfl <;> simp [Good, nodeOk, scalarOk, copyOk, plain]

theorem envelope_stack {d : Nat} (hd : 4 ≤ d) (e : Nat × List UInt8) : StackOk d (envelope e) := by
  have h : ∀ bs : List UInt8, depthL (bs.map fun b => Val.num b.toNat) ≤ 1 := by
    intro bs
    induction bs with
    | nil => simp [depthL]
    | cons b bs ih => simp only [List.map_cons, depthL, depth]; omega
  intro x hx
  simp only [envelope, List.mem_cons, List.not_mem_nil, or_false] at hx
  rcases hx with rfl | rfl
  · simp only [depth]; omega
  · have := h e.2
    simp only [bytesVal, depth]; omega

theorem putEnvelopes_spec {d : Nat} {c : Cfg} {noFit : Bool} (hr : c.g.resizable = true) (hs : Supported c []) (hd : 4 ≤ d) {total : Nat}
    (hlt : total < 2 ^ 63) (hlim : LimitRoom c.g total) (hmem : MemRoom c.g total) :
    ∀ (es : List (Nat × List UInt8)) (pre : List UInt8) (st : OutSt), Tidy pre st → (∀ e ∈ es, e.1 < 256 ∧ e.2.length < 2 ^ 32) →
    pre.length + (es.map (envBytes (fmtOf c))).flatten.length ≤ total →
    ∃ st', putEnvelopes d c noFit es st = some st' ∧ Tidy (pre ++ (es.map (envBytes (fmtOf c))).flatten) st' := by
  intro es
  induction es with
  | nil =>
    intro pre st h _ _
    exact ⟨st, rfl, by simpa using h⟩
  | cons e es ih =>
    intro pre st h he hl
    simp only [List.map_cons, List.flatten_cons, List.length_append] at hl
    have he1 := he e List.mem_cons_self
    obtain ⟨st1, e1, t1⟩ := h.step (d := d) (noFit := noFit) hr ⟨hs.growth, hs.abi, hs.env, envelope_good c e⟩ (envelope_stack hd e)
      (envelope_wire _ e he1.1 he1.2) (by omega) (limitRoom_le hlim (by omega)) (memRoom_le hmem (by omega))
    obtain ⟨st2, e2, t2⟩ := ih _ st1 t1 (fun x hx => he x (List.mem_cons_of_mem _ hx)) (by rw [List.length_append]; omega)
    refine ⟨st2, by rw [putEnvelopes, e1]; exact e2, ?_⟩
    rw [List.map_cons, List.flatten_cons, ← List.append_assoc]
    exact t2

theorem getEnvelopes_spec {d : Nat} {c : Cfg} (hri : Readable c []) (hd : 4 ≤ d) (known : Nat → Option (List (Ty × Val))) :
    ∀ (es : List (Nat × List UInt8)) (pre : List UInt8) (n : Nat), (∀ e ∈ es, e.1 < 256 ∧ e.2.length < 2 ^ 32 ∧ Fits c.g 1 e.2.length) →
    (pre ++ (es.map (envBytes (fmtOf c))).flatten).length < 2 ^ 63 → es.length < n →
    getEnvelopes d c known (pre ++ (es.map (envBytes (fmtOf c))).flatten) n pre.length =
      some (es.map fun e => (e.1, openEnvelope d c known e.1 e.2)) := by
  intro es
  induction es with
  | nil =>
    intro pre n _ _ hn
    obtain ⟨n, rfl⟩ := Nat.exists_eq_succ_of_ne_zero (Nat.ne_of_gt hn)
    simp [getEnvelopes]
  | cons e es ih =>
    intro pre n he hl hn
    obtain ⟨n, rfl⟩ := Nat.exists_eq_succ_of_ne_zero (n := n) (by omega)
    obtain ⟨h1, h2, h3⟩ := he e List.mem_cons_self
    have hb := envBytes_length (fmtOf c) e
    have hL : ∀ bs : List UInt8, LoadableL c (.scalar .byte 1) (bs.map fun b => Val.num b.toNat) := by
      intro bs
      induction bs with
      | nil => simp [LoadableL]
      | cons b bs ih => exact ⟨by simp [Loadable], ih⟩
    have hread := C10_read_encoding d c (envelope e) (envelope (0, [])) pre (envBytes (fmtOf c) e) (es.map (envBytes (fmtOf c))).flatten
      (by
        simp only [List.map_cons, List.flatten_cons, List.length_append] at hl ⊢
        omega)
      (envelope_wire _ e h1 h2)
      ⟨hri.abi, hri.env, envelope_good c e, by
        intro x hx
        simp only [envelope, List.mem_cons, List.not_mem_nil, or_false] at hx
        rcases hx with rfl | rfl
        · simp [Loadable]
        · refine ⟨by simp, by simp, fun _ => ?_, hL _⟩
          rw [hri.abi.scalar .byte 1 (by decide), List.length_map]
          exact h3⟩
      (envelope_stack hd e) rfl
    have e1 : pre ++ ((e :: es).map (envBytes (fmtOf c))).flatten = pre ++ envBytes (fmtOf c) e ++ (es.map (envBytes (fmtOf c))).flatten := by
      simp
    have e2 : pre.length + (envBytes (fmtOf c) e).length = (pre ++ envBytes (fmtOf c) e).length := by simp
    rw [getEnvelopes, if_neg (by simp only [List.map_cons, List.flatten_cons, List.length_append]; omega), e1, hread, e2]
    simp only [envelope, List.map_cons, List.map_nil]
    rw [ih _ n (fun x hx => he x (List.mem_cons_of_mem _ hx)) (by rw [← e1]; exact hl) (by simpa using hn), Option.map_some, valBytes_bytesVal]

/-- C121. Any bytes may be inside the envelopes. They are written, and a reader finds all of them, in order; what it makes of each depends only on the kind and the
bytes inside this envelope (`openEnvelope`). So records of unknown kinds are passed over, and damage inside an envelope does not affect the others. Writer and
reader may have different options outside the format. -/
theorem C121_contained (d d' : Nat) (co ci : Cfg) (noFit : Bool) (known : Nat → Option (List (Ty × Val))) (es : List (Nat × List UInt8))
    (hf : fmtOf ci = fmtOf co) (hr : co.g.resizable = true) (hso : Supported co []) (hri : Readable ci []) (hd : 4 ≤ d) (hd' : 4 ≤ d')
    (he : ∀ e ∈ es, e.1 < 256 ∧ e.2.length < 2 ^ 32 ∧ Fits ci.g 1 e.2.length) {total : Nat}
    (htotal : total = (es.map fun e => 5 + e.2.length).sum) (hlt : total < 2 ^ 63) (hlim : LimitRoom co.g total) (hmem : MemRoom co.g total) :
    ∃ st, putEnvelopes d co noFit es ⟨[], 0⟩ = some st ∧
      getEnvelopes d' ci known (st.data.take st.pos) (es.length + 1) 0 = some (es.map fun e => (e.1, openEnvelope d' ci known e.1 e.2)) := by
  have hlen : (es.map (envBytes (fmtOf co))).flatten.length = total := by
    rw [htotal, List.length_flatten, List.map_map]
    congr 1
    exact List.map_congr_left fun e _ => envBytes_length _ e
  obtain ⟨st, e1, t1⟩ := putEnvelopes_spec (noFit := noFit) hr hso hd hlt hlim hmem es [] ⟨[], 0⟩ ⟨rfl, ⟨0, rfl⟩, by simp⟩
    (fun e h => ⟨(he e h).1, (he e h).2.1⟩) (by simp only [List.length_nil]; omega)
  refine ⟨st, e1, ?_⟩
  have hfile : st.data.take st.pos = (es.map (envBytes (fmtOf co))).flatten := by
    obtain ⟨k, hk⟩ := t1.data
    rw [t1.pos, hk, List.take_left, List.nil_append]
  have h := getEnvelopes_spec hri hd' known es [] (es.length + 1) he (by rw [List.nil_append, hf]; omega) (Nat.lt_succ_self _)
  rw [List.nil_append, List.length_nil, hf] at h
  rw [hfile, h]

/-- C121, undamaged records: the content is what a call wrote into a buffer of its own. A reader that knows the kind gets the objects. -/
theorem C121_opened (d d' : Nat) (co ci : Cfg) (noFit : Bool) (known : Nat → Option (List (Ty × Val))) (kind : Nat) (items dests : List (Ty × Val)) (st : OutSt)
    (b : List UInt8) (hf : fmtOf ci = fmtOf co) (hk : known kind = some dests) (ht : dests.map Prod.fst = items.map Prod.fst)
    (hs : Supported co items) (hd : StackOk d items) (hr : Readable ci items) (hd' : StackOk d' items)
    (hw : wireItems (fmtOf co) items = some b) (hl : b.length < 2 ^ 63) (hok : outCall d co noFit items ⟨[], 0⟩ = (.ok, st)) :
    openEnvelope d' ci known kind (st.data.take st.pos) = .got (items.map Prod.snd) := by
  obtain ⟨h1, k, h2⟩ := C04_growing_appends d co noFit items ⟨[], 0⟩ st b (Nat.le_refl _) (by simp) hs hd (Or.inr (by simp)) hw hl hok
  simp only [List.take_nil, List.nil_append, List.drop_nil, List.append_nil, Nat.zero_add] at h1 h2
  have h := C10_read_encoding d' ci items dests [] b [] (by simp only [List.nil_append, List.append_nil]; omega) (by rw [hf]; exact hw) hr hd' ht
  simp only [List.nil_append, List.append_nil, List.length_nil] at h
  rw [h1, h2, List.take_left, openEnvelope, hk]
  simp only [h]

/-- C121, damaged records: a record of a known kind is taken as read only if reading its bytes succeeds, and then with what was read; in particular a record cut short is
found damaged. -/
theorem C121_damaged (d : Nat) (c : Cfg) (known : Nat → Option (List (Ty × Val))) (kind : Nat) (dests : List (Ty × Val)) (hk : known kind = some dests) :
    (∀ content vs, openEnvelope d c known kind content = .got vs ↔ ∃ q, decMany d c content dests 0 = ⟨.ok, vs, q⟩) ∧
    (∀ content, (decMany d c content dests 0).s ≠ .ok → openEnvelope d c known kind content = .damaged) ∧
    (∀ (items : List (Ty × Val)) (b : List UInt8) (n : Nat), wireItems (fmtOf c) items = some b → b.length < 2 ^ 64 → Readable c items → StackOk d items →
      dests.map Prod.fst = items.map Prod.fst → (∀ i, widthsOk (c.env i) = true ∧ selfDelimiting c.dsz (c.env i) = true) →
      (∀ it ∈ items, widthsOk it.1 = true ∧ selfDelimiting c.dsz it.1 = true) → n < b.length →
      openEnvelope d c known kind (b.take n) = .damaged) := by
  have h2 : ∀ content, (decMany d c content dests 0).s ≠ .ok → openEnvelope d c known kind content = .damaged := by
    intro content h
    obtain ⟨s, vs, q, e⟩ : ∃ s vs q, decMany d c content dests 0 = ⟨s, vs, q⟩ := ⟨_, _, _, rfl⟩
    rw [e] at h
    simp only [openEnvelope, hk, e]
    cases s <;> first | exact absurd rfl h | rfl
  refine ⟨fun content vs => ?_, h2, fun items b n hw hl hr hd ht henv hty hn => h2 _ ?_⟩
  · by_cases h : (decMany d c content dests 0).s = .ok
    · obtain ⟨s, ws, q, e⟩ : ∃ s vs q, decMany d c content dests 0 = ⟨s, vs, q⟩ := ⟨_, _, _, rfl⟩
      rw [e] at h
      simp only at h
      subst h
      simp only [openEnvelope, hk, e, Found.got.injEq]
      refine ⟨fun h => ⟨q, by rw [h]⟩, fun ⟨_, h⟩ => by injection h⟩
    · rw [h2 content h]
      refine ⟨(fun e => nomatch e), fun ⟨q, e⟩ => absurd (by rw [e]) h⟩
  · have h := C14_encoding_truncated d c items dests [] b n (by simpa using hl) hw hr henv hty hd ht hn
    simp only [List.nil_append, List.length_nil] at h
    rw [h]
    exact fun h => nomatch h

/-! ## The hypotheses are met -/

/-- Kind 1 is a text, kind 2 a number of two bytes, kind 9 is not known; the second text is damaged (its size is too large). -/
example :
    let c := Checks.le Checks.grow (.fixed 1)
    let known : Nat → Option (List (Ty × Val)) := fun k =>
      if k = 1 then some [(Checks.str, Checks.strV [])] else if k = 2 then some [(.scalar .int 2, .num 0)] else none
    let es : List (Nat × List UInt8) := [(1, [2, 65, 66]), (9, [0, 0]), (1, [200, 65]), (2, [7, 1])]
    (putEnvelopes 9 c false es ⟨[], 0⟩).map (·.data) =
      some [1, 3, 0, 0, 0, 2, 65, 66, 9, 2, 0, 0, 0, 0, 0, 1, 2, 0, 0, 0, 200, 65, 2, 2, 0, 0, 0, 7, 1] ∧
    (putEnvelopes 9 c false es ⟨[], 0⟩).bind (fun st => getEnvelopes 9 c known (st.data.take st.pos) 5 0) =
      some [(1, .got [Checks.strV [65, 66]]), (9, .unknown), (1, .damaged), (2, .got [.num 263])] ∧
    outCall 9 c false [(Checks.str, Checks.strV [65, 66])] ⟨[], 0⟩ = (.ok, ⟨[2, 65, 66], 3⟩) := by decide +kernel

example :
    let c := Checks.le Checks.grow (.fixed 1)
    let es : List (Nat × List UInt8) := [(1, [2, 65, 66]), (9, [0, 0]), (1, [200, 65]), (2, [7, 1])]
    c.g.resizable = true ∧ Supported c [] ∧ Readable c [] ∧ (∀ e ∈ es, e.1 < 256 ∧ e.2.length < 2 ^ 32 ∧ Fits c.g 1 e.2.length) ∧
    (es.map fun e => 5 + e.2.length).sum = 29 ∧ LimitRoom c.g 29 ∧ MemRoom c.g 29 := by
  refine ⟨rfl, ⟨grow_ok, so_abi, fun _ => ⟨rfl, rfl⟩, nofun⟩, ⟨so_abi, fun _ => ⟨rfl, rfl⟩, nofun, nofun⟩, ?_, by decide, ?_, ?_⟩
  · intro e he
    simp only [List.mem_cons, List.not_mem_nil, or_false] at he
    rcases he with rfl | rfl | rfl | rfl <;> exact ⟨by decide, by decide, Or.inl rfl, by decide⟩
  · unfold LimitRoom; decide
  · unfold MemRoom; decide

end Zpp.Props
