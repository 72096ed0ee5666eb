import Verif.Spec.LogFile
import Verif.Proof.Duplex
import Verif.Props.Receive
/-! # A log file that survives crashes -/

namespace Zpp
open Spec Props

/-- Encoding of a record. -/
abbrev recBytes (f : Fmt) (r : List (Ty × Val)) : List UInt8 := (wireItems f r).getD []

theorem recs_wire {f : Fmt} {recs : List (List (Ty × Val))} (h : ∀ r ∈ recs, (wireItems f r).isSome) :
    recs.map (wireItems f) = (recs.map (recBytes f)).map some := by
  rw [List.map_map]
  refine List.map_congr_left fun r hr => ?_
  obtain ⟨b, hb⟩ := Option.isSome_iff_exists.mp (h r hr)
  simp [recBytes, hb]

/-- Finding the records that are complete. -/
theorem scan_spec {d : Nat} {c : Cfg} {dests v0 : List (Ty × Val)} {b0 : List UInt8} (hr0 : Receivable d c [v0])
    (hw0 : wireItems (fmtOf c) v0 = some b0) (hb0 : b0 ≠ []) (hbl0 : b0.length < 2 ^ 63) (ht0 : dests.map Prod.fst = v0.map Prod.fst) :
    ∀ (recs : List (List (Ty × Val))) (n : Nat) (pre part : List UInt8), Receivable d c recs → (∀ r ∈ recs, (wireItems (fmtOf c) r).isSome) →
    (∀ r ∈ recs, r.map Prod.fst = dests.map Prod.fst) → part <+: (recs.map (recBytes (fmtOf c))).flatten →
    pre.length + (recs.map (recBytes (fmtOf c))).flatten.length < 2 ^ 63 → part.length < n →
    scan d c dests (pre ++ part) n pre.length =
      some ((recs.take (complete (recs.map (recBytes (fmtOf c))) part.length)).map (List.map Prod.snd),
        pre.length + ((recs.take (complete (recs.map (recBytes (fmtOf c))) part.length)).map (recBytes (fmtOf c))).flatten.length) := by
  have hnone : ∀ pre : List UInt8, pre.length < 2 ^ 63 → (decMany d c pre dests pre.length).s = .err .resultOutOfRange := by
    intro pre hp
    have h := C14_encoding_truncated d c v0 dests pre b0 0 (by rw [List.length_append]; omega) hw0 (hr0.read _ (by simp)) hr0.env
      (hr0.types _ (by simp)) (hr0.stack _ (by simp)) ht0 (List.length_pos_iff.mpr hb0)
    simpa using h
  have hstop : ∀ (n : Nat) (data : List UInt8) (p : Nat), (decMany d c data dests p).s = .err .resultOutOfRange →
      scan d c dests data (n + 1) p = some ([], p) := by
    intro n data p h
    rw [scan]
    generalize decMany d c data dests p = r at h
    obtain ⟨s, vs, p'⟩ := r
    simp only at h
    subst h
    rfl
  intro recs
  induction recs with
  | nil =>
    intro n pre part _ _ _ hpart hlen hlt
    have e2 : part = [] := by simpa using hpart
    subst e2
    obtain ⟨n, rfl⟩ := Nat.exists_eq_succ_of_ne_zero (Nat.ne_of_gt hlt)
    rw [List.append_nil, hstop n pre _ (hnone pre (by omega))]
    simp
  | cons m recs ih =>
    intro n pre part hr hsome hty hpart hlen hlt
    obtain ⟨n, rfl⟩ := Nat.exists_eq_succ_of_ne_zero (n := n) (by omega)
    obtain ⟨b, hb⟩ := Option.isSome_iff_exists.mp (hsome m List.mem_cons_self)
    have hbe : recBytes (fmtOf c) m = b := by simp [recBytes, hb]
    simp only [List.map_cons, List.flatten_cons, hbe] at hpart hlen ⊢
    simp only [List.length_append] at hlen
    obtain ⟨u, hu⟩ := hpart
    by_cases hbl : b.length ≤ part.length
    · obtain ⟨part', rfl⟩ : ∃ part', part = b ++ part' :=
        List.prefix_of_prefix_length_le ⟨_, rfl⟩ ⟨u, hu⟩ hbl |>.imp fun _ h => h.symm
      have hu' : part' ++ u = (recs.map (recBytes (fmtOf c))).flatten := by
        rw [List.append_assoc] at hu
        exact List.append_cancel_left hu
      have e : complete (b :: recs.map (recBytes (fmtOf c))) (b ++ part').length = complete (recs.map (recBytes (fmtOf c))) part'.length + 1 := by
        simp only [complete, if_pos hbl]
        rw [List.length_append, Nat.add_sub_cancel_left]
      have hl : part'.length + u.length = (recs.map (recBytes (fmtOf c))).flatten.length := by simpa using congrArg List.length hu'
      have hread : ∀ (pre tail : List UInt8), (pre ++ b ++ tail).length < 2 ^ 64 →
          decMany d c (pre ++ b ++ tail) dests pre.length = ⟨.ok, m.map Prod.snd, pre.length + b.length⟩ := fun pre tail h =>
        C10_read_encoding d c m dests pre b tail h hb (hr.read m (by simp)) (hr.stack m (by simp)) (hty m List.mem_cons_self).symm
      have hbpos : 0 < b.length := by
        refine Nat.pos_of_ne_zero fun h0 => ?_
        have hbe : b = [] := List.eq_nil_of_length_eq_zero h0
        have h1 := hread [] [] (by simp [hbe])
        have h2 := hnone [] (by simp)
        rw [hbe] at h1
        simp only [List.nil_append] at h1
        rw [h1] at h2
        cases h2
      have h := hread pre part' (by simp only [List.length_append]; omega)
      have h1 := ih n (pre ++ b) part' (hr.drop 1) (fun r h => hsome r (List.mem_cons_of_mem _ h)) (fun r h => hty r (List.mem_cons_of_mem _ h)) ⟨u, hu'⟩
        (by simp only [List.length_append]; omega) (by simp only [List.length_append] at hlt; omega)
      rw [List.append_assoc] at h h1
      rw [List.length_append] at h1
      rw [e, scan, h]
      simp only [h1, Option.map_some, List.take_succ_cons, List.map_cons, List.flatten_cons, List.length_append, Nat.add_assoc, hbe]
    · have e : complete (b :: recs.map (recBytes (fmtOf c))) part.length = 0 := by simp only [complete, hbl, if_false]
      have hp : part = b.take part.length := by
        have h1 := congrArg (List.take part.length) hu
        rw [List.take_left' rfl, List.take_append_of_le_length (by omega)] at h1
        exact h1
      have h := C14_encoding_truncated d c m dests pre b part.length (by simp only [List.length_append]; omega) hb (hr.read m (by simp)) hr.env
        (hr.types m (by simp)) (hr.stack m (by simp)) (hty m List.mem_cons_self).symm (by omega)
      rw [← hp] at h
      rw [e, hstop n _ _ h]
      simp

theorem complete_min : ∀ (bss : List (List UInt8)) (n : Nat), complete bss (min n bss.flatten.length) = complete bss n
  | [], _ => rfl
  | b :: bs, n => by
    simp only [List.flatten_cons, List.length_append, complete]
    by_cases h : b.length ≤ n
    · rw [if_pos h, if_pos (by omega), ← complete_min bs (n - b.length)]
      congr 2
      omega
    · rw [if_neg h, if_neg (by omega)]

/-- The program keeps the records. -/
theorem logRun_spec {d : Nat} {c : Cfg} {noFit : Bool} {dests v0 : List (Ty × Val)} {b0 : List UInt8} (hr0 : Receivable d c [v0])
    (hw0 : wireItems (fmtOf c) v0 = some b0) (hb0 : b0 ≠ []) (hbl0 : b0.length < 2 ^ 63) (ht0 : dests.map Prod.fst = v0.map Prod.fst) (hres : c.g.resizable = true) :
    ∀ (ops : List LogOp) (recs : List (List (Ty × Val))) (st : OutSt) (total : Nat),
    Receivable d c (recs ++ appended ops) → (∀ r ∈ recs ++ appended ops, (wireItems (fmtOf c) r).isSome) →
    (∀ r ∈ recs ++ appended ops, r.map Prod.fst = dests.map Prod.fst) → (∀ r ∈ appended ops, Supported c r) →
    ((recs ++ appended ops).map (recBytes (fmtOf c))).flatten.length ≤ total → total < 2 ^ 63 → LimitRoom c.g total → MemRoom c.g total →
    Holds (fmtOf c) recs.flatten ⟨st.data, st.pos, 0⟩ → (∀ b ∈ st.data.drop st.pos, b = 0) →
    ∃ st', logRun d c noFit true dests ops st = some ((logIdeal (fmtOf c) ops recs).1, st') ∧
      Holds (fmtOf c) (logIdeal (fmtOf c) ops recs).2.flatten ⟨st'.data, st'.pos, 0⟩ := by
  intro ops
  induction ops with
  | nil => intro recs st total _ _ _ _ _ _ _ _ h _; exact ⟨st, rfl, h⟩
  | cons op ops ih =>
    intro recs st total hr hsome hty hsup htot hlt hlim hmem hh hz
    have hwrecs : ∀ r ∈ recs, (wireItems (fmtOf c) r).isSome := fun r h => hsome r (List.mem_append_left _ h)
    obtain ⟨body, hbody, hbl, hbd⟩ := hh.body
    have hbody' : body = (recs.map (recBytes (fmtOf c))).flatten := by
      have := wireItems_calls (recs_wire hwrecs)
      rw [hbody] at this
      exact Option.some.inj this
    simp only [Nat.zero_add, List.drop_zero] at hbl hbd
    cases op with
    | append record =>
      simp only [appended] at hr hsome hty hsup htot
      have hmem' : record ∈ recs ++ record :: appended ops := List.mem_append_right _ List.mem_cons_self
      obtain ⟨b, hb⟩ := Option.isSome_iff_exists.mp (hsome record hmem')
      have hbe : recBytes (fmtOf c) record = b := by simp [recBytes, hb]
      simp only [List.map_append, List.flatten_append, List.map_cons, List.flatten_cons, hbe, List.length_append] at htot
      have hN : st.pos + b.length ≤ total := by
        have := congrArg List.length hbody'
        omega
      obtain ⟨y, h1, h2, h3, h4, h5⟩ := hh.write (noFit := noFit) (d := d) rfl (hsup record List.mem_cons_self) (hr.stack record hmem') (.inr hz) hb (by omega)
        (by unfold RoomFor; rw [if_pos hres]; exact ⟨hlim.mono hN, hmem.mono hN⟩)
      simp only [Duplex.write, Prod.mk.injEq] at h1
      obtain ⟨j1, rfl⟩ := h1
      have e1 : recs ++ record :: appended ops = (recs ++ [record]) ++ appended ops := by simp
      rw [e1] at hr hsome hty
      obtain ⟨st', i1, i2⟩ := ih (recs ++ [record]) (outCall d c noFit record st).2 total hr hsome hty (fun r h => hsup r (List.mem_cons_of_mem _ h))
        (by simp only [List.map_append, List.flatten_append, List.map_cons, List.map_nil, List.flatten_cons, List.flatten_nil, hbe, List.length_append,
              List.length_nil]; omega) hlt hlim hmem
        (by rw [List.flatten_append]; simpa using h2) (fun x hx => (h5 x hx).elim id (hz x))
      refine ⟨st', ?_, i2⟩
      rw [logRun]
      rw [show outCall d c noFit record st = (.ok, (outCall d c noFit record st).2) from Prod.ext j1 rfl]
      exact i1
    | crash n =>
      simp only [appended] at hr hsome hty hsup htot
      have hrecs : Receivable d c recs := ⟨fun m h => hr.read m (List.mem_append_left _ h), fun m h => hr.stack m (List.mem_append_left _ h), hr.env,
        fun m h => hr.types m (List.mem_append_left _ h)⟩
      simp only [List.map_append, List.flatten_append, List.length_append] at htot
      have hs := scan_spec (dests := dests) hr0 hw0 hb0 hbl0 ht0 recs ((body.take n).length + 1) [] (body.take n) hrecs hwrecs
        (fun r h => hty r (List.mem_append_left _ h)) (by rw [← hbody']; exact List.take_prefix _ _) (by simp only [List.length_nil]; omega) (by omega)
      have hc : complete (recs.map (recBytes (fmtOf c))) (body.take n).length = complete (recs.map (recBytes (fmtOf c))) n := by
        rw [List.length_take, hbody', complete_min]
      rw [hc] at hs
      simp only [List.nil_append, List.length_nil, Nat.zero_add] at hs
      have hk := complete_le (recs.map (recBytes (fmtOf c))) n
      generalize hkk : complete (recs.map (recBytes (fmtOf c))) n = k at hs hk
      have hsub : ∀ r ∈ recs.take k ++ appended ops, r ∈ recs ++ appended ops := by
        intro r h
        rcases List.mem_append.mp h with h | h
        · exact List.mem_append_left _ (List.mem_of_mem_take h)
        · exact List.mem_append_right _ h
      have hsplit : body = ((recs.take k).map (recBytes (fmtOf c))).flatten ++ ((recs.drop k).map (recBytes (fmtOf c))).flatten := by
        rw [hbody', ← List.flatten_append, ← List.map_append, List.take_append_drop]
      have hl : ((recs.take k).map (recBytes (fmtOf c))).flatten.length ≤ n := by
        rw [List.map_take]
        exact hk.1
      have htake : (body.take n).take ((recs.take k).map (recBytes (fmtOf c))).flatten.length = ((recs.take k).map (recBytes (fmtOf c))).flatten := by
        rw [List.take_take, Nat.min_eq_left hl, hsplit, List.take_left' rfl]
      have hlb := congrArg List.length hsplit
      rw [List.length_append] at hlb
      have hbl2 := congrArg List.length hbody'
      obtain ⟨st', i1, i2⟩ := ih (recs.take k) ⟨((recs.take k).map (recBytes (fmtOf c))).flatten, ((recs.take k).map (recBytes (fmtOf c))).flatten.length⟩ total
        ⟨fun m h => hr.read m (hsub m h), fun m h => hr.stack m (hsub m h), hr.env, fun m h => hr.types m (hsub m h)⟩
        (fun r h => hsome r (hsub r h)) (fun r h => hty r (hsub r h)) hsup
        (by simp only [List.map_append, List.flatten_append, List.length_append]; omega) hlt hlim hmem
        ⟨Nat.le_refl _, by show ((recs.take k).map (recBytes (fmtOf c))).flatten.length < 2 ^ 63; omega, _,
          wireItems_calls (recs_wire fun r h => hwrecs r (List.mem_of_mem_take h)), Nat.zero_add _,
          by rw [List.drop_zero, List.take_length]⟩ (by rw [List.drop_length]; simp)
      refine ⟨st', ?_, ?_⟩
      · simp only [logRun, hbd, hs, Option.bind_some, if_true, htake, i1, Option.map_some, logIdeal, hkk]
      · simpa only [logIdeal, hkk] using i2

end Zpp
