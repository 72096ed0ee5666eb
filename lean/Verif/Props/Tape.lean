import Verif.Spec.Tape
import Verif.Props.Duplex
/-!
# An output archive is a tape
-/

namespace Zpp.Props
open Zpp Zpp.Spec

theorem Tape.put_zeros (cells bs : List UInt8) (head k : Nat) (hh : head ≤ cells.length) :
    ∃ k', (cells ++ List.replicate k (0 : UInt8)).take head ++ bs ++ (cells ++ List.replicate k 0).drop (head + bs.length) =
      (Spec.Tape.put ⟨cells, head⟩ bs).cells ++ List.replicate k' 0 ∧ (k = 0 → k' = 0) := by
  refine ⟨k - (head + bs.length - cells.length), ?_, by omega⟩
  simp only [Spec.Tape.put]
  rw [List.take_append_of_le_length hh, List.drop_append, List.drop_replicate]
  simp only [List.append_assoc]

theorem archiveRun_tape (d : Nat) (c : Cfg) (noFit : Bool) (room : Nat) (ops : List TapeOp) (st : OutSt) (t t' : Tape)
    (hrun : TapeRun (fmtOf c) room t ops t') (hroom : RoomFor c.g st.data.length room) (hroom' : room < 2 ^ 63)
    (hs : Supported c (tapeItems ops)) (hd : StackOk d (tapeItems ops)) (hb : ∀ x ∈ tapeItems ops, noBits x.2 = true)
    (hhead : t.head ≤ t.cells.length) (hlen : st.data.length < 2 ^ 63) (k : Nat) (hdata : st.data = t.cells ++ List.replicate k 0)
    (hpos : st.pos = t.head) :
    let r := archiveRun d c noFit ops st
    r.1 = .ok ∧ r.2.pos = t'.head ∧ r.2.data.length < 2 ^ 63 ∧
    ∃ k', r.2.data = t'.cells ++ List.replicate k' 0 ∧ (c.g.resizable = false → k = 0 → k' = 0) := by
  induction hrun generalizing st k with
  | done t => exact ⟨rfl, hpos, hlen, k, hdata, fun _ h => h⟩
  | @write t t' items bs ops hw hfit _ ih =>
    have hpos' : st.pos ≤ st.data.length := by rw [hdata, hpos]; simp; omega
    have hs1 : Supported c items := ⟨hs.growth, hs.abi, hs.env, fun x hx => hs.types x (by simp [tapeItems, hx])⟩
    have hs2 : Supported c (tapeItems ops) := ⟨hs.growth, hs.abi, hs.env, fun x hx => hs.types x (by simp [tapeItems, hx])⟩
    have hd1 : StackOk d items := fun x hx => hd x (by simp [tapeItems, hx])
    have hb1 : BitsOk items st := .inl fun x hx => hb x (by simp [tapeItems, hx])
    have hok : (outCall d c noFit items st).1 = .ok := by
      cases hr : c.g.resizable
      · unfold RoomFor at hroom
        rw [if_neg (by simp [hr])] at hroom
        exact congrArg Prod.fst ((C02_fixed_exact d c noFit items st bs hr hpos' hlen hs1 hd1 hb1 hw (by omega)).1 (by omega))
      · have h1 := (hroom.mono (a := st.pos + bs.length) (by omega))
        unfold RoomFor at h1
        rw [if_pos hr] at h1
        exact C06_growing_succeeds d c noFit items st bs hr hpos' hlen hs1 hd1 hb1 hw (by omega) h1.1 h1.2
    generalize hst : outCall d c noFit items st = r at hok
    obtain ⟨s, st1⟩ := r
    dsimp only at hok
    subst hok
    obtain ⟨h1, k1, h2⟩ := C04_growing_appends d c noFit items st st1 bs hpos' hlen hs1 hd1 hb1 hw (by omega) hst
    have hsafe := outCall_safe d c hs.growth noFit items st ⟨hpos', hlen⟩
    have hv := hsafe.valid hs.growth ⟨hpos', hlen⟩
    rw [hst] at hv hsafe
    have hfix : c.g.resizable = false → k1 = 0 := by
      intro hr
      unfold RoomFor at hroom
      rw [if_neg (by simp [hr])] at hroom
      have h3 := (C02_fixed_exact d c noFit items st bs hr hpos' hlen hs1 hd1 hb1 hw (by omega)).1 (by omega)
      rw [hst] at h3
      have h4 : st1.data = _ := congrArg OutSt.data (congrArg Prod.snd h3)
      rw [h2] at h4
      simpa using h4
    obtain ⟨k2, h5, h6⟩ := Tape.put_zeros t.cells bs t.head k hhead
    have hdata1 : st1.data = (t.put bs).cells ++ List.replicate (k2 + k1) 0 := by
      rw [h2, hdata, hpos, h5, List.append_assoc, List.replicate_append_replicate]
    have := ih st1 (hroom.grow hsafe.len_ge) hs2 (fun x hx => hd x (by simp [tapeItems, hx]))
      (fun x hx => hb x (by simp [tapeItems, hx])) (by simp [Spec.Tape.put]; omega) hv.len_lt (k2 + k1) hdata1 (by rw [h1, hpos]; rfl)
    simp only [archiveRun, hst]
    obtain ⟨e1, e2, e0, k3, e3, e4⟩ := this
    exact ⟨e1, e2, e0, k3, e3, fun hr hk => e4 hr (by rw [h6 hk, hfix hr])⟩
  | @seek t t' p ops hp _ ih =>
    have := ih { st with pos := p } hroom hs hd hb hp hlen k hdata rfl
    exact this

/-- C79. A program that writes objects and moves the position at will, on any buffer with room: every call succeeds, and in the
end the buffer is what the same program makes of a tape on which it puts the encodings, up to unused zero bytes at the end of a
growing buffer, and the position is that of the head. -/
theorem C79_tape (d : Nat) (c : Cfg) (noFit : Bool) (room : Nat) (ops : List TapeOp) (st : OutSt) (t : Tape)
    (hpos : st.pos ≤ st.data.length) (hlen : st.data.length < 2 ^ 63)
    (hrun : TapeRun (fmtOf c) room ⟨st.data, st.pos⟩ ops t) (hroom : RoomFor c.g st.data.length room) (hroom' : room < 2 ^ 63)
    (hs : Supported c (tapeItems ops)) (hd : StackOk d (tapeItems ops)) (hb : ∀ x ∈ tapeItems ops, noBits x.2 = true) :
    let r := archiveRun d c noFit ops st
    r.1 = .ok ∧ r.2.pos = t.head ∧
    ∃ k, r.2.data = t.cells ++ List.replicate k 0 ∧ (c.g.resizable = false → k = 0) := by
  obtain ⟨h1, h2, -, k, h3, h4⟩ := archiveRun_tape d c noFit room ops st ⟨st.data, st.pos⟩ t hrun hroom hroom' hs hd hb hpos hlen 0
    (by simp) rfl
  exact ⟨h1, h2, k, h3, fun h => h4 h rfl⟩

/-- C79, reading: wherever the encoding of objects stands on the tape after the program, a reader of the same format gets these
objects from the buffer at that place, whatever was written before, behind, or there earlier. -/
theorem C79_read_anywhere (d d' : Nat) (c ci : Cfg) (noFit : Bool) (room : Nat) (ops : List TapeOp) (st : OutSt) (t : Tape)
    (hpos : st.pos ≤ st.data.length) (hlen : st.data.length < 2 ^ 63)
    (hrun : TapeRun (fmtOf c) room ⟨st.data, st.pos⟩ ops t) (hroom : RoomFor c.g st.data.length room) (hroom' : room < 2 ^ 63)
    (hs : Supported c (tapeItems ops)) (hd : StackOk d (tapeItems ops)) (hb : ∀ x ∈ tapeItems ops, noBits x.2 = true)
    (items ds : List (Ty × Val)) (pre bs rest : List UInt8) (hf : fmtOf ci = fmtOf c) (hw : wireItems (fmtOf c) items = some bs)
    (hcells : t.cells = pre ++ bs ++ rest) (hr : Readable ci items) (hd' : StackOk d' items)
    (hds : ds.map Prod.fst = items.map Prod.fst) :
    decMany d' ci (archiveRun d c noFit ops st).2.data ds pre.length = ⟨.ok, items.map Prod.snd, pre.length + bs.length⟩ := by
  obtain ⟨-, -, hv, k, h, -⟩ := archiveRun_tape d c noFit room ops st ⟨st.data, st.pos⟩ t hrun hroom hroom' hs hd hb hpos hlen 0
    (by simp) rfl
  rw [h, hcells, List.append_assoc (pre ++ bs)] at hv ⊢
  exact C10_read_encoding d' ci items ds pre bs _ (by omega) (by rw [hf]; exact hw) hr hd' hds

/-- A length is left open, a string written, the length filled in, and writing goes on at the end. -/
def headerProgram : List TapeOp :=
  [.write [(.scalar .int 2, .num 0)], .write [(Checks.str, Checks.strV [65, 66])], .seek 0, .write [(.scalar .int 2, .num 258)],
   .seek 5, .write [(.bool, .num 1)]]

-- The header program over an empty growing buffer and over a fixed buffer that holds other bytes.
example :
    let c := Checks.le Checks.grow (.fixed 1)
    TapeRun (fmtOf c) 6 ⟨[], 0⟩ headerProgram ⟨[2, 1, 2, 65, 66, 1], 6⟩ ∧ RoomFor c.g 0 6 ∧ Supported c (tapeItems headerProgram) ∧
    StackOk 20 (tapeItems headerProgram) ∧ (∀ x ∈ tapeItems headerProgram, noBits x.2 = true) ∧
    archiveRun 20 c false headerProgram ⟨[], 0⟩ = (.ok, ⟨[2, 1, 2, 65, 66, 1], 6⟩) ∧
    archiveRun 20 (Checks.le Checks.fixed (.fixed 1)) false headerProgram ⟨[9, 9, 9, 9, 9, 9, 9, 9], 0⟩ =
      (.ok, ⟨[2, 1, 2, 65, 66, 1, 9, 9], 6⟩) := by
  refine ⟨?_, ?_, ⟨grow_ok, so_abi, fun _ => ⟨rfl, rfl⟩, ?_⟩, ?_, ?_, by decide +kernel, by decide +kernel⟩
  · refine .write (bs := [0, 0]) rfl (by decide) (.write (bs := [2, 65, 66]) rfl (by decide) (.seek (by decide)
      (.write (bs := [2, 1]) rfl (by decide) (.seek (by decide) (.write (bs := [1]) rfl (by decide) (.done _))))))
  · show LimitRoom Checks.grow 6 ∧ MemRoom Checks.grow 6
    exact ⟨⟨by decide +kernel, by decide +kernel⟩, by unfold MemRoom; decide +kernel⟩
  · intro x hx
    simp only [headerProgram, tapeItems, List.mem_append, List.mem_singleton, List.not_mem_nil, or_false] at hx
    rcases hx with rfl | rfl | rfl | rfl <;> rfl
  · intro x hx
    simp only [headerProgram, tapeItems, List.mem_append, List.mem_singleton, List.not_mem_nil, or_false] at hx
    rcases hx with rfl | rfl | rfl | rfl <;> decide
  · decide +kernel

end Zpp.Props
