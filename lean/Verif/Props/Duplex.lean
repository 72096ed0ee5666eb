import Verif.Proof.Duplex
/-!
# Input and output archives over one buffer
-/

namespace Zpp.Props
open Zpp Zpp.Spec

theorem fifo_run {d : Nat} {c : Cfg} {noFit : Bool} {ops : List Op} {outs : List (List Val)} {q q' : List (Ty × Val)}
    (hf : Fifo q ops outs q') : ∀ {x : Duplex} {bs : List UInt8}, Holds (fmtOf c) q x →
    Supported c (q ++ written ops) → Readable c (q ++ written ops) → StackOk d (q ++ written ops) →
    BitsOk (written ops) ⟨x.data, x.wpos⟩ → wireItems (fmtOf c) (written ops) = some bs → bs.length < 2 ^ 63 →
    RoomFor c.g x.data.length (x.wpos + bs.length) →
    (Duplex.run d c noFit ops x).1 = outs.map (fun o => (.ok, o)) ∧ Holds (fmtOf c) q' (Duplex.run d c noFit ops x).2 ∧
    (Duplex.run d c noFit ops x).2.wpos = x.wpos + bs.length := by
  induction hf with
  | done q =>
    intro x bs h _ _ _ _ hw _ _
    cases hw
    exact ⟨rfl, h, rfl⟩
  | @write q q' items ops outs _ ih =>
    intro x bs h hs hr hd hb hw hl hroom
    simp only [written] at hs hr hd hb hw
    obtain ⟨b1, b2, h1, h2, rfl⟩ := wireItems_append hw
    simp only [List.length_append] at hl hroom
    have hs1 : Supported c items := ⟨hs.growth, hs.abi, hs.env, fun x hx => hs.types x (by simp [hx])⟩
    obtain ⟨y, hy, hy1, hy2, hy3, hy4⟩ := h.write (d := d) (noFit := noFit) rfl hs1 (fun x hx => hd x (by simp [hx]))
      (hb.imp (fun h x hx => h x (by simp [hx])) id) h1 (by omega) (hroom.mono (by omega))
    rw [← List.append_assoc] at hs hr hd
    obtain ⟨e1, e2, e3⟩ := ih hy1 hs hr hd
      (hb.imp (fun h x hx => h x (by simp [hx])) (fun h b hb => (hy4 b hb).elim id (h b))) h2 (by omega)
      ((hroom.mono (by omega)).grow hy3)
    simp only [Duplex.run, Duplex.step, hy, List.map_cons, e1, List.length_append]
    exact ⟨trivial, e2, by rw [e3, hy2]; omega⟩
  | @read front rest q' dests ops outs hds _ ih =>
    intro x bs h hs hr hd hb hw hl hroom
    simp only [written] at hs hr hd hb hw
    have hr1 : Readable c front := ⟨hr.abi, hr.env, fun x hx => hr.types x (by simp [hx]),
      fun x hx => hr.load x (by simp [hx])⟩
    obtain ⟨y, hy, hy1, hy2, hy3⟩ := h.read (d := d) rfl hr1 (fun x hx => hd x (by simp [hx])) hds
    rw [← hy2, ← hy3] at hb
    rw [← hy2, ← hy3] at hroom
    have hm : ∀ {z : Ty × Val}, z ∈ rest ++ written ops → z ∈ front ++ rest ++ written ops := by
      intro z hz; simp only [List.mem_append] at hz ⊢; tauto
    obtain ⟨e1, e2, e3⟩ := ih hy1 ⟨hs.growth, hs.abi, hs.env, fun x hx => hs.types x (hm hx)⟩
      ⟨hr.abi, hr.env, fun x hx => hr.types x (hm hx), fun x hx => hr.load x (hm hx)⟩
      (fun x hx => hd x (hm hx)) hb hw hl hroom
    simp only [Duplex.run, Duplex.step, hy, List.map_cons, e1]
    exact ⟨trivial, e2, by rw [e3, hy3]⟩

/-- C44. Over one buffer with an input and an output archive, start with any queue `q` of objects encoded between the two
positions (nothing, for a fresh pair of archives). Any interleaving `ops` of output calls (of any objects the buffer has
room for) and input calls (asking for the types at the front of the queue) succeeds and gives what a first-in-first-out
queue of objects gives; afterwards the encoding of the objects still queued stands between the two positions. -/
theorem C44_fifo (d : Nat) (c : Cfg) (noFit : Bool) (ops : List Op) (outs : List (List Val)) (q q' : List (Ty × Val))
    (x : Duplex) (b bs : List UInt8) (hpos : x.wpos ≤ x.data.length) (hlen : x.data.length < 2 ^ 63)
    (hb : wireItems (fmtOf c) q = some b) (hbl : x.rpos + b.length = x.wpos) (hbd : (x.data.take x.wpos).drop x.rpos = b)
    (hf : Fifo q ops outs q') (hs : Supported c (q ++ written ops)) (hr : Readable c (q ++ written ops))
    (hd : StackOk d (q ++ written ops)) (hbits : BitsOk (written ops) ⟨x.data, x.wpos⟩)
    (hw : wireItems (fmtOf c) (written ops) = some bs) (hl : bs.length < 2 ^ 63)
    (hroom : RoomFor c.g x.data.length (x.wpos + bs.length)) :
    let r := Duplex.run d c noFit ops x
    r.1 = outs.map (fun o => (.ok, o)) ∧
    wireItems (fmtOf c) q' = some ((r.2.data.take r.2.wpos).drop r.2.rpos) ∧ r.2.wpos = x.wpos + bs.length := by
  obtain ⟨h1, h2, h3⟩ := fifo_run (d := d) (noFit := noFit) hf ⟨hpos, hlen, b, hb, hbl, hbd⟩ hs hr hd hbits hw hl hroom
  obtain ⟨b', hb', _, h4⟩ := h2.body
  exact ⟨h1, by rw [h4]; exact hb', h3⟩

/-- C44: what a queue is. In a history over a queue, the objects read, followed by the objects left, are the objects
queued at the start followed by the objects written, in order: the k-th object read is the k-th object written. -/
theorem C44_order (ops : List Op) (outs : List (List Val)) (q q' : List (Ty × Val)) (hf : Fifo q ops outs q') :
    outs.flatten ++ q'.map Prod.snd = (q ++ written ops).map Prod.snd := by
  induction hf with
  | done q => simp [written]
  | write _ ih => simpa [written] using ih
  | read _ _ ih =>
    simp only [List.flatten_cons, List.append_assoc, ih, written, List.map_append]

/-- C44: reading never changes the buffer or the output position, whatever is asked for and whether it succeeds. -/
theorem C44_read_keeps (d : Nat) (c : Cfg) (noFit : Bool) (dests : List (Ty × Val)) (x : Duplex) :
    (x.step d c noFit (.read dests)).2.data = x.data ∧ (x.step d c noFit (.read dests)).2.wpos = x.wpos := ⟨rfl, rfl⟩

/-- Two writes, a read across the boundary of the two, another write, another read; fresh archives. -/
example :
    let c := Checks.le Checks.grow (.fixed 1)
    let ops : List Op := [.write [(.scalar .int 2, .num 258), (Checks.str, Checks.strV [65])], .write [(.bool, .num 1)],
      .read [(.scalar .int 2, .num 0), (Checks.str, .list [])], .write [(.bitset 3, .bits [true, false, true])],
      .read [(.bool, .num 0)]]
    Fifo [] ops [[], [], [.num 258, Checks.strV [65]], [], [.num 1]] [(.bitset 3, .bits [true, false, true])] ∧
    Supported c (written ops) ∧ Readable c (written ops) ∧ StackOk 20 (written ops) ∧
    BitsOk (written ops) ⟨[], 0⟩ ∧ wireItems (fmtOf c) (written ops) = some [2, 1, 1, 65, 1, 5] ∧
    RoomFor c.g 0 6 ∧
    Duplex.run 20 c false ops ⟨[], 0, 0⟩ = ([(.ok, []), (.ok, []), (.ok, [.num 258, Checks.strV [65]]), (.ok, []),
      (.ok, [.num 1])], ⟨[2, 1, 1, 65, 1, 5], 6, 5⟩) := by
  refine ⟨?_, ⟨grow_ok, so_abi, fun _ => ⟨rfl, rfl⟩, ?_⟩, ⟨so_abi, fun _ => ⟨rfl, rfl⟩, ?_, ?_⟩, ?_, Or.inr nofun,
    by decide +kernel, ?_, by decide +kernel⟩
  · refine .write (.write (.read (front := [(.scalar .int 2, .num 258), (Checks.str, Checks.strV [65])])
      (rest := [(.bool, .num 1)]) rfl (.write (.read (front := [(.bool, .num 1)]) rfl (.done _)))))
  · intro x hx; simp [written] at hx; rcases hx with rfl | rfl | rfl | rfl <;> rfl
  · intro x hx; simp [written] at hx; rcases hx with rfl | rfl | rfl | rfl <;> rfl
  · intro x hx
    simp [written] at hx
    rcases hx with rfl | rfl | rfl | rfl <;>
      simp [Loadable, LoadableL, Checks.str, Checks.strV, Fits, Checks.le, Checks.grow, Checks.so, Checks.chr]
  · intro x hx; simp [written] at hx; rcases hx with rfl | rfl | rfl | rfl <;> decide
  · simp [RoomFor, LimitRoom, MemRoom, Checks.le, Checks.grow, sizeMax]

end Zpp.Props
