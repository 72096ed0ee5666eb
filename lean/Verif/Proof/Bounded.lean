import Verif.Spec.Bounded
import Verif.Proof.Duplex
import Verif.Props.Output
/-! # A fixed buffer with compaction is a bounded queue -/

namespace Zpp
open Spec Props

theorem Holds.compacted {f : Fmt} {q : List (Ty × Val)} {x : Duplex} (h : Holds f q x) :
    Holds f q (compact x) ∧ (compact x).data.length = x.data.length := by
  obtain ⟨h1, h2, bs, h3, h4, h5⟩ := h
  have hl : (compact x).data.length = x.data.length := by
    simp only [compact, h5, List.length_append, List.length_drop]; omega
  refine ⟨⟨?_, by rw [hl]; exact h2, bs, h3, ?_, ?_⟩, hl⟩
  · rw [hl]; simp only [compact]; omega
  · simp only [compact]; omega
  · simp only [compact, h5, List.drop_zero]
    rw [List.take_append_of_le_length (by omega), List.take_of_length_le (by omega)]

/-- What an output call on a fixed buffer does to the queue in it. -/
theorem Holds.fixed {d : Nat} {c : Cfg} {noFit : Bool} {items q : List (Ty × Val)} {x : Duplex} {bs : List UInt8}
    (hfix : c.g.resizable = false) (h : Holds (fmtOf c) q x) (hs : Supported c items) (hd : StackOk d items)
    (hb : ∀ y ∈ items, noBits y.2 = true) (hw : wireItems (fmtOf c) items = some bs) (hl : bs.length < 2 ^ 63) :
    (x.wpos + bs.length ≤ x.data.length → ∃ y, x.write d c noFit items = (.ok, y) ∧ Holds (fmtOf c) (q ++ items) y ∧
      y.data.length = x.data.length) ∧
    (x.data.length < x.wpos + bs.length → ∃ y, x.write d c noFit items = (.err .resultOutOfRange, y) ∧
      Holds (fmtOf c) q { y with wpos := x.wpos } ∧ y.data.length = x.data.length) := by
  have hsafe := C01_fixed_buffer_safe d c noFit items ⟨x.data, x.wpos⟩ hfix h.wpos_le h.len_lt
  simp only at hsafe
  obtain ⟨-, -, -, k1, -, -, k2, -⟩ := hsafe
  constructor
  · intro hroom
    obtain ⟨y, h1, h2, -⟩ := h.write (noFit := noFit) rfl hs hd (.inl hb) hw hl
      (by unfold RoomFor; rw [hfix]; exact hroom)
    refine ⟨y, h1, h2, ?_⟩
    simp only [Duplex.write, Prod.mk.injEq] at h1
    rw [← h1.2]; exact k1
  · intro hroom
    have h1 := (C02_fixed_exact d c noFit items ⟨x.data, x.wpos⟩ bs hfix h.wpos_le h.len_lt hs hd (.inl hb) hw hl).2 hroom
    refine ⟨⟨(outCall d c noFit items ⟨x.data, x.wpos⟩).2.data, (outCall d c noFit items ⟨x.data, x.wpos⟩).2.pos, x.rpos⟩,
      by simp only [Duplex.write, h1], ⟨?_, ?_, ?_⟩, k1⟩
    · simp only [k1]; exact h.wpos_le
    · simp only [k1]; exact h.len_lt
    · obtain ⟨b, e1, e2, e3⟩ := h.body
      exact ⟨b, e1, e2, by simp only [k2]; exact e3⟩

theorem bounded_run {d : Nat} {c : Cfg} {noFit : Bool} (hfix : c.g.resizable = false) {room : Nat} {q q' : List (Ty × Val)} {ops : List QueueOp}
    {rs : List QueueRes} (hrun : Bounded (fmtOf c) room q ops rs q') :
    ∀ {x : Duplex}, x.data.length = room → Holds (fmtOf c) q x → Supported c (offered ops) → Readable c (q ++ offered ops) →
    StackOk d (q ++ offered ops) → (∀ y ∈ offered ops, noBits y.2 = true) →
    (queueRun d c noFit ops x).1 = rs ∧ Holds (fmtOf c) q' (queueRun d c noFit ops x).2 ∧
      (queueRun d c noFit ops x).2.data.length = room := by
  have hput : ∀ {q items : List (Ty × Val)} {bs : List UInt8} {x : Duplex}, wireItems (fmtOf c) (q ++ items) = some bs → bs.length < 2 ^ 63 →
      x.data.length = room → Holds (fmtOf c) q x → Supported c items → StackOk d items → (∀ y ∈ items, noBits y.2 = true) →
      (bs.length ≤ room → ∃ y, queuePut d c noFit items x = (.stored, y) ∧ Holds (fmtOf c) (q ++ items) y ∧ y.data.length = room) ∧
      (room < bs.length → ∃ y, queuePut d c noFit items x = (.full, y) ∧ Holds (fmtOf c) q y ∧ y.data.length = room) := by
    intro q items bs x hw hl hroom h hs hd hb
    obtain ⟨b1, b2, h1, h2, rfl⟩ := wireItems_append hw
    rw [List.length_append] at *
    obtain ⟨b, e1, e2, -⟩ := h.body
    rw [h1, Option.some.injEq] at e1
    subst e1
    obtain ⟨f1, f2⟩ := h.fixed (noFit := noFit) hfix hs hd hb h2 (by omega)
    by_cases e : x.wpos + b2.length ≤ x.data.length
    · obtain ⟨y, g1, g2, g3⟩ := f1 e
      exact ⟨fun _ => ⟨y, by simp only [queuePut, g1], g2, by omega⟩, fun hlt => by omega⟩
    · obtain ⟨y, g1, g2, g3⟩ := f2 (by omega)
      obtain ⟨g4, g5⟩ := g2.compacted
      have g5' : (compact { y with wpos := x.wpos }).data.length = room := by rw [g5]; simp only [g3]; omega
      have hr : y.rpos = x.rpos := by
        simp only [Duplex.write, Prod.mk.injEq] at g1
        rw [← g1.2]
      have hwz : (compact { y with wpos := x.wpos }).wpos = b1.length := by simp only [compact, hr]; omega
      obtain ⟨f3, f4⟩ := g4.fixed (noFit := noFit) hfix hs hd hb h2 (by omega)
      constructor
      · intro hle
        obtain ⟨z, k1, k2, k3⟩ := f3 (by omega)
        exact ⟨z, by simp only [queuePut, g1, k1], k2, by omega⟩
      · intro hlt
        obtain ⟨z, k1, k2, k3⟩ := f4 (by omega)
        exact ⟨_, by simp only [queuePut, g1, k1], k2, by simp only; omega⟩
  have hsub : ∀ {a b : List (Ty × Val)}, Supported c b → (∀ x ∈ a, x ∈ b) → Supported c a :=
    fun h hm => ⟨h.growth, h.abi, h.env, fun x hx => h.types x (hm x hx)⟩
  have hrsub : ∀ {a b : List (Ty × Val)}, Readable c b → (∀ x ∈ a, x ∈ b) → Readable c a :=
    fun h hm => ⟨h.abi, h.env, fun x hx => h.types x (hm x hx), fun x hx => h.load x (hm x hx)⟩
  induction hrun with
  | done q => intro x hroom h _ _ _ _; exact ⟨rfl, h, hroom⟩
  | @stored q q' items ops rs bs hw hle _ ih =>
    intro x hroom h hs hr hd hb
    have hl : bs.length < 2 ^ 63 := by have := h.len_lt; omega
    obtain ⟨y, e1, e2, e3⟩ := (hput hw hl hroom h (hsub hs fun z hz => by simp [offered, hz])
      (fun z hz => hd z (by simp [offered, hz])) (fun z hz => hb z (by simp [offered, hz]))).1 hle
    obtain ⟨i1, i2, i3⟩ := ih e3 e2 (hsub hs fun z hz => by simp [offered, hz])
      (hrsub hr fun z hz => by simp [offered] at hz ⊢; exact hz)
      (fun z hz => hd z (by simp [offered] at hz ⊢; exact hz)) (fun z hz => hb z (by simp [offered, hz]))
    simp only [queueRun, e1]
    exact ⟨by rw [i1], i2, i3⟩
  | @full q q' items ops rs bs hw hlt hl _ ih =>
    intro x hroom h hs hr hd hb
    obtain ⟨y, e1, e2, e3⟩ := (hput hw hl hroom h (hsub hs fun z hz => by simp [offered, hz])
      (fun z hz => hd z (by simp [offered, hz])) (fun z hz => hb z (by simp [offered, hz]))).2 hlt
    obtain ⟨i1, i2, i3⟩ := ih e3 e2 (hsub hs fun z hz => by simp [offered, hz])
      (hrsub hr fun z hz => by simp [offered] at hz ⊢; exact hz.imp_right .inr)
      (fun z hz => hd z (by simp [offered] at hz ⊢; exact hz.imp_right .inr)) (fun z hz => hb z (by simp [offered, hz]))
    simp only [queueRun, e1]
    exact ⟨by rw [i1], i2, i3⟩
  | @got front rest q' dests ops rs hds _ ih =>
    intro x hroom h hs hr hd hb
    obtain ⟨y, e1, e2, e3, -⟩ := h.read (d := d) (dests := dests) rfl (hrsub hr fun z hz => by simp [hz])
      (fun z hz => hd z (by simp [hz])) hds
    obtain ⟨i1, i2, i3⟩ := ih (by rw [e3]; exact hroom) e2 hs (hrsub hr fun z hz => by simp [offered] at hz ⊢; exact .inr hz)
      (fun z hz => hd z (by simp [offered] at hz ⊢; exact .inr hz)) hb
    simp only [queueRun, queueGet, e1]
    exact ⟨by rw [i1], i2, i3⟩

end Zpp
