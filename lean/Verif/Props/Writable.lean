import Verif.Proof.Writable
import Verif.Props.Output
import Verif.Props.Objects
/-!
# Properties: every valid object can be written, with a short list of exceptions (C94)
-/

namespace Zpp.Props
open Zpp Zpp.Spec

/-- C94. A valid object has no encoding exactly when it contains one of the obstacles: a `bool` that is neither 0 nor 1, a null
owning pointer, a container with more elements than its size prefix can express, or a message, string or packed field that is too
long. -/
theorem C94_exactly (c : Cfg) (t : Ty) (v : Val) (henv : EnvGood c) (hg : Good c t = true) (ho : Object c.env c.keyLt t v) :
    wire (fmtOf c) t v = none ↔ Obstacle (fmtOf c) t v := by
  refine ⟨fun h => ?_, obstacle_none⟩
  rcases wire_or henv (cells v) t v (Nat.le_refl _) ho hg with ⟨bs, h'⟩ | h'
  · rw [h] at h'; cases h'
  · exact h'

theorem wireItems_exists {c : Cfg} (henv : EnvGood c) : ∀ items : List (Ty × Val), (∀ it ∈ items, Good c it.1 = true) →
    (∀ it ∈ items, Object c.env c.keyLt it.1 it.2) → (∀ it ∈ items, ¬ Obstacle (fmtOf c) it.1 it.2) →
    ∃ bs, wireItems (fmtOf c) items = some bs
  | [], _, _, _ => ⟨[], rfl⟩
  | (t, v) :: items, hg, ho, hn => by
    obtain ⟨b, h2⟩ := wireItems_exists henv items (fun x hx => hg x (by simp [hx])) (fun x hx => ho x (by simp [hx]))
      (fun x hx => hn x (by simp [hx]))
    rcases wire_or henv (cells v) t v (Nat.le_refl _) (ho (t, v) (by simp)) (hg (t, v) (by simp)) with ⟨a, h1⟩ | h
    · exact ⟨a ++ b, by simp only [wireItems, h1, h2, cat]⟩
    · exact absurd h (hn (t, v) (by simp))

/-- C94. A call that writes valid objects without obstacles into a growing buffer succeeds, or the buffer may not grow as far as
needed: `no_buffer_space` for the limit of the archive, `bad_alloc` for the memory. -/
theorem C94_growing (d : Nat) (c : Cfg) (noFit : Bool) (items : List (Ty × Val)) (st : OutSt) (hr : c.g.resizable = true)
    (hpos : st.pos ≤ st.data.length) (hlen : st.data.length < 2 ^ 63) (hs : Supported c items) (hd : StackOk d items)
    (hb : BitsOk items st) (ho : ∀ it ∈ items, Object c.env c.keyLt it.1 it.2)
    (hn : ∀ it ∈ items, ¬ Obstacle (fmtOf c) it.1 it.2) :
    ∃ bs, wireItems (fmtOf c) items = some bs ∧ (bs.length < 2 ^ 63 →
      (outCall d c noFit items st).1 = .ok ∨
      ((outCall d c noFit items st).1 = .err .noBufferSpace ∧ ¬ LimitRoom c.g (st.pos + bs.length)) ∨
      ((outCall d c noFit items st).1 = .badAlloc ∧ ¬ MemRoom c.g (st.pos + bs.length))) := by
  obtain ⟨bs, hw⟩ := wireItems_exists hs.env items hs.types ho hn
  exact ⟨bs, hw, fun hl => C06_growing_failure_causes d c noFit items st bs hr hpos hlen hs hd hb hw hl⟩

/-- C94. A call that writes valid objects without obstacles into a buffer that does not grow succeeds exactly when the buffer is
large enough. -/
theorem C94_fixed (d : Nat) (c : Cfg) (noFit : Bool) (items : List (Ty × Val)) (st : OutSt) (hfix : c.g.resizable = false)
    (hpos : st.pos ≤ st.data.length) (hlen : st.data.length < 2 ^ 63) (hs : Supported c items) (hd : StackOk d items)
    (hb : BitsOk items st) (ho : ∀ it ∈ items, Object c.env c.keyLt it.1 it.2)
    (hn : ∀ it ∈ items, ¬ Obstacle (fmtOf c) it.1 it.2) :
    ∃ bs, wireItems (fmtOf c) items = some bs ∧ (bs.length < 2 ^ 63 →
      ((outCall d c noFit items st).1 = .ok ↔ st.pos + bs.length ≤ st.data.length)) := by
  obtain ⟨bs, hw⟩ := wireItems_exists hs.env items hs.types ho hn
  refine ⟨bs, hw, fun hl => ?_⟩
  have h := C02_fixed_exact d c noFit items st bs hfix hpos hlen hs hd hb hw hl
  constructor
  · intro hok
    by_cases hf : st.pos + bs.length ≤ st.data.length
    · exact hf
    · rw [h.2 (by omega)] at hok; cases hok
  · intro hf
    rw [h.1 hf]

/-- C94. Whatever an archive has read, from any bytes and also when the read failed, can be written again unless one of the objects
contains an obstacle. -/
theorem C94_read (R S L : Nat) (rank layer : Nat → Nat) (d : Nat) (c : Cfg) (data : List UInt8) (items : List (Ty × Val)) (p : Nat)
    (hs : Supported c items) (henv : ∀ i, widthsOk (c.env i) = true) (hfenv : ∀ i, formed (c.env i) = true)
    (hlt : ∀ key, WeakOrder (c.keyLt key)) (hcc : CyclesCost c R S rank) (hL : Layered c.env L layer)
    (hw : ∀ it ∈ items, widthsOk it.1 = true) (hf : ∀ it ∈ items, formed it.1 = true) (hp : p ≤ data.length)
    (hd : heightL (items.map Prod.fst) + (S + 1) * R * (data.length - p + 1) + (S + 1) * L ≤ d)
    (ho : ∀ it ∈ items, Object c.env c.keyLt it.1 it.2)
    (hn : ∀ it ∈ (items.map Prod.fst).zip (decMany d c data items p).vs, ¬ Obstacle (fmtOf c) it.1 it.2) :
    ∃ bs, wireItems (fmtOf c) ((items.map Prod.fst).zip (decMany d c data items p).vs) = some bs := by
  have h := C76_valid R S L rank layer d c data items hs.abi henv hfenv hlt hcc hL p hw hf hp hd ho
  have hz : ∀ (ts : List Ty) (vs : List Val), Objects c.env c.keyLt ts vs → ∀ it ∈ ts.zip vs, Object c.env c.keyLt it.1 it.2 := by
    intro ts
    induction ts with
    | nil => intro vs _ it hit; simp at hit
    | cons t ts ih =>
      intro vs h it hit
      cases h with
      | cons h1 h2 =>
        simp only [List.zip_cons_cons, List.mem_cons] at hit
        rcases hit with rfl | hit
        · exact h1
        · exact ih _ h2 it hit
  refine wireItems_exists hs.env _ (fun it hit => ?_) (hz _ _ h) hn
  obtain ⟨x, hx, hx'⟩ := List.mem_map.mp (List.of_mem_zip hit).1
  rw [← hx']
  exact hs.types x hx

/-! ## Each obstacle occurs, and a valid object without one -/

-- A `bool` that was read from the byte 2 cannot be written.
example : (decode 5 (Checks.le Checks.grow (.fixed 1)) .bool (.num 0) [2] 0).v = .num 2 ∧
    Object nodeCfg.env nodeCfg.keyLt .bool (.num 2) ∧ Obstacle (fmtOf (Checks.le Checks.grow (.fixed 1))) .bool (.num 2) :=
  ⟨by decide +kernel, .bool (by decide), .bool (by decide)⟩

-- A null owning pointer, as an element of a vector.
example : Obstacle (fmtOf (Checks.le Checks.grow (.fixed 1))) (.seq .vector none (.uptr Checks.i32)) (.list [.some (.num 1), .none]) :=
  .element (v := .none) (by simp) .owner

-- 256 elements and a size prefix of one byte.
example : Obstacle (fmtOf (Checks.le Checks.grow (.fixed 1))) (.seq .vector none Checks.chr) (.list (List.replicate 256 (.num 0))) ∧
    wire (fmtOf (Checks.le Checks.grow (.fixed 1))) (.seq .vector none Checks.chr) (.list (List.replicate 256 (.num 0))) = none :=
  have h : overCount (fmtOf (Checks.le Checks.grow (.fixed 1))) none (List.replicate 256 (Val.num 0)).length := by
    rw [List.length_replicate]
    show 256 ^ 1 ≤ 256
    decide
  ⟨.seqCount h, obstacle_none (.seqCount h)⟩

-- A `bool` inside a nested message of a message.
example : Obstacle (fmtOf (Checks.le Checks.grow (.fixed 4))) (.msg none false [] [none] [.msg none false [] [none] [.bool]])
    (.list [.list [.num 7]]) :=
  .field 0 rfl rfl (.message rfl (.member 0 rfl rfl rfl (.bool (by decide))))

-- A message of 256 bytes is too long for a prefix of one byte, one of 255 bytes is not.
example : overLength (fmtOf (Checks.le Checks.grow (.fixed 4))) (some (.fixed 1)) 256 ∧
    ¬ overLength (fmtOf (Checks.le Checks.grow (.fixed 4))) (some (.fixed 1)) 255 := by
  simp [overLength]

-- The object of the output theorems is valid and has no obstacle.
example : Supported (Checks.le Checks.grow (.fixed 4)) [(exTy, exVal)] ∧ ¬ Obstacle (fmtOf (Checks.le Checks.grow (.fixed 4))) exTy exVal := by
  refine ⟨ex_supported _ grow_ok, fun h => ?_⟩
  have := obstacle_none h
  have h' : (wire (fmtOf (Checks.le Checks.grow (.fixed 4))) exTy exVal).isSome = true := by decide +kernel
  rw [this] at h'
  cases h'

end Zpp.Props
