import Verif.Spec.TwoSlots
import Verif.Props.RoundTrip
import Verif.Props.Output
/-! # Atomic updates by two slots -/

namespace Zpp
open Spec Props

/-- The byte that selects a slot. -/
def selByte (k : Nat) : UInt8 := if k = 0 then 0 else 1

theorem sel_wire (f : Fmt) {k : Nat} (hk : k = 0 ∨ k = 1) : wireItems f [(selTy, .num k)] = some [selByte k] := by
  rcases hk with rfl | rfl <;> cases ho : f.order <;> simp [wireItems, wire, wireNum, cat, selByte, digits, ho]

/-- What holds of the file between operations. -/
structure SlotInv (c : Cfg) (size : Nat) (cur : List (Ty × Val)) (k : Nat) (disk : List UInt8) : Prop where
  sel : k = 0 ∨ k = 1
  len : disk.length = 1 + 2 * size
  head : disk = selByte k :: disk.drop 1
  body : ∃ b rest, wireItems (fmtOf c) cur = some b ∧ b.length ≤ size ∧ disk.drop (slotAt size k) = b ++ rest

theorem drop_splice_behind {α : Type} {p q : Nat} {s xs : List α} (h : q ≤ p) (hp : p ≤ s.length) :
    (s.take p ++ xs ++ s.drop (p + xs.length)).drop q = (s.drop q).take (p - q) ++ xs ++ s.drop (p + xs.length) := by
  rw [List.append_assoc, List.drop_append_of_le_length (by rw [List.length_take]; omega), ← List.append_assoc, List.drop_take]

theorem drop_splice_before {α : Type} {p q : Nat} {s xs : List α} (h : p + xs.length ≤ q) (hp : p + xs.length ≤ s.length) :
    (s.take p ++ xs ++ s.drop (p + xs.length)).drop q = s.drop q := by
  have hl : (s.take p ++ xs).length = p + xs.length := by rw [List.length_append, List.length_take]; omega
  rw [List.drop_append, hl, List.drop_eq_nil_of_le (by omega), List.nil_append, List.drop_drop]
  congr 1
  omega

/-- Writing within the other slot keeps the object and the byte. -/
theorem SlotInv.other {c : Cfg} {size : Nat} {cur : List (Ty × Val)} {k : Nat} {disk xs : List UInt8} (h : SlotInv c size cur k disk)
    (hx : xs.length ≤ size) :
    SlotInv c size cur k (disk.take (slotAt size (1 - k)) ++ xs ++ disk.drop (slotAt size (1 - k) + xs.length)) := by
  obtain ⟨b, rest, hw, hb, hd⟩ := h.body
  have hl := h.len
  have hoff : slotAt size (1 - k) + xs.length ≤ disk.length := by
    rcases h.sel with rfl | rfl <;> simp only [slotAt] <;> omega
  have h1 : 1 ≤ slotAt size (1 - k) := by simp only [slotAt]; omega
  refine ⟨h.sel, by simp only [List.length_append, List.length_take, List.length_drop]; omega, ?_, ?_⟩
  · rw [drop_splice_behind h1 (by omega)]
    obtain ⟨n, hn⟩ : ∃ n, slotAt size (1 - k) = n + 1 := ⟨_, (Nat.sub_add_cancel h1).symm⟩
    conv => lhs; rw [h.head]
    simp only [hn, List.take_succ_cons, List.cons_append, Nat.add_sub_cancel]
    congr 1
    rw [← h.head]
  · rcases h.sel with rfl | rfl
    · refine ⟨b, rest.take (size - b.length) ++ xs ++ disk.drop (slotAt size (1 - 0) + xs.length), hw, hb, ?_⟩
      rw [drop_splice_behind (by simp only [slotAt]; omega) (by omega), hd, List.take_append]
      have e : slotAt size (1 - 0) - slotAt size 0 = size := by simp only [slotAt]; omega
      rw [e, List.take_of_length_le hb]
      simp only [List.append_assoc]
    · refine ⟨b, rest, hw, hb, ?_⟩
      rw [drop_splice_before (by simp only [slotAt]; omega) (by omega), hd]

/-- The byte is read. -/
theorem SlotInv.now {d : Nat} {c : Cfg} {size : Nat} {cur : List (Ty × Val)} {k : Nat} {disk : List UInt8} (h : SlotInv c size cur k disk)
    (habi : AbiOk c.sizeof) (henv : EnvGood c) (hd2 : 2 ≤ d) (hlt : 1 + 2 * size < 2 ^ 63) : slotNow d c disk = some k := by
  have hl := h.len
  have hr := C10_read_encoding d c [(selTy, .num k)] [(selTy, .num 0)] [] [selByte k] (disk.drop 1)
    (by simp only [List.nil_append, List.length_append, List.length_singleton, List.length_drop]; omega) (sel_wire _ h.sel)
    ⟨habi, henv, by simp [Good, nodeOk, scalarOk], by simp [Loadable]⟩ (by simpa [StackOk, depth] using hd2) rfl
  simp only [List.nil_append, List.singleton_append, ← h.head, List.length_nil] at hr
  rw [slotNow, hr]
  rfl

/-- The object is read. -/
theorem SlotInv.load {d : Nat} {c : Cfg} {size : Nat} {dests cur : List (Ty × Val)} {k : Nat} {disk : List UInt8} (h : SlotInv c size cur k disk)
    (hk : Keepable d c size dests cur) (hd2 : 2 ≤ d) (hlt : 1 + 2 * size < 2 ^ 63) : slotLoad d c size dests disk = some (cur.map Prod.snd) := by
  obtain ⟨b, rest, hw, hb, hd⟩ := h.body
  have hl := h.len
  have hoff : slotAt size k ≤ disk.length := by rcases h.sel with rfl | rfl <;> simp only [slotAt] <;> omega
  have hr := C10_read_encoding d c cur dests (disk.take (slotAt size k)) b rest
    (by rw [List.append_assoc, ← hd, List.take_append_drop]; omega) hw hk.read hk.stack hk.same
  rw [List.append_assoc, ← hd, List.take_append_drop, List.length_take, Nat.min_eq_left hoff] at hr
  rw [slotLoad, h.now hk.read.abi hk.read.env hd2 hlt, Option.bind_some, hr]

/-- An update. -/
theorem SlotInv.update {d : Nat} {c : Cfg} {noFit : Bool} {size : Nat} {dests cur items : List (Ty × Val)} {k : Nat} {disk : List UInt8}
    (h : SlotInv c size cur k disk) (hfix : c.g.resizable = false) (hi : Keepable d c size dests items) (hd2 : 2 ≤ d) (hlt : 1 + 2 * size < 2 ^ 63) :
    ∃ disk', slotStep d c noFit size disk (.update items) = some disk' ∧ SlotInv c size items (1 - k) disk' := by
  obtain ⟨b, hw, hb⟩ := hi.fits
  have hl := h.len
  have hoff : slotAt size (1 - k) + b.length ≤ disk.length := by rcases h.sel with rfl | rfl <;> simp only [slotAt] <;> omega
  have h1 : 1 ≤ slotAt size (1 - k) := by simp only [slotAt]; omega
  have hsel : 1 - k = 0 ∨ 1 - k = 1 := by rcases h.sel with rfl | rfl <;> simp
  have ho := (C02_fixed_exact d c noFit items ⟨disk, slotAt size (1 - k)⟩ b hfix (by simp only; omega) (by simp only; omega) hi.sup hi.stack
    (Or.inl hi.clean) hw (by omega)).1 hoff
  simp only at ho
  have hin := h.other hb
  have hn := h.now (d := d) hi.read.abi hi.read.env hd2 hlt
  have hbody : ∃ rest, (disk.take (slotAt size (1 - k)) ++ b ++ disk.drop (slotAt size (1 - k) + b.length)).drop (slotAt size (1 - k)) = b ++ rest := by
    refine ⟨disk.drop (slotAt size (1 - k) + b.length), ?_⟩
    rw [drop_splice_behind (Nat.le_refl _) (by omega), Nat.sub_self, List.take_zero, List.nil_append]
  generalize disk.take (slotAt size (1 - k)) ++ b ++ disk.drop (slotAt size (1 - k) + b.length) = disk1 at ho hin hbody
  have hl1 := hin.len
  have ho2 := (C02_fixed_exact d c noFit [(selTy, .num (1 - k))] ⟨disk1, 0⟩ [selByte (1 - k)] hfix (Nat.zero_le _) (by simp only; omega)
    ⟨hi.sup.growth, hi.sup.abi, hi.sup.env, by simp [Good, nodeOk, scalarOk]⟩ (by simpa [StackOk, depth] using hd2) (Or.inl (by simp [noBits])) (sel_wire _ hsel) (by simp)).1
    (by simp only [List.length_singleton]; omega)
  simp only [List.take_zero, List.nil_append, List.length_singleton, Nat.zero_add, List.singleton_append] at ho2
  refine ⟨selByte (1 - k) :: disk1.drop 1, ?_, hsel, ?_, ?_, ?_⟩
  · simp only [slotStep, hn, Option.bind_some, ho, ho2]
  · simp only [List.length_cons, List.length_drop]
    omega
  · simp
  · obtain ⟨rest, hr⟩ := hbody
    refine ⟨b, rest, hw, hb, ?_⟩
    rw [← hr]
    obtain ⟨n, hn⟩ : ∃ n, slotAt size (1 - k) = n + 1 := ⟨_, (Nat.sub_add_cancel h1).symm⟩
    rw [hn, List.drop_succ_cons, List.drop_drop, Nat.add_comm]

/-- A history. -/
theorem slotRun_spec {d : Nat} {c : Cfg} {noFit : Bool} {size : Nat} {dests : List (Ty × Val)} (hfix : c.g.resizable = false)
    (hd2 : 2 ≤ d) (hlt : 1 + 2 * size < 2 ^ 63) : ∀ (ops : List SlotOp) (cur : List (Ty × Val)) (k : Nat) (disk : List UInt8), SlotInv c size cur k disk →
    Keepable d c size dests cur → (∀ items, SlotOp.update items ∈ ops → Keepable d c size dests items) →
    (∀ g, SlotOp.torn g ∈ ops → g.length ≤ size) →
    slotRun d c noFit size dests ops disk = slotIdeal ops (cur.map Prod.snd) := by
  intro ops
  induction ops with
  | nil => intros; rfl
  | cons op ops ih =>
    intro cur k disk h hk hu ht
    cases op with
    | update items =>
      have hi := hu items List.mem_cons_self
      obtain ⟨disk', e, h'⟩ := h.update (noFit := noFit) hfix hi hd2 hlt
      simp only [slotRun, e, slotIdeal]
      rw [h'.load hi hd2 hlt, ih items _ disk' h' hi (fun i m => hu i (List.mem_cons_of_mem _ m)) (fun g m => ht g (List.mem_cons_of_mem _ m))]
    | torn g =>
      have h' := h.other (ht g List.mem_cons_self)
      simp only [slotRun, slotStep, h.now (d := d) hk.read.abi hk.read.env hd2 hlt, Option.map_some, slotIdeal]
      rw [h'.load hk hd2 hlt, ih cur _ _ h' hk (fun i m => hu i (List.mem_cons_of_mem _ m)) (fun g m => ht g (List.mem_cons_of_mem _ m))]

end Zpp
