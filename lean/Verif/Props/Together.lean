import Verif.Spec.Together
import Verif.Props.Threads
import Verif.Props.OneByOne
import Verif.Props.Receive
/-!
# A message put together by several threads
-/

namespace Zpp.Props
open Zpp Zpp.Spec

theorem slices_flatten (mem : List UInt8) : ∀ (bss : List (List UInt8)) (P : Nat),
    (∀ i : Nat, ∀ bs, bss[i]? = some bs → (mem.drop (P + ((bss.map List.length).take i).sum)).take bs.length = bs) →
    (mem.drop P).take bss.flatten.length = bss.flatten
  | [], P, _ => by simp
  | b :: bss, P, h => by
    have h0 := h 0 b rfl
    have ih := slices_flatten mem bss (P + b.length) (fun i bs hi => by
      have := h (i + 1) bs (by simpa using hi)
      simpa [Nat.add_assoc] using this)
    simp only [List.take_zero, List.sum_nil, Nat.add_zero] at h0
    simp only [List.flatten_cons, List.length_append]
    rw [List.take_add, h0, List.drop_drop, ih]

theorem lens_le (bss : List (List UInt8)) (i : Nat) :
    ((bss.map List.length).take i).sum + (bss.map List.length).getD i 0 ≤ bss.flatten.length ∧
    ∀ j, i < j → ((bss.map List.length).take i).sum + (bss.map List.length).getD i 0 ≤ ((bss.map List.length).take j).sum ∨ bss.length ≤ i := by
  induction bss generalizing i with
  | nil => simp
  | cons b bss ih =>
    cases i with
    | zero =>
      refine ⟨by simp, fun j hj => .inl ?_⟩
      obtain ⟨j, rfl⟩ : ∃ k, j = k + 1 := ⟨j - 1, by omega⟩
      simp
    | succ i =>
      refine ⟨?_, fun j hj => ?_⟩
      · have := (ih i).1
        simp at this ⊢; omega
      · obtain ⟨j, rfl⟩ : ∃ k, j = k + 1 := ⟨j - 1, by omega⟩
        rcases (ih i).2 j (by omega) with h | h
        · left; simp at h ⊢; omega
        · right; simp; omega

theorem threads_place : ∀ (js : List Nat) (mem : List UInt8) (ts : Nat → Thread) (i : Nat),
    ((runSchedule js mem ts).2 i).off = (ts i).off ∧ ((runSchedule js mem ts).2 i).len = (ts i).len
  | [], _, _, _ => ⟨rfl, rfl⟩
  | j :: js, mem, ts, i => by
    have ih := threads_place js ((ts j).turn mem).1 (fun i => if i = j then ((ts j).turn mem).2 else ts i) i
    have ht : ((ts j).turn mem).2.off = (ts j).off ∧ ((ts j).turn mem).2.len = (ts j).len := by
      unfold Thread.turn
      split <;> exact ⟨rfl, rfl⟩
    simp only [runSchedule]
    rw [ih.1, ih.2]
    by_cases h : i = j
    · subst h; simpa using ht
    · simp [h]

/-- C129. The parts of a message are written by one thread each, into their places in a memory. Whatever the schedule is, once every thread has had
its turn the memory holds the message exactly as one archive writes it, nothing else has changed, and every call has succeeded. (Bitsets need places filled with
zeros, see C08.) -/
theorem C129_together (d : Nat) (c : Cfg) (noFit : Bool) (js : List Nat) (parts : List (List (Ty × Val))) (bss : List (List UInt8))
    (pre room rest : List UInt8) (hm : (pre ++ room ++ rest).length < 2 ^ 63) (hroom : room.length = bss.flatten.length)
    (hfix : c.g.resizable = false) (hs : ∀ items ∈ parts, Supported c items) (hd : ∀ items ∈ parts, StackOk d items)
    (hb : (∀ items ∈ parts, ∀ x ∈ items, noBits x.2 = true) ∨ ∀ b ∈ room, b = 0)
    (hw : parts.map (wireItems (fmtOf c)) = bss.map some) (hjs : ∀ i < parts.length, i ∈ js) :
    let final := runSchedule js (pre ++ room ++ rest) (together d c noFit pre.length parts (bss.map List.length))
    final.1 = pre ++ bss.flatten ++ rest ∧ ∀ i < parts.length, (final.2 i).done = [(.ok, [])] := by
  have hn : parts.length = bss.length := by simpa using congrArg List.length hw
  generalize hmem : pre ++ room ++ rest = mem at *
  have hml : mem.length = pre.length + bss.flatten.length + rest.length := by rw [← hmem]; simp only [List.length_append]; omega
  generalize hts : together d c noFit pre.length parts (bss.map List.length) = ts
  have hsome : ∀ i : Nat, ∀ items, parts[i]? = some items →
      ts i = ⟨pre.length + ((bss.map List.length).take i).sum, (bss.map List.length).getD i 0, d, c, noFit, 0, 0, [.write items], []⟩ := by
    intro i items hi; rw [← hts]; simp [together, hi]
  have hnone : ∀ i : Nat, parts[i]? = none → ts i = ⟨0, 0, d, c, noFit, 0, 0, [], []⟩ := by
    intro i hi; rw [← hts]; simp [together, hi]
  have hcases : ∀ i : Nat, (∃ items, parts[i]? = some items) ∨ parts[i]? = none := by
    intro i; cases parts[i]? <;> simp
  have hS := C113_schedule js mem ts hm
    (fun i => by rcases hcases i with ⟨x, h⟩ | h <;> simp [hsome i, hnone i, h, hfix])
    (fun i => by
      rcases hcases i with ⟨x, h⟩ | h
      · rw [hsome i x h]; have := (lens_le bss i).1; simp only; omega
      · rw [hnone i h]; simp)
    (fun i => by rcases hcases i with ⟨x, h⟩ | h <;> simp [hsome i, hnone i, h])
    (fun i j hij hwr => by
      rcases hcases i with ⟨x, h⟩ | h
      · have hil : i < bss.length := by rw [← hn]; exact (List.getElem?_eq_some_iff.mp h).1
        rcases hcases j with ⟨y, h'⟩ | h'
        · have hjl : j < bss.length := by rw [← hn]; exact (List.getElem?_eq_some_iff.mp h').1
          rw [hsome i x h, hsome j y h']
          rcases Nat.lt_or_gt_of_ne hij with hlt | hlt
          · left
            rcases (lens_le bss i).2 j hlt with h | h
            · simp only; omega
            · omega
          · right
            rcases (lens_le bss j).2 i hlt with h | h
            · simp only; omega
            · omega
        · rw [hsome i x h, hnone j h']; right; simp
      · rw [hnone i h] at hwr; simp [hasWrite] at hwr)
  obtain ⟨hS1, hS2⟩ := hS
  have houtside : ∀ i : Nat, (ts i).off + (ts i).len = 0 ∨ (pre.length ≤ (ts i).off ∧ (ts i).off + (ts i).len ≤ pre.length + bss.flatten.length) := by
    intro i
    rcases hcases i with ⟨x, h⟩ | h
    · right; rw [hsome i x h]; have := (lens_le bss i).1; simp only; omega
    · left; rw [hnone i h]; rfl
  have hpart : ∀ i : Nat, ∀ bs, bss[i]? = some bs →
      (((runSchedule js mem ts).1.drop (pre.length + ((bss.map List.length).take i).sum)).take bs.length = bs) ∧
      ((runSchedule js mem ts).2 i).done = [(.ok, [])] := by
    intro i bs hi
    have hil : i < bss.length := (List.getElem?_eq_some_iff.mp hi).1
    obtain ⟨items, hit⟩ : ∃ items, parts[i]? = some items := ⟨_, List.getElem?_eq_getElem (by omega)⟩
    have hmi : items ∈ parts := List.mem_of_getElem? hit
    have hwi : wireItems (fmtOf c) items = some bs := by
      have := congrArg (fun l => l[i]?) hw
      simpa [hit, hi] using this
    have hlen : (bss.map List.length).getD i 0 = bs.length := by simp [List.getD, hi]
    have hle := (lens_le bss i).1
    rw [hlen] at hle
    have h1 := hS1 i
    have hti := hsome i items hit
    rw [hlen] at hti
    have hcount : 0 < js.count i := List.count_pos_iff.mpr (hjs i (by omega))
    simp only [hti] at h1
    rw [List.take_of_length_le (by simp only [List.length_singleton]; omega)] at h1
    have hsl : ((mem.drop (pre.length + ((bss.map List.length).take i).sum)).take bs.length).length = bs.length := by
      rw [List.length_take, List.length_drop]; omega
    have hbits : BitsOk items ⟨(mem.drop (pre.length + ((bss.map List.length).take i).sum)).take bs.length, 0⟩ := by
      refine hb.imp (fun h => h _ hmi) (fun h x hx => h x ?_)
      rw [← hmem, List.append_assoc, ← List.drop_drop, List.drop_left, List.drop_append_of_le_length (by omega),
        List.take_append_of_le_length (by rw [List.length_drop]; omega)] at hx
      exact List.mem_of_mem_drop (List.mem_of_mem_take hx)
    have hout := (C02_fixed_exact d c noFit items ⟨(mem.drop (pre.length + ((bss.map List.length).take i).sum)).take bs.length, 0⟩ bs hfix
      (Nat.zero_le _) (by rw [hsl]; omega) (hs _ hmi) (hd _ hmi) hbits hwi (by omega)).1 (by rw [hsl]; simp)
    simp only [Duplex.run, Duplex.step, Duplex.write, hout, List.nil_append] at h1
    refine ⟨?_, h1.1⟩
    have h2 := congrArg Duplex.data h1.2.1
    simp only [Thread.view] at h2
    have hoff := threads_place js mem ts i
    rw [hoff.1, hoff.2, hti] at h2
    simp only [List.take_zero, List.nil_append] at h2
    rw [h2, List.drop_eq_nil_of_le (by rw [hsl]; omega), List.append_nil]
  refine ⟨?_, fun i hi => (hpart i _ (List.getElem?_eq_getElem (by omega))).2⟩
  have hmid := slices_flatten (runSchedule js mem ts).1 bss pre.length (fun i bs hi => (hpart i bs hi).1)
  have hfront : (runSchedule js mem ts).1.take pre.length = pre := by
    have := hS2 0 pre.length (fun i _ => by rcases houtside i with h | h <;> omega)
    simp only [List.drop_zero] at this
    rw [this, ← hmem]; simp
  have hback : (runSchedule js mem ts).1.drop (pre.length + bss.flatten.length) = rest := by
    have := hS2 (pre.length + bss.flatten.length) ((runSchedule js mem ts).1.length + mem.length)
      (fun i _ => by rcases houtside i with h | h <;> omega)
    rw [List.take_of_length_le (by rw [List.length_drop]; omega), List.take_of_length_le (by rw [List.length_drop]; omega)] at this
    rw [this, ← hmem, ← hroom, ← List.length_append]
    simp
  rw [← List.take_append_drop pre.length (runSchedule js mem ts).1, hfront]
  rw [← List.take_append_drop bss.flatten.length ((runSchedule js mem ts).1.drop pre.length), hmid, List.drop_drop, hback]
  simp

/-- C129, reading. A reader gets the parts in order by one call, whoever wrote them and when. -/
theorem C129_read (d d' : Nat) (c ci : Cfg) (noFit : Bool) (js : List Nat) (parts : List (List (Ty × Val))) (bss : List (List UInt8))
    (ds : List (Ty × Val)) (pre room rest : List UInt8) (hf : fmtOf ci = fmtOf c) (hm : (pre ++ room ++ rest).length < 2 ^ 63)
    (hroom : room.length = bss.flatten.length) (hfix : c.g.resizable = false) (hs : ∀ items ∈ parts, Supported c items)
    (hd : ∀ items ∈ parts, StackOk d items) (hb : (∀ items ∈ parts, ∀ x ∈ items, noBits x.2 = true) ∨ ∀ b ∈ room, b = 0)
    (hw : parts.map (wireItems (fmtOf c)) = bss.map some) (hjs : ∀ i < parts.length, i ∈ js)
    (hr : Readable ci parts.flatten) (hd' : StackOk d' parts.flatten) (hds : ds.map Prod.fst = parts.flatten.map Prod.fst) :
    decMany d' ci (runSchedule js (pre ++ room ++ rest) (together d c noFit pre.length parts (bss.map List.length))).1 ds pre.length =
      ⟨.ok, parts.flatten.map Prod.snd, pre.length + bss.flatten.length⟩ := by
  have h := (C129_together d c noFit js parts bss pre room rest hm hroom hfix hs hd hb hw hjs).1
  rw [h]
  simp only [List.length_append] at hm
  exact C10_read_encoding d' ci parts.flatten ds pre bss.flatten rest (by simp only [List.length_append]; omega)
    (by rw [hf]; exact wireItems_calls hw) hr hd' hds

/-- C129, containers. One thread writes the number of elements and one thread each the elements of a sequence, set or map: whatever the
schedule is, the memory then holds the container, and a reader gets it by one call. -/
theorem C129_container (d d' : Nat) (c ci : Cfg) (noFit : Bool) (js : List Nat) (ct t : Ty) (sz : Option SizeTy) (vs : List Val) (old : Val)
    (bss : List (List UInt8)) (pre room rest : List UInt8) (he : streamedAs ct = some (sz, t)) (hf : fmtOf ci = fmtOf c)
    (hm : (pre ++ room ++ rest).length < 2 ^ 63) (hroom : room.length = bss.flatten.length) (hfix : c.g.resizable = false)
    (hs : Supported c (oneByOne (sz.getD c.dsz) t vs).flatten) (hd : StackOk d (oneByOne (sz.getD c.dsz) t vs).flatten)
    (hb : noBitsL vs = true ∨ ∀ b ∈ room, b = 0)
    (hw : (oneByOne (sz.getD c.dsz) t vs).map (wireItems (fmtOf c)) = bss.map some)
    (hjs : ∀ i < (oneByOne (sz.getD c.dsz) t vs).length, i ∈ js) (hr : Readable ci [(ct, .list vs)]) (hd' : StackOk d' [(ct, .list vs)]) :
    wire (fmtOf c) ct (.list vs) = some bss.flatten ∧
    decMany d' ci (runSchedule js (pre ++ room ++ rest) (together d c noFit pre.length (oneByOne (sz.getD c.dsz) t vs) (bss.map List.length))).1
      [(ct, old)] pre.length = ⟨.ok, [.list vs], pre.length + bss.flatten.length⟩ := by
  have hmem : ∀ items ∈ oneByOne (sz.getD c.dsz) t vs, ∀ x ∈ items, x ∈ (oneByOne (sz.getD c.dsz) t vs).flatten :=
    fun items hi x hx => List.mem_flatten.mpr ⟨items, hi, hx⟩
  have hnb : ∀ vs : List Val, noBitsL vs = true → ∀ v ∈ vs, noBits v = true := by
    intro vs hb
    induction vs with
    | nil => simp
    | cons v vs ih => simp only [noBitsL, Bool.and_eq_true] at hb; simpa [hb.1] using ih hb.2
  have hbits : (∀ items ∈ oneByOne (sz.getD c.dsz) t vs, ∀ x ∈ items, noBits x.2 = true) ∨ ∀ b ∈ room, b = 0 := by
    refine hb.imp (fun hb items hi x hx => ?_) id
    unfold oneByOne at hi
    rcases List.mem_append.mp hi with h | h
    · split at h
      · cases h
      · simp at h; subst h; simp at hx; subst hx; rfl
    · obtain ⟨v, hv, rfl⟩ := List.mem_map.mp h
      simp at hx; subst hx; exact hnb vs hb v hv
  have hwire : wire (fmtOf c) ct (.list vs) = some bss.flatten := by
    rw [wire_streamedAs he, ← wireItems_calls hw, wireItems_oneByOne]; rfl
  refine ⟨hwire, ?_⟩
  rw [(C129_together d c noFit js _ bss pre room rest hm hroom hfix
    (fun items hi => ⟨hs.growth, hs.abi, hs.env, fun x hx => hs.types x (hmem items hi x hx)⟩)
    (fun items hi x hx => hd x (hmem items hi x hx)) hbits hw hjs).1]
  simp only [List.length_append] at hm
  exact C10_read_encoding d' ci [(ct, .list vs)] [(ct, old)] pre bss.flatten rest (by simp only [List.length_append]; omega)
    (by rw [hf]; simp [wireItems, hwire, cat]) hr hd' rfl

/-- A vector of two strings in a memory of nine bytes: the second string first, then the number, then the first string, and a turn too many. -/
example :
    let c := Checks.le Checks.fixed (.fixed 1)
    let vs : List Val := [Checks.strV [65, 66], Checks.strV [67]]
    let bss : List (List UInt8) := [[2], [2, 65, 66], [1, 67]]
    (oneByOne (.fixed 1) Checks.str vs).map (wireItems (fmtOf c)) = bss.map some ∧
    noBitsL vs = true ∧ StackOk 9 (oneByOne (.fixed 1) Checks.str vs).flatten ∧
    (runSchedule [2, 0, 2, 1] ([7] ++ [0, 0, 0, 0, 0, 0] ++ [8, 9]) (together 9 c false 1 (oneByOne (.fixed 1) Checks.str vs) (bss.map List.length))).1 =
      [7, 2, 2, 65, 66, 1, 67, 8, 9] ∧
    decMany 9 c [7, 2, 2, 65, 66, 1, 67, 8, 9] [(.seq .vector none Checks.str, .list [])] 1 = ⟨.ok, [.list vs], 7⟩ := by
  refine ⟨by decide +kernel, by decide +kernel, by unfold StackOk; decide +kernel, by decide +kernel, by decide +kernel⟩

/-- The static hypotheses hold there. -/
example :
    let c := Checks.le Checks.fixed (.fixed 1)
    let vs : List Val := [Checks.strV [65, 66], Checks.strV [67]]
    Supported c (oneByOne (.fixed 1) Checks.str vs).flatten ∧ c.g.resizable = false :=
  ⟨⟨(fun h => by cases h), so_abi, fun _ => ⟨rfl, rfl⟩, by decide +kernel⟩, rfl⟩

/-- As long as a thread has not had its turn, its part is not there. -/
example :
    let c := Checks.le Checks.fixed (.fixed 1)
    (runSchedule [1, 1] [0, 0, 0] (together 9 c false 0 [[(.scalar .int 1, .num 5)], [(.scalar .int 2, .num 6)]] [1, 2])).1 = [0, 6, 0] := by decide +kernel

end Zpp.Props
