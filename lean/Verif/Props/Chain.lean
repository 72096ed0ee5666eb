import Verif.Spec.Chain
import Verif.Props.Envelope
/-!
# C122: records chained by hashes
-/

namespace Zpp.Props
open Spec

theorem bytes_wireAll (f : Fmt) (bs : List UInt8) : wireAll f (.scalar .byte 1) (bs.map fun b => Val.num b.toNat) = some bs := by
  induction bs with
  | nil => rfl
  | cons b bs ih =>
    have hb := b.toNat_lt
    have e : wire f (.scalar .byte 1) (.num b.toNat) = some [b] := by
      simp only [wire, wireNum]
      rw [if_pos (by omega), digits_one]
    simp only [List.map_cons, wireAll, ih, e, cat, List.singleton_append]

theorem linked_wire {f : Fmt} {link : List UInt8} {body : List (Ty × Val)} {w : List UInt8} (hl : link.length = 32) (hw : wireItems f body = some w) :
    wireItems f (linked link body) = some (link ++ w) := by
  simp only [linked, wireItems, wire, bytesVal, List.length_map, hl, if_true, bytes_wireAll, hw, cat]

theorem linked_good (c : Cfg) (link : List UInt8) {body : List (Ty × Val)} (h : ∀ x ∈ body, Good c x.1 = true) : ∀ x ∈ linked link body, Good c x.1 = true := by
  intro x hx
  rcases List.mem_cons.1 hx with rfl | hx
  · simp [Good, nodeOk, scalarOk, copyOk, plain]
  · exact h x hx

theorem linked_stack {d : Nat} (hd : 4 ≤ d) (link : List UInt8) {body : List (Ty × Val)} (h : StackOk d body) : StackOk d (linked link body) := by
  have hb : ∀ bs : List UInt8, depthL (bs.map fun b => Val.num b.toNat) ≤ 1 := by
    intro bs
    induction bs with
    | nil => simp [depthL]
    | cons b bs ih => simp only [List.map_cons, depthL, depth]; omega
  intro x hx
  rcases List.mem_cons.1 hx with rfl | hx
  · have := hb link
    simp only [bytesVal, depth]; omega
  · exact h x hx

/-- A record is read from its own bytes. -/
theorem linked_read {d' : Nat} {ci : Cfg} {link w : List UInt8} {body dests : List (Ty × Val)} (hd' : 4 ≤ d') (hl : link.length = 32)
    (hw : wireItems (fmtOf ci) body = some w) (hlt : w.length + 32 < 2 ^ 63) (hr : Readable ci body) (hst : StackOk d' body)
    (ht : dests.map Prod.fst = body.map Prod.fst) :
    decMany d' ci (link ++ w) (linked [] dests) 0 = ⟨.ok, bytesVal link :: body.map Prod.snd, (link ++ w).length⟩ := by
  have hL : ∀ bs : List UInt8, LoadableL ci (.scalar .byte 1) (bs.map fun b => Val.num b.toNat) := by
    intro bs
    induction bs with
    | nil => simp [LoadableL]
    | cons b bs ih => exact ⟨by simp [Loadable], ih⟩
  have h := C10_read_encoding d' ci (linked link body) (linked [] dests) [] (link ++ w) []
    (by simp only [List.nil_append, List.append_nil, List.length_append]; omega) (linked_wire hl hw)
    ⟨hr.abi, hr.env, linked_good ci link hr.types, by
      intro x hx
      rcases List.mem_cons.1 hx with rfl | hx
      · exact hL link
      · exact hr.load x hx⟩
    (linked_stack hd' link hst) (by simp only [linked, List.map_cons, ht])
  simpa [linked] using h

/-- C122. Whatever the store does: if the history is read at all, it is the one written, unless the store found other bytes with the same hash as a record. -/
theorem C122_authentic (d d' : Nat) (co ci : Cfg) (noFit : Bool) (hash : List UInt8 → List UInt8) (hh : ∀ b, (hash b).length = 32) (start : List UInt8)
    (hstart : start.length = 32) (tys : List Ty) (dests : List (Ty × Val)) (hdt : dests.map Prod.fst = tys) (hf : fmtOf ci = fmtOf co) (hd : 4 ≤ d) (hd' : 4 ≤ d')
    (store : List UInt8 → Option (List UInt8)) :
    ∀ (history : List (List (Ty × Val))) (head : List UInt8) (written : List (List UInt8)), (∀ body ∈ history, ChainOk d d' co ci tys body) →
    putChain d co noFit hash start history = some (head, written) → ∀ vss, getChain d' ci hash store dests history.length head = some vss →
    vss = history.map (·.map Prod.snd) ∨ Forged hash store written := by
  intro history
  suffices h : ∀ (head : List UInt8) (written : List (List UInt8)), (∀ body ∈ history, ChainOk d d' co ci tys body) →
      putChain d co noFit hash start history = some (head, written) → head.length = 32 ∧
      ∀ vss, getChain d' ci hash store dests history.length head = some vss → vss = history.map (·.map Prod.snd) ∨ Forged hash store written from
    fun head written h1 h2 => (h head written h1 h2).2
  induction history with
  | nil =>
    intro head written _ h
    simp only [putChain, Option.some.injEq, Prod.mk.injEq] at h
    obtain ⟨rfl, rfl⟩ := h
    refine ⟨hstart, ?_⟩
    intro vss hv
    simp only [List.length_nil, getChain, Option.some.injEq] at hv
    exact Or.inl hv.symm
  | cons body older ih =>
    intro head written hok h
    simp only [putChain] at h
    obtain ⟨⟨link, ws⟩, hp, h⟩ := Option.bind_eq_some_iff.1 h
    obtain ⟨hl, ih⟩ := ih link ws (fun b hb => hok b (List.mem_cons_of_mem _ hb)) hp
    have hb := hok body List.mem_cons_self
    obtain ⟨w, hw, hlt⟩ := hb.wire
    obtain ⟨s, st, hcall⟩ : ∃ s st, outCall d co noFit (linked link body) ⟨[], 0⟩ = (s, st) := ⟨_, _, rfl⟩
    simp only [hcall] at h
    by_cases hs : s = .ok
    · subst hs
      simp only [Option.some.injEq, Prod.mk.injEq] at h
      obtain ⟨rfl, rfl⟩ := h
      obtain ⟨h1, k, h2⟩ := C04_growing_appends d co noFit (linked link body) ⟨[], 0⟩ st (link ++ w) (Nat.le_refl _) (by simp)
        ⟨hb.sup.growth, hb.sup.abi, hb.sup.env, linked_good co link hb.sup.types⟩ (linked_stack hd link hb.stack) (Or.inr (by simp)) (linked_wire hl hw)
        (by rw [List.length_append]; omega) hcall
      simp only [List.take_nil, List.nil_append, List.drop_nil, List.append_nil, Nat.zero_add] at h1 h2
      have hbytes : st.data.take st.pos = link ++ w := by rw [h1, h2, List.take_left]
      rw [hbytes]
      refine ⟨hh _, ?_⟩
      intro vss hv
      rw [List.length_cons, getChain] at hv
      cases hst : store (hash (link ++ w)) with
      | none => rw [hst] at hv; exact nomatch hv
      | some b =>
        simp only [hst] at hv
        by_cases hhash : hash b = hash (link ++ w)
        · by_cases hbe : b = link ++ w
          · subst hbe
            rw [if_pos rfl, linked_read hd' hl (by rw [hf]; exact hw) hlt hb.read hb.stack' (by rw [hdt, hb.types])] at hv
            simp only [valBytes_bytesVal] at hv
            obtain ⟨rest, hr, rfl⟩ := Option.map_eq_some_iff.1 hv
            rcases ih rest hr with rfl | ⟨a, ha, b, hx⟩
            · exact Or.inl rfl
            · exact Or.inr ⟨a, List.mem_cons_of_mem _ ha, b, hx⟩
          · exact Or.inr ⟨_, List.mem_cons_self, b, hst, hbe, hhash⟩
        · rw [if_neg hhash] at hv
          exact nomatch hv
    · exfalso
      revert h
      cases s <;> first | exact absurd rfl hs | exact fun h => nomatch h

/-- C122, an honest store: the history is read. -/
theorem C122_honest (d d' : Nat) (co ci : Cfg) (noFit : Bool) (hash : List UInt8 → List UInt8) (hh : ∀ b, (hash b).length = 32) (start : List UInt8)
    (hstart : start.length = 32) (tys : List Ty) (dests : List (Ty × Val)) (hdt : dests.map Prod.fst = tys) (hf : fmtOf ci = fmtOf co) (hr : co.g.resizable = true)
    (hd : 4 ≤ d) (hd' : 4 ≤ d') :
    ∀ (history : List (List (Ty × Val))), (∀ body ∈ history, ChainOk d d' co ci tys body) →
    (∀ body ∈ history, ∀ w, wireItems (fmtOf co) body = some w → LimitRoom co.g (32 + w.length) ∧ MemRoom co.g (32 + w.length)) →
    ∃ head written, putChain d co noFit hash start history = some (head, written) ∧ head.length = 32 ∧
      ∀ store : List UInt8 → Option (List UInt8), (∀ a ∈ written, store (hash a) = some a) →
        getChain d' ci hash store dests history.length head = some (history.map (·.map Prod.snd)) := by
  intro history
  induction history with
  | nil => exact fun _ _ => ⟨start, [], rfl, hstart, fun _ _ => rfl⟩
  | cons body older ih =>
    intro hok hroom
    obtain ⟨link, ws, hp, hl, ih⟩ := ih (fun b hb => hok b (List.mem_cons_of_mem _ hb)) (fun b hb => hroom b (List.mem_cons_of_mem _ hb))
    have hb := hok body List.mem_cons_self
    obtain ⟨w, hw, hlt⟩ := hb.wire
    obtain ⟨hlim, hmem⟩ := hroom body List.mem_cons_self w hw
    obtain ⟨st, e1, t1⟩ := Tidy.step (d := d) (noFit := noFit) (pre := []) (st := ⟨[], 0⟩) ⟨rfl, ⟨0, rfl⟩, by simp⟩ hr
      ⟨hb.sup.growth, hb.sup.abi, hb.sup.env, linked_good co link hb.sup.types⟩ (linked_stack hd link hb.stack) (linked_wire hl hw)
      (by simp only [List.length_append]; omega)
      (by simp only [List.length_nil, List.length_append, Nat.zero_add, hl]; exact hlim)
      (by simp only [List.length_nil, List.length_append, Nat.zero_add, hl]; exact hmem)
    have hbytes : st.data.take st.pos = link ++ w := by
      obtain ⟨k, hk⟩ := t1.data
      rw [t1.pos, hk, List.take_left, List.nil_append]
    refine ⟨hash (link ++ w), (link ++ w) :: ws, by simp only [putChain, hp, Option.bind_some, e1, hbytes], hh _, ?_⟩
    intro store hstore
    rw [List.length_cons, getChain]
    simp only [hstore _ List.mem_cons_self, if_true]
    rw [linked_read hd' hl (by rw [hf]; exact hw) hlt hb.read hb.stack' (by rw [hdt, hb.types])]
    simp only [valBytes_bytesVal]
    rw [ih store (fun a ha => hstore a (List.mem_cons_of_mem _ ha))]
    rfl

/-! ## The hypotheses are met -/

/-- A hash for the examples: the sum of the bytes. -/
def sumHash (b : List UInt8) : List UInt8 := List.replicate 31 0 ++ [b.sum]

/-- A history of three texts in an honest store. -/
example :
    let c := Checks.le Checks.grow (.fixed 1)
    let history := [[(Checks.str, Checks.strV [67, 67])], [(Checks.str, Checks.strV [66])], [(Checks.str, Checks.strV [])]]
    (putChain 9 c false sumHash (List.replicate 32 0) history).bind (fun x =>
      getChain 9 c sumHash (fun h => x.2.find? (fun b => sumHash b == h)) [(Checks.str, Checks.strV [])] 3 x.1) =
      some [[Checks.strV [67, 67]], [Checks.strV [66]], [Checks.strV []]] := by decide +kernel

/-- A store that gives other bytes with the same hash (possible for this hash) makes the reader see another text; one that gives bytes with another hash does not
get through. -/
example :
    let c := Checks.le Checks.grow (.fixed 1)
    let start := List.replicate 32 (0 : UInt8)
    let written := start ++ [2, 65, 67]
    putChain 9 c false sumHash start [[(Checks.str, Checks.strV [65, 67])]] = some (sumHash written, [written]) ∧
    getChain 9 c sumHash (fun _ => some (start ++ [2, 66, 66])) [(Checks.str, Checks.strV [])] 1 (sumHash written) = some [[Checks.strV [66, 66]]] ∧
    start ++ [2, 66, 66] ≠ written ∧ sumHash (start ++ [2, 66, 66]) = sumHash written ∧
    getChain 9 c sumHash (fun _ => some (start ++ [2, 66, 67])) [(Checks.str, Checks.strV [])] 1 (sumHash written) = none := by decide +kernel

example (b : List UInt8) : (sumHash b).length = 32 := by simp [sumHash]

example : ChainOk 9 9 (Checks.le Checks.grow (.fixed 1)) (Checks.le Checks.grow (.fixed 1)) [Checks.str] [(Checks.str, Checks.strV [66])] := by
  refine ⟨rfl, ⟨grow_ok, so_abi, fun _ => ⟨rfl, rfl⟩, by decide⟩, ⟨so_abi, fun _ => ⟨rfl, rfl⟩, by decide, ?_⟩, by unfold StackOk; decide, by unfold StackOk; decide, [1, 66], rfl, by decide⟩
  intro x hx
  simp only [List.mem_cons, List.not_mem_nil, or_false] at hx
  subst hx
  refine ⟨by simp, (fun h => nomatch h), fun _ => ⟨Or.inl rfl, by decide⟩, ?_⟩
  simp [LoadableL, Loadable]

end Zpp.Props
