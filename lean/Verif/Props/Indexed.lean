import Verif.Proof.Indexed
import Verif.Checks
import Verif.Props.Input
/-!
# C119: a file with an index
-/

namespace Zpp.Props
open Spec

/-- C119. Records of any types and sizes are written one behind the other, then the list of the positions noted before each of them, then the position of that list.
The file is written, and every record can be read alone, through the positions in the file, without reading the others and whatever the destination contained;
numbers of records that do not exist are refused. Writer and reader may have different options outside the format. -/
theorem C119_records (d d' : Nat) (co ci : Cfg) (noFit : Bool) (recs : List (List (Ty × Val))) (bss : List (List UInt8))
    (hf : fmtOf ci = fmtOf co) (hr : co.g.resizable = true) (hso : Supported co []) (hri : Readable ci []) (hd : 4 ≤ d) (hd' : 4 ≤ d')
    (hs : ∀ r ∈ recs, Supported co r ∧ StackOk d r) (hload : ∀ r ∈ recs, Readable ci r ∧ StackOk d' r)
    (hw : recs.map (wireItems (fmtOf co)) = bss.map some) (hfits : Fits ci.g 8 recs.length)
    (hlt : bss.flatten.length + 8 * recs.length + 16 < 2 ^ 63)
    (hlim : LimitRoom co.g (bss.flatten.length + 8 * recs.length + 16)) (hmem : MemRoom co.g (bss.flatten.length + 8 * recs.length + 16)) :
    ∃ file, putFile d co noFit recs = some file ∧
      (∀ check i r, recs[i]? = some r → ∀ dests : List (Ty × Val), dests.map Prod.fst = r.map Prod.fst →
        getRecord check d' ci file i dests = (.ok, r.map Prod.snd)) ∧
      (∀ check i, recs.length ≤ i → ∀ dests, getRecord check d' ci file i dests = (.err .resultOutOfRange, [])) := by
  have hn : recs.length = bss.length := by simpa using congrArg List.length hw
  obtain ⟨st, e1, t1⟩ := putRecords_spec (noFit := noFit) hr hlt hlim hmem recs bss [] ⟨[], 0⟩ ⟨rfl, ⟨0, rfl⟩, by simp⟩ hs hw
    (by simp only [List.length_nil]; omega)
  simp only [List.length_nil, List.nil_append] at e1 t1
  have hst : ∀ x ∈ starts 0 bss, x < 2 ^ 63 := by
    intro x hx
    have := starts_le 0 bss x hx
    omega
  have hsl : (starts 0 bss).length = recs.length := by rw [starts_length, hn]
  have w1 := index_wire (fmtOf co) (starts 0 bss) hst (by omega)
  have l1 : (digits (fmtOf co).order 8 (starts 0 bss).length ++ posBytes (fmtOf co) (starts 0 bss)).length = 8 + 8 * recs.length := by
    rw [List.length_append, digits_length, posBytes_length, hsl]
  generalize digits (fmtOf co).order 8 (starts 0 bss).length ++ posBytes (fmtOf co) (starts 0 bss) = ib at w1 l1
  have hgood : ∀ c : Cfg, Good c indexTy = true := by intro c; simp [Good, nodeOk, scalarOk, copyOk, plain]
  have hgood2 : ∀ c : Cfg, Good c posTy = true := by intro c; simp [Good, nodeOk, scalarOk]
  obtain ⟨st1, e2, t2⟩ := t1.step (d := d) (noFit := noFit) hr ⟨hso.growth, hso.abi, hso.env, by simpa using hgood co⟩ (index_stack hd _) w1
    (by omega) (limitRoom_le hlim (by omega)) (memRoom_le hmem (by omega))
  have w2 := pos_wire (fmtOf co) bss.flatten.length (by omega)
  have l2 : (digits (fmtOf co).order 8 bss.flatten.length).length = 8 := digits_length ..
  generalize digits (fmtOf co).order 8 bss.flatten.length = pb at w2 l2
  have hposstack : ∀ (d n : Nat), 4 ≤ d → StackOk d [(posTy, .num n)] := by
    intro d n h x hx
    simp only [List.mem_singleton] at hx
    subst hx
    simp only [depth]
    omega
  obtain ⟨st2, e3, t3⟩ := t2.step (d := d) (noFit := noFit) hr ⟨hso.growth, hso.abi, hso.env, by simpa using hgood2 co⟩ (hposstack d _ hd) w2
    (by omega) (limitRoom_le hlim (by rw [List.length_append]; omega)) (memRoom_le hmem (by rw [List.length_append]; omega))
  have hfile : st2.data.take st2.pos = bss.flatten ++ ib ++ pb := by
    obtain ⟨k, hk⟩ := t3.data
    rw [t3.pos, hk, List.take_left]
  have hlen : (bss.flatten ++ ib ++ pb).length = bss.flatten.length + 8 * recs.length + 16 := by
    simp only [List.length_append, l1, l2]
    omega
  refine ⟨bss.flatten ++ ib ++ pb, ?_, ?_⟩
  · rw [putFile, e1, Option.bind_some]
    simp only [e2, t1.pos, e3, hfile]
  have r1 := C10_read_encoding d' ci [(posTy, .num bss.flatten.length)] [(posTy, .num 0)] (bss.flatten ++ ib) pb [] (by rw [List.append_nil]; omega)
    (by rw [hf]; exact w2) ⟨hri.abi, hri.env, by simpa using hgood2 ci, by simp [Loadable]⟩ (hposstack d' _ hd') rfl
  have hL : ∀ ns : List Nat, LoadableL ci posTy (ns.map Val.num) := by
    intro ns
    induction ns with
    | nil => simp [LoadableL]
    | cons n ns ih => exact ⟨by simp [Loadable], ih⟩
  have r2 := C10_read_encoding d' ci [(indexTy, .list ((starts 0 bss).map Val.num))] [(indexTy, .list [])] bss.flatten ib pb (by omega)
    (by rw [hf]; exact w1)
    ⟨hri.abi, hri.env, by simpa using hgood ci, by
      intro x hx
      simp only [List.mem_singleton] at hx
      subst hx
      refine ⟨by simp, by simp, fun _ => ?_, hL _⟩
      rw [hri.abi.scalar .int 8 (by decide), List.length_map, hsl]
      exact hfits⟩ (index_stack hd' _) rfl
  have hseek : ∀ (check : Bool) (ds : List (Ty × Val)) (p : Nat), p ≤ (bss.flatten ++ ib ++ pb).length →
      seekRead check d' ci (bss.flatten ++ ib ++ pb) ds p =
        ((decMany d' ci (bss.flatten ++ ib ++ pb) ds p).s, (decMany d' ci (bss.flatten ++ ib ++ pb) ds p).vs) := by
    intro check ds p hp
    rw [seekRead, if_neg (by omega)]
  have g1 : ∀ check, seekRead check d' ci (bss.flatten ++ ib ++ pb) [(posTy, .num 0)] ((bss.flatten ++ ib ++ pb).length - 8) =
      (.ok, [.num bss.flatten.length]) := by
    intro check
    have e : (bss.flatten ++ ib ++ pb).length - 8 = (bss.flatten ++ ib).length := by
      rw [hlen, List.length_append, l1]
      omega
    rw [hseek check _ _ (by omega), e]
    rw [List.append_nil] at r1
    rw [r1]
    rfl
  have g2 : ∀ check, seekRead check d' ci (bss.flatten ++ ib ++ pb) [(indexTy, .list [])] bss.flatten.length =
      (.ok, [.list ((starts 0 bss).map Val.num)]) := by
    intro check
    rw [hseek check _ _ (by rw [hlen]; omega), r2]
    rfl
  refine ⟨fun check i r hi dests hds => ?_, fun check i hi dests => ?_⟩
  · have hi' : i < bss.length := by
      rw [← hn]
      exact (List.getElem?_eq_some_iff.mp hi).1
    have hb : wireItems (fmtOf co) r = some bss[i] := by
      have := congrArg (·[i]?) hw
      simp only [List.getElem?_map, hi, Option.map_some, List.getElem?_eq_getElem hi', Option.some.injEq] at this
      exact this
    have hm := List.mem_of_getElem? hi
    have hsplit : bss.flatten = (bss.take i).flatten ++ bss[i] ++ (bss.drop (i + 1)).flatten := by
      rw [List.append_assoc, ← List.flatten_cons, ← List.flatten_append, ← List.drop_eq_getElem_cons hi', List.take_append_drop]
    have r3 := C10_read_encoding d' ci r dests (bss.take i).flatten bss[i] ((bss.drop (i + 1)).flatten ++ ib ++ pb)
      (by
        have := congrArg List.length hsplit
        simp only [List.length_append] at this hlen ⊢
        omega)
      (by rw [hf]; exact hb) (hload r hm).1 (hload r hm).2 hds
    have e : bss.flatten ++ ib ++ pb = (bss.take i).flatten ++ bss[i] ++ ((bss.drop (i + 1)).flatten ++ ib ++ pb) := by
      rw [hsplit]
      simp only [List.append_assoc]
    rw [← e] at r3
    rw [getRecord, if_neg (by omega), g1]
    simp only [numOf, g2, elemsOf, List.getElem?_map, starts_get 0 i bss hi', Option.map_some, Nat.zero_add]
    rw [hseek _ _ _ (by rw [e]; simp only [List.length_append]; omega), r3]
  · rw [getRecord, if_neg (by omega), g1]
    simp only [numOf, g2, elemsOf, List.getElem?_map, List.getElem?_eq_none (l := starts 0 bss) (i := i) (by omega), Option.map_none]

/-- C119, damaged files: a reader that refuses positions behind the end may be given any bytes; no call reads outside of them. -/
theorem C119_damaged (d : Nat) (c : Cfg) (file : List UInt8) (i : Nat) (dests : List (Ty × Val)) (henv : ∀ i, widthsOk (c.env i) = true)
    (hw : ∀ it ∈ dests, widthsOk it.1 = true) : InOutcome (getRecord true d c file i dests).1 := by
  have hseek : ∀ (ds : List (Ty × Val)) (p : Nat), (∀ it ∈ ds, widthsOk it.1 = true) → InOutcome (seekRead true d c file ds p).1 := by
    intro ds p h
    unfold seekRead
    split
    · trivial
    · exact (C13_safe d c file ds p henv h (by simp_all)).1
  unfold getRecord
  split
  · trivial
  · have h1 := hseek [(posTy, .num 0)] (file.length - 8) (by simp [widthsOk])
    generalize seekRead true d c file [(posTy, .num 0)] (file.length - 8) = r1 at h1
    obtain ⟨s1, vs⟩ := r1
    cases s1
    case ok =>
      have h2 := hseek [(indexTy, .list [])] (numOf vs) (by simp [widthsOk])
      simp only
      generalize seekRead true d c file [(indexTy, .list [])] (numOf vs) = r2 at h2
      obtain ⟨s2, ws⟩ := r2
      cases s2
      case ok =>
        simp only
        split
        · exact hseek _ _ hw
        · trivial
      all_goals exact h2
    all_goals exact h1

/-! ## The hypotheses are met -/

/-- Three records: a text, two numbers, nothing. -/
example :
    let c := Checks.le Checks.grow (.fixed 1)
    let recs : List (List (Ty × Val)) := [[(Checks.str, Checks.strV [65, 66])], [(.scalar .int 1, .num 7), (.scalar .int 2, .num 0x102)], []]
    let file : List UInt8 := [2, 65, 66, 7, 2, 1, 3, 0, 0, 0, 0, 0, 0, 0, 0, 0, 0, 0, 0, 0, 0, 0, 3, 0, 0, 0, 0, 0, 0, 0, 6, 0, 0, 0, 0, 0, 0, 0,
      6, 0, 0, 0, 0, 0, 0, 0]
    putFile 9 c false recs = some file ∧
    getRecord true 9 c file 1 [(.scalar .int 1, .num 0), (.scalar .int 2, .num 0)] = (.ok, [.num 7, .num 0x102]) ∧
    getRecord false 9 c file 0 [(Checks.str, Checks.strV [9])] = (.ok, [Checks.strV [65, 66]]) ∧
    getRecord false 9 c file 3 [] = (.err .resultOutOfRange, []) := by decide +kernel

example :
    let c := Checks.le Checks.grow (.fixed 1)
    let recs : List (List (Ty × Val)) := [[(Checks.str, Checks.strV [65, 66])], [(.scalar .int 1, .num 7), (.scalar .int 2, .num 0x102)], []]
    let bss : List (List UInt8) := [[2, 65, 66], [7, 2, 1], []]
    c.g.resizable = true ∧ Supported c [] ∧ Readable c [] ∧ (∀ r ∈ recs, Supported c r ∧ StackOk 9 r) ∧ (∀ r ∈ recs, Readable c r ∧ StackOk 9 r) ∧
    recs.map (wireItems (fmtOf c)) = bss.map some ∧ Fits c.g 8 recs.length ∧ LimitRoom c.g (bss.flatten.length + 8 * recs.length + 16) ∧
    MemRoom c.g (bss.flatten.length + 8 * recs.length + 16) := by
  intro c recs bss
  have hs : ∀ r ∈ recs, Supported c r ∧ StackOk 9 r := by
    intro r hr
    refine ⟨⟨grow_ok, so_abi, fun _ => ⟨rfl, rfl⟩, ?_⟩, ?_⟩ <;> intro x hx <;> simp only [recs, List.mem_cons, List.not_mem_nil, or_false] at hr <;>
      rcases hr with rfl | rfl | rfl <;> simp only [List.mem_cons, List.not_mem_nil, or_false] at hx
    · subst hx; rfl
    · rcases hx with rfl | rfl <;> rfl
    · subst hx; decide
    · rcases hx with rfl | rfl <;> decide
  refine ⟨rfl, ⟨grow_ok, so_abi, fun _ => ⟨rfl, rfl⟩, nofun⟩, ⟨so_abi, fun _ => ⟨rfl, rfl⟩, nofun, nofun⟩, hs, ?_, by decide +kernel, ⟨Or.inl rfl, by decide⟩, ?_, ?_⟩
  · intro r hr
    refine ⟨⟨so_abi, fun _ => ⟨rfl, rfl⟩, (hs r hr).1.types, ?_⟩, (hs r hr).2⟩
    intro x hx
    simp only [recs, List.mem_cons, List.not_mem_nil, or_false] at hr
    rcases hr with rfl | rfl | rfl <;> simp only [List.mem_cons, List.not_mem_nil, or_false] at hx
    · subst hx
      exact ⟨by decide, by decide, fun _ => ⟨Or.inl rfl, by decide⟩, by simp [LoadableL, Loadable]⟩
    · rcases hx with rfl | rfl <;> simp [Loadable]
  · unfold LimitRoom; decide
  · unfold MemRoom; decide

/-- A reader that does not check the positions it reads from a damaged file reads outside of it. -/
theorem C119_unchecked_refuted :
    let c := Checks.le Checks.grow (.fixed 1)
    (getRecord false 9 c [255, 0, 0, 0, 0, 0, 0, 0] 0 [(.scalar .int 1, .num 0)]).1 = .ub ∧
    (getRecord true 9 c [255, 0, 0, 0, 0, 0, 0, 0] 0 [(.scalar .int 1, .num 0)]).1 = .err .resultOutOfRange := by decide +kernel

end Zpp.Props
