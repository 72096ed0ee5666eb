import Verif.Props.RoundTrip
import Verif.Proof.Alike
/-!
# Writing one type and reading another

Writer and reader need not use the same types, only types with the same format.
-/

namespace Zpp.Props
open Zpp Zpp.Spec

/-- A call with several objects is a class with these members. -/
theorem wireItems_wire (f : Fmt) (ok : Bool) (items : List (Ty × Val)) :
    wireItems f items = wire f (.struct ok (items.map Prod.fst)) (.list (items.map Prod.snd)) := by
  simp only [wire]
  induction items with
  | nil => simp [wireItems, wireFields]
  | cons x xs ih => simp only [wireItems, List.map_cons, wireFields, ih]

/-- C64. Interchangeable objects are written as the same bytes, and if one of them cannot be written the other cannot either. -/
theorem C64_same_bytes (f : Fmt) (items items' : List (Ty × Val)) (h : AlikeItems f items items') :
    wireItems f items = wireItems f items' := by
  rw [wireItems_wire f false, wireItems_wire f false]
  exact alike_wire h

/-- C64. What was written as `items` by a successful call is read, into destinations of other types, as the interchangeable
objects `items'`. -/
theorem C64_interchange (d d' : Nat) (co ci : Cfg) (noFit : Bool) (items items' ds : List (Ty × Val)) (st st' : OutSt)
    (bs : List UInt8) (hf : fmtOf ci = fmtOf co) (ha : AlikeItems (fmtOf co) items items')
    (hpos : st.pos ≤ st.data.length) (hlen : st.data.length < 2 ^ 63)
    (hs : Supported co items) (hd : StackOk d items) (hb : BitsOk items st)
    (hw : wireItems (fmtOf co) items = some bs) (hl : bs.length < 2 ^ 63)
    (hok : outCall d co noFit items st = (.ok, st'))
    (hr : Readable ci items') (hd' : StackOk d' items') (hds : ds.map Prod.fst = items'.map Prod.fst) :
    decMany d' ci st'.data ds st.pos = ⟨.ok, items'.map Prod.snd, st'.pos⟩ := by
  obtain ⟨h1, k, h2⟩ := C04_growing_appends d co noFit items st st' bs hpos hlen hs hd hb hw hl hok
  have hv := (outCall_safe d co hs.growth noFit items st ⟨hpos, hlen⟩).valid hs.growth ⟨hpos, hlen⟩
  rw [hok] at hv
  have := hv.len_lt
  simp only at this
  have hw' : wireItems (fmtOf co) items' = some bs := by rw [← C64_same_bytes _ _ _ ha, hw]
  rw [h1]
  refine decMany_rd hr.abi hr.env (data := st'.data) (by omega) items' ds bs (by rw [hf]; exact hw') hr.types hr.load hd' hds
    st.pos (st.data.drop (st.pos + bs.length) ++ List.replicate k 0) ?_ ?_
  · rw [h2]; simp; omega
  · rw [h2, List.append_assoc, List.append_assoc, List.drop_append_of_le_length (by simp; omega)]
    rw [List.drop_eq_nil_of_le (by simp; omega)]
    simp

/-- Written: a class with a vector, and an optional held by a pointer. Read by another program: a linked list, a flag, and the
value. -/
def wrItems : List (Ty × Val) :=
  [(.struct true [.seq .vector none (.scalar .enum 2), .bool], .list [.list [.num 7, .num 8], .num 1]),
   (.uptr (.optional true (.scalar .int 4)), .some (.some (.num 9)))]

/-- The reader's objects. -/
def rdItems : List (Ty × Val) :=
  [(.seq .list none (.scalar .int 2), .list [.num 7, .num 8]), (.scalar .byte 1, .num 1), (.optPtr (.scalar .int 4), .some (.num 9))]

example : AlikeItems (fmtOf (Checks.le Checks.grow (.fixed 4))) wrItems rdItems ∧
    outCall 20 (Checks.le Checks.grow (.fixed 4)) false wrItems ⟨[], 0⟩ =
      (.ok, ⟨[2, 0, 0, 0, 7, 0, 8, 0, 1, 1, 9, 0, 0, 0], 14⟩) ∧
    decMany 20 (Checks.le Checks.grow (.fixed 4)) [2, 0, 0, 0, 7, 0, 8, 0, 1, 1, 9, 0, 0, 0]
      (rdItems.map fun x => (x.1, .none)) 0 = ⟨.ok, rdItems.map Prod.snd, 14⟩ ∧
    Readable (Checks.le Checks.grow (.fixed 4)) rdItems ∧ StackOk 20 rdItems := by
  refine ⟨?_, by decide +kernel, by decide +kernel, ⟨so_abi, fun _ => ⟨rfl, rfl⟩, ?_, ?_⟩, ?_⟩
  · exact .trans (.flatten false true false (as := []) (us := []) rfl rfl)
      (.struct _ _ (.cons (.seq _ _ rfl (.cons (.scalar _ _ _ _) (.cons (.scalar _ _ _ _) (.nil _ _)))) (.cons (.bool _ (by decide))
        (.cons (.trans (.uptr _ _) (.optPtr _ _ _)) .nil))))
  · intro x hx; simp only [rdItems, List.mem_cons, List.not_mem_nil, or_false] at hx; rcases hx with rfl | rfl | rfl <;> rfl
  · intro x hx
    simp only [rdItems, List.mem_cons, List.not_mem_nil, or_false] at hx
    rcases hx with rfl | rfl | rfl <;> simp [Loadable, LoadableL, Fits, Checks.le, Checks.grow, Checks.so]
  · intro x hx; simp only [rdItems, List.mem_cons, List.not_mem_nil, or_false] at hx; rcases hx with rfl | rfl | rfl <;> decide

/-- The relation does not hold between objects with different encodings: a `vector` of 2-byte numbers is not a `vector` of
4-byte numbers. -/
example : ¬ Alike (fmtOf (Checks.le Checks.grow (.fixed 4))) (.seq .vector none (.scalar .int 2)) (.list [.num 7])
    (.seq .vector none (.scalar .int 4)) (.list [.num 7]) := by
  intro h
  have := alike_wire h
  revert this
  decide +kernel

end Zpp.Props
