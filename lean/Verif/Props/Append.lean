import Verif.Props.RoundTrip2
import Verif.Proof.Append
/-!
# Classes that get new members at the end
-/

namespace Zpp.Props
open Zpp Zpp.Spec

/-- The two programs have the same byte order and size prefixes; their classes may differ. -/
def SameRules (old new : Fmt) : Prop := new.order = old.order ∧ new.dsz = old.dsz

theorem SameRules.eq {old new : Fmt} (h : SameRules old new) : new = fmtW old new.env := by
  obtain ⟨h1, h2⟩ := h
  cases old; cases new
  simp only at h1 h2
  subst h1; subst h2
  rfl

theorem grownItems_wire {f : Fmt} {W : Nat → Ty} {items items' : List (Ty × Val)} (h : GrownItems f.env W items items') : ∀ bs,
    wireItems (fmtW f W) items' = some bs → ∃ a b, wireItems f items = some a ∧ bs = a ++ b := by
  induction h with
  | more items => exact fun bs _ => ⟨[], bs, rfl, rfl⟩
  | last items hg =>
    intro bs h
    simp only [wireItems, cat_eq_some] at h ⊢
    obtain ⟨x, y, hx, hy, rfl⟩ := h
    obtain ⟨a, b, h1, rfl⟩ := grown_wire hg x hx
    exact ⟨a, b ++ y, ⟨a, [], h1, rfl, by simp⟩, by simp⟩
  | cons t v he hr ih =>
    intro bs h
    simp only [wireItems, cat_eq_some] at h ⊢
    obtain ⟨x, y, hx, hy, rfl⟩ := h
    obtain ⟨a, b, h1, rfl⟩ := ih y hy
    refine ⟨x ++ a, b, ⟨x, a, ?_, h1, rfl⟩, by simp⟩
    rcases he with rfl | he
    · exact hx
    · rw [← hx, standalone_wire _ t v (Nat.le_refl _) he]

/-- C99, an old program reads what a new one wrote: it gets its objects without the added members, and the position is behind the last byte
of them. -/
theorem C99_old_reads_new (d d' : Nat) (co ci : Cfg) (noFit : Bool) (items items' ds : List (Ty × Val)) (st st' : OutSt)
    (bs : List UInt8) (hf : SameRules (fmtOf ci) (fmtOf co)) (hg : GrownItems ci.env co.env items items')
    (hpos : st.pos ≤ st.data.length) (hlen : st.data.length < 2 ^ 63)
    (hs : Supported co items') (hd : StackOk d items') (hb : BitsOk items' st)
    (hw : wireItems (fmtOf co) items' = some bs) (hl : bs.length < 2 ^ 63)
    (hok : outCall d co noFit items' st = (.ok, st'))
    (hr : Readable ci items) (hd' : StackOk d' items) (hds : ds.map Prod.fst = items.map Prod.fst) :
    ∃ bs', wireItems (fmtOf ci) items = some bs' ∧
      decMany d' ci st'.data ds st.pos = ⟨.ok, items.map Prod.snd, st.pos + bs'.length⟩ ∧ st.pos + bs'.length ≤ st'.pos := by
  obtain ⟨h1, k, h2⟩ := C04_growing_appends d co noFit items' st st' bs hpos hlen hs hd hb hw hl hok
  have hv := (outCall_safe d co hs.growth noFit items' st ⟨hpos, hlen⟩).valid hs.growth ⟨hpos, hlen⟩
  rw [hok] at hv
  have := hv.len_lt
  simp only at this
  rw [hf.eq] at hw
  obtain ⟨a, b, h3, rfl⟩ := grownItems_wire (f := fmtOf ci) hg bs hw
  refine ⟨a, h3, ?_, by rw [h1]; simp⟩
  refine decMany_rd hr.abi hr.env (data := st'.data) (by omega) items ds a h3 hr.types hr.load hd' hds
    st.pos (b ++ st.data.drop (st.pos + (a ++ b).length) ++ List.replicate k 0) ?_ ?_
  · rw [h2]; simp; omega
  · rw [h2, List.append_assoc, List.append_assoc, List.drop_append_of_le_length (by simp; omega)]
    rw [List.drop_eq_nil_of_le (by simp; omega)]
    simp

/-- C99, a new program reads what an old one wrote, and nothing follows: if the added members take bytes, it reports `result_out_of_range`.
`items'` are the old objects with any values of the added members. -/
theorem C99_new_reads_old (d d' : Nat) (co ci : Cfg) (noFit : Bool) (items items' ds : List (Ty × Val)) (st st' : OutSt)
    (bs bs' : List UInt8) (hf : SameRules (fmtOf co) (fmtOf ci)) (hg : GrownItems co.env ci.env items items')
    (hpos : st.pos ≤ st.data.length) (hlen : st.data.length < 2 ^ 63)
    (hs : Supported co items) (hd : StackOk d items) (hb : BitsOk items st)
    (hw : wireItems (fmtOf co) items = some bs) (hl : bs.length < 2 ^ 63)
    (hok : outCall d co noFit items st = (.ok, st'))
    (hw' : wireItems (fmtOf ci) items' = some bs') (hl' : bs'.length < 2 ^ 63) (hmore : bs.length < bs'.length)
    (hr : Readable ci items') (hd' : StackOk d' items') (hds : ds.map Prod.fst = items'.map Prod.fst)
    (henv : ∀ i, widthsOk (ci.env i) = true ∧ selfDelimiting ci.dsz (ci.env i) = true)
    (hty : ∀ it ∈ items', widthsOk it.1 = true ∧ selfDelimiting ci.dsz it.1 = true) :
    (decMany d' ci (st'.data.take st'.pos) ds st.pos).s = .err .resultOutOfRange := by
  obtain ⟨h1, k, h2⟩ := C04_growing_appends d co noFit items st st' bs hpos hlen hs hd hb hw hl hok
  rw [hf.eq] at hw'
  obtain ⟨a, b, h3, rfl⟩ := grownItems_wire (f := fmtOf co) hg bs' hw'
  rw [h3] at hw
  cases hw
  have hlp : (st.data.take st.pos).length = st.pos := by simp; omega
  have h := C14_encoding_truncated d' ci items' ds (st.data.take st.pos) (bs ++ b) bs.length (by simp; simp at hl'; omega)
    (by rw [hf.eq]; exact hw') hr henv hty hd' hds hmore
  rw [hlp] at h
  rw [← h, h1, h2]
  congr 2
  rw [List.append_assoc, List.append_assoc, List.take_append, hlp, List.take_of_length_le (by omega),
    List.take_append, show st.pos + bs.length - st.pos = bs.length by omega]
  simp

/-! ## The hypotheses are met -/

/-- A list: an integer and the next node. The new program adds a byte to the nodes. -/
def oldNode : Nat → Ty := fun _ => .struct false [.scalar .int 2, .optPtr (.ref 0)]
def newNode : Nat → Ty := fun _ => .struct false [.scalar .int 2, .optPtr (.ref 0), .scalar .byte 1]

def oldLists : Cfg := { Checks.le Checks.grow (.fixed 1) with env := oldNode }
def newLists : Cfg := { Checks.le Checks.grow (.fixed 1) with env := newNode }

def oldList : Val := .list [.num 7, .some (.list [.num 8, .none])]
def newList : Val := .list [.num 7, .some (.list [.num 8, .none, .num 80]), .num 70]

theorem list_grown : GrownItems oldLists.env newLists.env [(.bool, .num 1), (.ref 0, oldList)] [(.bool, .num 1), (.ref 0, newList)] := by
  refine .cons _ _ (.inr rfl) (.last [] (.ref 0 rfl rfl ?_))
  refine .last (ts := [.scalar .int 2]) (us := [.scalar .byte 1]) (vs := [.num 7]) (ws := [.num 70]) false false rfl (.inr rfl)
    (.optPtr (.ref 0 rfl rfl ?_))
  exact .last (ts := [.scalar .int 2]) (us := [.scalar .byte 1]) (vs := [.num 8]) (ws := [.num 80]) false false rfl (.inr rfl) .noOptPtr

example : SameRules (fmtOf oldLists) (fmtOf newLists) := ⟨rfl, rfl⟩

/-- The old program reads the list without the bytes, the new program finds the end of the input instead of the bytes. -/
example :
    outCall 20 newLists false [(.bool, .num 1), (.ref 0, newList)] ⟨[], 0⟩ = (.ok, ⟨[1, 7, 0, 1, 8, 0, 0, 80, 70], 9⟩) ∧
    decMany 20 oldLists [1, 7, 0, 1, 8, 0, 0, 80, 70] [(.bool, .num 0), (.ref 0, .list [])] 0 = ⟨.ok, [.num 1, oldList], 7⟩ ∧
    outCall 20 oldLists false [(.bool, .num 1), (.ref 0, oldList)] ⟨[], 0⟩ = (.ok, ⟨[1, 7, 0, 1, 8, 0, 0], 7⟩) ∧
    (decMany 20 newLists [1, 7, 0, 1, 8, 0, 0] [(.bool, .num 0), (.ref 0, .list [])] 0).s = .err .resultOutOfRange := by decide +kernel

example : Readable newLists [(.bool, .num 1), (.ref 0, newList)] ∧ StackOk 20 [(.bool, .num 1), (.ref 0, newList)] ∧
    (∀ i, widthsOk (newLists.env i) = true ∧ selfDelimiting newLists.dsz (newLists.env i) = true) ∧
    (∀ it ∈ [((.bool : Ty), Val.num 1), (.ref 0, newList)], widthsOk it.1 = true ∧ selfDelimiting newLists.dsz it.1 = true) := by
  refine ⟨⟨so_abi, fun _ => ⟨rfl, rfl⟩, ?_, ?_⟩, ?_, fun _ => ⟨rfl, rfl⟩, ?_⟩
  · intro x hx; simp only [List.mem_cons, List.not_mem_nil, or_false] at hx; rcases hx with rfl | rfl <;> rfl
  · intro x hx
    simp only [List.mem_cons, List.not_mem_nil, or_false] at hx
    rcases hx with rfl | rfl <;>
      simp [newList, newLists, newNode, Loadable, LoadableF, Checks.le, Checks.grow]
  · intro x hx; simp only [List.mem_cons, List.not_mem_nil, or_false] at hx; rcases hx with rfl | rfl <;> decide
  · intro x hx; simp only [List.mem_cons, List.not_mem_nil, or_false] at hx; rcases hx with rfl | rfl <;> exact ⟨rfl, rfl⟩

/-- C99. If other objects follow, the new program takes their bytes for the added members: the byte 5 behind the list is read as the first
added member, and nothing is reported. -/
theorem C99_followed_refuted : ∃ (items items' : List (Ty × Val)) (bs : List UInt8) (v : Val),
    GrownItems oldLists.env newLists.env items items' ∧ wireItems (fmtOf oldLists) items = some bs ∧
    decMany 20 newLists (bs ++ [5]) [(.ref 0, .list [])] 0 = ⟨.ok, [v], bs.length + 1⟩ := by
  refine ⟨[(.ref 0, .list [.num 7, .none])], [(.ref 0, .list [.num 7, .none, .num 70])], [7, 0, 0], .list [.num 7, .none, .num 5], ?_, ?_, ?_⟩
  · refine .last [] (.ref 0 rfl rfl ?_)
    exact .last (ts := [.scalar .int 2]) (us := [.scalar .byte 1]) (vs := [.num 7]) (ws := [.num 70]) false false rfl (.inr rfl) .noOptPtr
  · decide +kernel
  · decide +kernel

end Zpp.Props
