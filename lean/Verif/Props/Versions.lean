import Verif.Props.Alike
import Verif.Proof.Versions
/-!
# Variants that get new alternatives
-/

namespace Zpp.Props
open Zpp Zpp.Spec

/-- `new` is the format of the newer program: the same byte order and size prefixes, and class definitions in which variants may have got
new alternatives. -/
structure NewerFormat (old new : Fmt) : Prop where
  order : new.order = old.order
  dsz : new.dsz = old.dsz
  classes : ∀ i, Older (old.env i) (new.env i)

theorem NewerFormat.eq {old new : Fmt} (h : NewerFormat old new) : new = fmtW old new.env := by
  obtain ⟨h1, h2, _⟩ := h
  cases old; cases new
  simp only at h1 h2
  subst h1; subst h2
  rfl

theorem olderItems_wire {old new : Fmt} (hf : NewerFormat old new) {items items' : List (Ty × Val)} (h : OlderItems items items') :
    ∀ bs, wireItems old items = some bs → wireItems new items' = some bs := by
  induction h with
  | nil => exact fun bs h => h
  | cons v ho hr ih =>
    intro bs hw
    simp only [wireItems, cat_eq_some] at hw ⊢
    obtain ⟨x, y, hx, hy, rfl⟩ := hw
    refine ⟨x, y, ?_, ih y hy, rfl⟩
    rw [hf.eq]
    exact older_wire hf.classes _ _ _ v x (Nat.le_refl _) ho hx

theorem olderItems_read {d : Nat} {c : Cfg} {new : Fmt} (hf : NewerFormat (fmtOf c) new) (ha : AbiOk c.sizeof) (he : EnvGood c)
    {data : List UInt8} (hlen : data.length < 2 ^ 64) {items items' : List (Ty × Val)} (h : OlderItems items items') :
    ∀ (ds : List (Ty × Val)) (bs : List UInt8), wireItems new items' = some bs → (∀ x ∈ items, Good c x.1 = true) →
      (∀ x ∈ items, Loadable c x.1 x.2) → StackOk d items → ds.map Prod.fst = items.map Prod.fst →
      wireItems (fmtOf c) items = some bs ∨ BadL data (decMany d c data ds) bs := by
  induction h with
  | nil => exact fun _ bs h _ _ _ _ => .inl h
  | @cons t t' v items items' ho hr ih =>
    intro ds bs hw hg hl hd hds
    cases ds with
    | nil => simp at hds
    | cons y ds =>
      obtain ⟨t₁, o⟩ := y
      simp only [List.map_cons, List.cons.injEq] at hds
      obtain ⟨rfl, hds⟩ := hds
      simp only [wireItems, cat_eq_some] at hw
      obtain ⟨a, b, hx, hy, rfl⟩ := hw
      rw [hf.eq] at hx
      have hd0 := hd (t₁, v) (by simp)
      simp only at hd0
      rcases older_read d c ha he hf.classes data hlen t₁ t' v a ho (hg (t₁, v) (by simp)) hx (hl (t₁, v) (by simp))
        (by split <;> omega) with ⟨h1, h2⟩ | h1
      · rcases ih ds b hy (fun x h => hg x (by simp [h])) (fun x h => hl x (by simp [h])) (fun x h => hd x (by simp [h])) hds with h3 | h3
        · left
          simp only [wireItems, cat_eq_some]
          exact ⟨a, b, h1, h3, rfl⟩
        · right
          intro p rest hp hdr
          rw [List.append_assoc] at hdr
          have s1 := drop_split hp hdr
          have h2 := h2 o p _ hp hdr
          simp only at h2
          rw [decMany]
          simp only [h2, h3 _ rest s1.1 s1.2]
      · right
        intro p rest hp hdr
        rw [List.append_assoc] at hdr
        have h1 := h1 o p _ hp hdr
        simp only at h1
        rw [decMany]
        generalize decode d c t₁ o data p = r at h1
        obtain ⟨s, w, p'⟩ := r
        simp only at h1
        subst h1
        rfl

/-- C98, a new program reads what an old one wrote: the same objects. -/
theorem C98_new_reads_old (d d' : Nat) (co ci : Cfg) (noFit : Bool) (items items' ds : List (Ty × Val)) (st st' : OutSt)
    (bs : List UInt8) (hf : NewerFormat (fmtOf co) (fmtOf ci)) (ho : OlderItems items items')
    (hpos : st.pos ≤ st.data.length) (hlen : st.data.length < 2 ^ 63)
    (hs : Supported co items) (hd : StackOk d items) (hb : BitsOk items st)
    (hw : wireItems (fmtOf co) items = some bs) (hl : bs.length < 2 ^ 63)
    (hok : outCall d co noFit items st = (.ok, st'))
    (hr : Readable ci items') (hd' : StackOk d' items') (hds : ds.map Prod.fst = items'.map Prod.fst) :
    decMany d' ci st'.data ds st.pos = ⟨.ok, items.map Prod.snd, st'.pos⟩ := by
  obtain ⟨h1, k, h2⟩ := C04_growing_appends d co noFit items st st' bs hpos hlen hs hd hb hw hl hok
  have hv := (outCall_safe d co hs.growth noFit items st ⟨hpos, hlen⟩).valid hs.growth ⟨hpos, hlen⟩
  rw [hok] at hv
  have := hv.len_lt
  simp only at this
  have hsame : items.map Prod.snd = items'.map Prod.snd := by
    clear hs hd hb hw hok hr hd' hds
    induction ho with
    | nil => rfl
    | cons v _ _ ih => simp [ih]
  rw [h1, hsame]
  refine decMany_rd hr.abi hr.env (data := st'.data) (by omega) items' ds bs (olderItems_wire hf ho bs hw) hr.types hr.load hd' hds
    st.pos (st.data.drop (st.pos + bs.length) ++ List.replicate k 0) ?_ ?_
  · rw [h2]; simp; omega
  · rw [h2, List.append_assoc, List.append_assoc, List.drop_append_of_le_length (by simp; omega)]
    rw [List.drop_eq_nil_of_le (by simp; omega)]
    simp

/-- C98, an old program reads what a new one wrote. If the objects also exist in the old program it reads these objects. Otherwise, as
some variant in them holds an alternative the old program does not have, it reports `bad_message`. It never reads anything else. -/
theorem C98_old_reads_new (d d' : Nat) (co ci : Cfg) (noFit : Bool) (items items' ds : List (Ty × Val)) (st st' : OutSt)
    (bs : List UInt8) (hf : NewerFormat (fmtOf ci) (fmtOf co)) (ho : OlderItems items items')
    (hpos : st.pos ≤ st.data.length) (hlen : st.data.length < 2 ^ 63)
    (hs : Supported co items') (hd : StackOk d items') (hb : BitsOk items' st)
    (hw : wireItems (fmtOf co) items' = some bs) (hl : bs.length < 2 ^ 63)
    (hok : outCall d co noFit items' st = (.ok, st'))
    (hr : Readable ci items) (hd' : StackOk d' items) (hds : ds.map Prod.fst = items.map Prod.fst) :
    if (wireItems (fmtOf ci) items).isSome then decMany d' ci st'.data ds st.pos = ⟨.ok, items.map Prod.snd, st'.pos⟩
    else (decMany d' ci st'.data ds st.pos).s = .err .badMessage := by
  obtain ⟨h1, k, h2⟩ := C04_growing_appends d co noFit items' st st' bs hpos hlen hs hd hb hw hl hok
  have hv := (outCall_safe d co hs.growth noFit items' st ⟨hpos, hlen⟩).valid hs.growth ⟨hpos, hlen⟩
  rw [hok] at hv
  have := hv.len_lt
  simp only at this
  have hp' : st.pos ≤ st'.data.length := by rw [h2]; simp; omega
  have hdr : st'.data.drop st.pos = bs ++ (st.data.drop (st.pos + bs.length) ++ List.replicate k 0) := by
    rw [h2, List.append_assoc, List.append_assoc, List.drop_append_of_le_length (by simp; omega)]
    rw [List.drop_eq_nil_of_le (by simp; omega)]
    simp
  split
  · next hsome =>
    obtain ⟨bs', hw'⟩ := Option.isSome_iff_exists.mp hsome
    have := olderItems_wire hf ho bs' hw'
    rw [hw] at this
    cases this
    rw [h1]
    exact decMany_rd hr.abi hr.env (by omega) items ds bs hw' hr.types hr.load hd' hds st.pos _ hp' hdr
  · next hsome =>
    rcases olderItems_read (d := d') hf hr.abi hr.env (data := st'.data) (by omega) ho ds bs hw hr.types hr.load hd' hds with h | h
    · rw [h] at hsome; simp at hsome
    · exact h st.pos _ hp' hdr

/-! ## The hypotheses are met -/

/-- A tree: a node has an integer or, in the new program, a string, and children. -/
def oldClasses : Nat → Ty := fun _ =>
  .struct false [.variant (.scalar .byte 1) [.num 0] [true] [.scalar .int 4], .seq .vector none (.ref 0)]

def newClasses : Nat → Ty := fun _ =>
  .struct false [.variant (.scalar .byte 1) [.num 0, .num 1] [true, true] [.scalar .int 4, .seq .vector none Checks.chr],
    .seq .vector none (.ref 0)]

def oldProgram : Cfg := { Checks.le Checks.grow (.fixed 1) with env := oldClasses }
def newProgram : Cfg := { Checks.le Checks.grow (.fixed 1) with env := newClasses }

/-- A node with an integer, and a child. -/
def treeOf (child : Val) : Val := .list [.alt 0 (.num 7), .list [.list [child, .list []]]]

example : NewerFormat (fmtOf oldProgram) (fmtOf newProgram) :=
  ⟨rfl, rfl, fun _ => .struct _ _ (.cons (.variant _ (newIds := [.num 1]) _ _ _ (.cons (.scalar _ _) .nil) rfl (by decide))
    (.cons (.seq _ _ (.ref 0)) .nil))⟩

example :
    outCall 20 newProgram false [(.ref 0, treeOf (.alt 0 (.num 8)))] ⟨[], 0⟩ =
      (.ok, ⟨[0, 7, 0, 0, 0, 1, 0, 8, 0, 0, 0, 0], 12⟩) ∧
    decMany 20 oldProgram [0, 7, 0, 0, 0, 1, 0, 8, 0, 0, 0, 0] [(.ref 0, .list [])] 0 = ⟨.ok, [treeOf (.alt 0 (.num 8))], 12⟩ ∧
    outCall 20 newProgram false [(.ref 0, treeOf (.alt 1 (.list [.num 65])))] ⟨[], 0⟩ =
      (.ok, ⟨[0, 7, 0, 0, 0, 1, 1, 1, 65, 0], 10⟩) ∧
    (wireItems (fmtOf oldProgram) [(.ref 0, treeOf (.alt 1 (.list [.num 65])))]).isSome = false ∧
    (decMany 20 oldProgram [0, 7, 0, 0, 0, 1, 1, 1, 65, 0] [(.ref 0, .list [])] 0).s = .err .badMessage := by decide +kernel

example : Readable oldProgram [(.ref 0, treeOf (.alt 1 (.list [.num 65])))] ∧ StackOk 20 [(.ref 0, treeOf (.alt 1 (.list [.num 65])))] := by
  refine ⟨⟨so_abi, fun _ => ⟨rfl, rfl⟩, ?_, ?_⟩, ?_⟩
  · intro x hx; simp only [List.mem_singleton] at hx; subst hx; rfl
  · intro x hx
    simp only [List.mem_singleton] at hx; subst hx
    simp [treeOf, oldProgram, oldClasses, Loadable, LoadableF, LoadableL, Fits, Checks.le, Checks.grow, Checks.so]
  · intro x hx; simp only [List.mem_singleton] at hx; subst hx; decide

end Zpp.Props
