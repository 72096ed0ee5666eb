import Verif.Spec.Memo
import Verif.Props.RoundTrip
import Verif.Props.Output
import Verif.Checks
/-!
# C120: bytes identify objects
-/

namespace Zpp.Props
open Spec

theorem items_ext {xs ys : List (Ty × Val)} (h1 : xs.map Prod.fst = ys.map Prod.fst) (h2 : xs.map Prod.snd = ys.map Prod.snd) : xs = ys := by
  induction xs generalizing ys with
  | nil => cases ys <;> simp_all
  | cons x xs ih =>
    cases ys with
    | nil => simp at h1
    | cons y ys =>
      simp only [List.map_cons, List.cons.injEq] at h1 h2
      rw [ih h1.2 h2.2, Prod.ext h1.1 h2.1]

theorem wire_inj {c : Cfg} {items items' : List (Ty × Val)} {b : List UInt8} (hr : Readable c items) (hr' : Readable c items')
    (ht : items.map Prod.fst = items'.map Prod.fst) (h : wireItems (fmtOf c) items = some b) (h' : wireItems (fmtOf c) items' = some b)
    (hl : b.length < 2 ^ 63) : items.map Prod.snd = items'.map Prod.snd := by
  obtain ⟨d, hd⟩ : ∃ d, StackOk d items ∧ StackOk d items' := by
    have : ∀ items : List (Ty × Val), ∃ d, ∀ d', d ≤ d' → StackOk d' items := by
      intro items
      induction items with
      | nil => exact ⟨0, fun _ _ => nofun⟩
      | cons x xs ih =>
        obtain ⟨d, hd⟩ := ih
        refine ⟨max d (2 * depth x.2), fun d' h y hy => ?_⟩
        simp only [List.mem_cons] at hy
        rcases hy with rfl | hy
        · omega
        · exact hd d' (by omega) y hy
    obtain ⟨d1, h1⟩ := this items
    obtain ⟨d2, h2⟩ := this items'
    exact ⟨max d1 d2, h1 _ (by omega), h2 _ (by omega)⟩
  have e1 := C10_read_encoding d c items items [] b [] (by simp only [List.nil_append, List.append_nil]; omega) h hr hd.1 rfl
  have e2 := C10_read_encoding d c items' items [] b [] (by simp only [List.nil_append, List.append_nil]; omega) h' hr' hd.2 ht
  rw [e1] at e2
  injection e2

/-- C120. Two programs write objects of the same types with archives of the same format, on hosts and into buffers of their own, at any position. The bytes are the same
if and only if the objects are. -/
theorem C120_identify (d d' : Nat) (c c' : Cfg) (noFit noFit' : Bool) (items items' : List (Ty × Val)) (s t s' t' : OutSt) (b b' : List UInt8)
    (hf : fmtOf c = fmtOf c') (ht : items.map Prod.fst = items'.map Prod.fst)
    (hv : Valid s) (hv' : Valid s') (hs : Supported c items) (hs' : Supported c' items') (hd : StackOk d items) (hd' : StackOk d' items')
    (hb : BitsOk items s) (hb' : BitsOk items' s') (hw : wireItems (fmtOf c) items = some b) (hw' : wireItems (fmtOf c') items' = some b')
    (hl : b.length < 2 ^ 63) (hl' : b'.length < 2 ^ 63) (hr : Readable c items) (hr' : Readable c items')
    (hok : outCall d c noFit items s = (.ok, t)) (hok' : outCall d' c' noFit' items' s' = (.ok, t')) :
    (t.data.take t.pos).drop s.pos = (t'.data.take t'.pos).drop s'.pos ↔ items = items' := by
  have key : ∀ {d : Nat} {c : Cfg} {noFit : Bool} {items : List (Ty × Val)} {s t : OutSt} {b : List UInt8}, Valid s → Supported c items → StackOk d items →
      BitsOk items s → wireItems (fmtOf c) items = some b → b.length < 2 ^ 63 → outCall d c noFit items s = (.ok, t) →
      (t.data.take t.pos).drop s.pos = b := by
    intro d c noFit items s t b hv hs hd hb hw hl hok
    obtain ⟨h1, k, h2⟩ := C04_growing_appends d c noFit items s t b hv.pos_le hv.len_lt hs hd hb hw hl hok
    have hp := hv.pos_le
    have e : (s.data.take s.pos).length = s.pos := by rw [List.length_take]; omega
    rw [h1, h2, List.drop_take, Nat.add_sub_cancel_left, List.append_assoc, List.append_assoc, List.drop_append_of_le_length (by omega),
      List.drop_eq_nil_of_le (by omega), List.nil_append, List.take_left]
  rw [key hv hs hd hb hw hl hok, key hv' hs' hd' hb' hw' hl' hok']
  refine ⟨fun e => ?_, fun e => ?_⟩
  · subst e
    exact items_ext ht (wire_inj hr hr' ht hw (by rw [hf]; exact hw') hl)
  · subst e
    rw [hf, hw'] at hw
    cases hw
    rfl

/-- C120, as a program: a table of results under the bytes of the arguments. Every request gets the result of the function for its arguments, and the function is
called exactly for the arguments not seen before. -/
theorem C120_table {α : Type} (d : Nat) (c : Cfg) (noFit : Bool) (f : List Val → α) (tys : List Ty) (hgrow : c.g.resizable = true)
    (requests : List (List (Ty × Val))) (h : ∀ r ∈ requests, MemoOk d c tys r) :
    memoRun d c noFit f [] requests = memoIdeal f [] (requests.map (List.map Prod.snd)) := by
  suffices ∀ (requests : List (List (Ty × Val))) (old : List (List (Ty × Val))) (table : List (List UInt8 × α)),
      (∀ r ∈ requests, MemoOk d c tys r) → (∀ r ∈ old, MemoOk d c tys r) →
      (∀ e ∈ table, ∃ r ∈ old, wireItems (fmtOf c) r = some e.1 ∧ e.2 = f (r.map Prod.snd)) →
      (∀ r ∈ old, ∃ e ∈ table, wireItems (fmtOf c) r = some e.1) →
      memoRun d c noFit f table requests = memoIdeal f (old.map (List.map Prod.snd)) (requests.map (List.map Prod.snd)) from
    this requests [] [] h nofun nofun nofun
  intro requests
  induction requests with
  | nil => intros; rfl
  | cons args more ih =>
    intro old table hreq hold htab hall
    have ha := hreq args List.mem_cons_self
    obtain ⟨b, hw, hl, hlim, hmem⟩ := ha.room
    have hok := C06_growing_succeeds d c noFit args ⟨[], 0⟩ b hgrow (Nat.le_refl _) (by simp) ha.sup ha.stack (Or.inr (by simp)) hw hl
      (by simpa using hlim) (by simpa using hmem)
    obtain ⟨st, hst⟩ : ∃ st, outCall d c noFit args ⟨[], 0⟩ = (.ok, st) := ⟨_, Prod.ext hok rfl⟩
    obtain ⟨h1, k, h2⟩ := C04_growing_appends d c noFit args ⟨[], 0⟩ st b (Nat.le_refl _) (by simp) ha.sup ha.stack (Or.inr (by simp)) hw hl hst
    simp only [List.take_nil, List.nil_append, List.drop_nil, List.append_nil, Nat.zero_add] at h1 h2
    have hbytes : st.data.take st.pos = b := by rw [h1, h2, List.take_left]
    have hmore : ∀ r ∈ more, MemoOk d c tys r := fun r hr => hreq r (List.mem_cons_of_mem _ hr)
    have hold' : ∀ r ∈ args :: old, MemoOk d c tys r := by
      intro r hr
      simp only [List.mem_cons] at hr
      rcases hr with rfl | hr
      · exact ha
      · exact hold r hr
    simp only [memoRun, memoStep, hst, hbytes, List.map_cons, memoIdeal]
    cases hfind : table.find? (fun e => e.1 == b) with
    | some e =>
      have hk := List.find?_some hfind
      simp only [beq_iff_eq] at hk
      have hmem := List.mem_of_find?_eq_some hfind
      obtain ⟨r, hr, hr1, hr2⟩ := htab e hmem
      have hr0 := hold r hr
      have hsame : args.map Prod.snd = r.map Prod.snd :=
        wire_inj ha.read hr0.read (by rw [ha.types, hr0.types]) hw (by rw [hr1, hk]) hl
      have hseen : args.map Prod.snd ∈ old.map (List.map Prod.snd) := List.mem_map.mpr ⟨r, hr, hsame.symm⟩
      simp only
      rw [ih (args :: old) table hmore hold']
      · simp [hr2, hsame]
        exact ⟨r, hr, rfl⟩
      · intro e' he'
        obtain ⟨r', hr', h'⟩ := htab e' he'
        exact ⟨r', List.mem_cons_of_mem _ hr', h'⟩
      · intro r' hr'
        simp only [List.mem_cons] at hr'
        rcases hr' with rfl | hr'
        · exact ⟨e, hmem, by rw [hk]; exact hw⟩
        · exact hall r' hr'
    | none =>
      rw [List.find?_eq_none] at hfind
      have hnew : args.map Prod.snd ∉ old.map (List.map Prod.snd) := by
        intro hm
        obtain ⟨r, hr, e⟩ := List.mem_map.mp hm
        have : r = args := items_ext (by rw [(hold r hr).types, ha.types]) e
        subst this
        obtain ⟨e', he', hw'⟩ := hall r hr
        rw [hw] at hw'
        cases hw'
        exact hfind e' he' (by simp)
      simp only
      rw [ih (args :: old) ((b, f (args.map Prod.snd)) :: table) hmore hold']
      · simp only [List.map_cons, decide_eq_true hnew]
      · intro e' he'
        simp only [List.mem_cons] at he'
        rcases he' with rfl | he'
        · exact ⟨args, List.mem_cons_self, hw, rfl⟩
        · obtain ⟨r', hr', h'⟩ := htab e' he'
          exact ⟨r', List.mem_cons_of_mem _ hr', h'⟩
      · intro r' hr'
        simp only [List.mem_cons] at hr'
        rcases hr' with rfl | hr'
        · exact ⟨_, List.mem_cons_self, hw⟩
        · obtain ⟨e', he', h'⟩ := hall r' hr'
          exact ⟨e', List.mem_cons_of_mem _ he', h'⟩

/-! ## The hypotheses are met -/

/-- Four requests, the third like the first: the function (here it counts the arguments) is called three times. -/
example :
    let c := Checks.le Checks.grow (.fixed 1)
    let req := fun (bs : List UInt8) (n : Nat) => ([(Checks.str, Checks.strV bs), (.scalar .int 1, .num n)] : List (Ty × Val))
    memoRun 9 c false (fun vs => vs.length) [] [req [65] 1, req [65] 2, req [65] 1, req [] 65] =
      [some (2, true), some (2, true), some (2, false), some (2, true)] ∧
    (outCall 9 c false (req [65] 1) ⟨[], 0⟩).2.data = [1, 65, 1] := by decide +kernel

example (bs : List UInt8) (n : Nat) (hb : bs.length < 256) (hn : n < 256) :
    let c := Checks.le Checks.grow (.fixed 1)
    MemoOk 9 c [Checks.str, .scalar .int 1] [(Checks.str, Checks.strV bs), (.scalar .int 1, .num n)] := by
  intro c
  have hg : ∀ x ∈ ([(Checks.str, Checks.strV bs), (.scalar .int 1, .num n)] : List (Ty × Val)), Good c x.1 = true := by
    intro x hx
    simp only [List.mem_cons, List.not_mem_nil, or_false] at hx
    rcases hx with rfl | rfl <;> rfl
  have hL : ∀ bs : List UInt8, LoadableL c Checks.chr (bs.map fun b => Val.num b.toNat) := by
    intro bs
    induction bs with
    | nil => trivial
    | cons b bs ih => exact ⟨by simp [Loadable], ih⟩
  have hD : ∀ bs : List UInt8, depthL (bs.map fun b => Val.num b.toNat) ≤ 1 := by
    intro bs
    induction bs with
    | nil => simp [depthL]
    | cons b bs ih => simp only [List.map_cons, depthL, depth]; omega
  have hW : ∀ bs : List UInt8, ∃ r, wireAll (fmtOf c) Checks.chr (bs.map fun b => Val.num b.toNat) = some r ∧ r.length = bs.length := by
    intro bs
    induction bs with
    | nil => exact ⟨[], rfl, rfl⟩
    | cons b bs ih =>
      obtain ⟨r, e, l⟩ := ih
      have := b.toNat_lt
      refine ⟨digits (fmtOf c).order 1 b.toNat ++ r, ?_, by rw [List.length_append, digits_length, List.length_cons, l, Nat.add_comm]⟩
      have eb : wire (fmtOf c) Checks.chr (.num b.toNat) = some (digits (fmtOf c).order 1 b.toNat) := by
        simp only [Checks.chr, wire, wireNum]
        rw [if_pos (by omega)]
      simp only [List.map_cons, wireAll, e, eb, cat]
  refine ⟨rfl, ⟨grow_ok, so_abi, fun _ => ⟨rfl, rfl⟩, hg⟩, ⟨so_abi, fun _ => ⟨rfl, rfl⟩, hg, ?_⟩, ?_, ?_⟩
  · intro x hx
    simp only [List.mem_cons, List.not_mem_nil, or_false] at hx
    rcases hx with rfl | rfl
    · refine ⟨by decide, by decide, fun _ => ⟨Or.inl rfl, ?_⟩, hL bs⟩
      simp only [List.length_map, c, Checks.le, Checks.grow]
      rw [Checks.chr, so_abi.scalar _ 1 (by decide)]
      omega
    · simp [Loadable]
  · intro x hx
    simp only [List.mem_cons, List.not_mem_nil, or_false] at hx
    rcases hx with rfl | rfl
    · have := hD bs
      simp only [Checks.strV, depth]
      omega
    · simp [depth]
  · obtain ⟨r, e, l⟩ := hW bs
    have hlen : bs.length < 256 ^ 1 := by omega
    have hn' : n < 256 ^ 1 := by omega
    refine ⟨digits (fmtOf c).order 1 bs.length ++ r ++ digits (fmtOf c).order 1 n, ?_, ?_, ?_, ?_⟩
    · simp only [wireItems, Checks.str, Checks.strV, wire, Option.getD_none, List.length_map, e, wireNum]
      rw [if_pos hn']
      show cat (cat (sizePrefix (fmtOf c) (.fixed 1) bs.length) (some r)) _ = _
      rw [sizePrefix, if_pos hlen]
      simp [cat]
    all_goals simp only [List.length_append, digits_length, l, LimitRoom, MemRoom, c, Checks.le, Checks.grow, sizeMax]
    all_goals omega

/-- Iteration order is part of the object: two unordered sets with the same elements in another order are written as different bytes. -/
theorem C120_hashed_refuted :
    let c := Checks.le Checks.grow (.fixed 1)
    let t : Ty := .assoc false true none (.scalar .int 1) none
    (outCall 9 c false [(t, .list [.num 1, .num 2])] ⟨[], 0⟩).2.data = [2, 1, 2] ∧
    (outCall 9 c false [(t, .list [.num 2, .num 1])] ⟨[], 0⟩).2.data = [2, 2, 1] := by decide +kernel

end Zpp.Props
