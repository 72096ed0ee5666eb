import Verif.Proof.LocatedViews
import Verif.Proof.Duplex
import Verif.Props.Views
/-!
# Views share the input, everything else is a copy
-/

namespace Zpp.Props
open Zpp Zpp.Spec

/-- C90: the model. Reading objects whose views have places shows, while the memory stays as it is, exactly what the model of
`in(items...)` used for all other properties shows: the same outcome, the same objects, the same position. -/
theorem C90_same (d : Nat) (c : Cfg) (m : Memory) (b : Nat) (items : List (Ty × LVal)) (p : Nat) (habi : AbiOk c.sizeof) :
    looks m (decManyL d c m b items p) = decMany d c (m b) (items.map fun x => (x.1, x.2.look m)) p :=
  look_decMany habi items p

theorem object_places {env : Nat → Ty} {t : Ty} {v w : LVal} (h : ViewObject env t v w) : ∀ pl ∈ placesOf w, pl ∈ placesOf v := by
  induction h with
  | here => exact fun _ h => h
  | elem _ hm _ ih => exact fun pl h => mem_placesAll.mpr ⟨_, hm, ih pl h⟩
  | member i _ hv _ ih => exact fun pl h => mem_placesAll.mpr ⟨_, List.mem_of_getElem? hv, ih pl h⟩
  | array hm _ ih => exact fun pl h => mem_placesAll.mpr ⟨_, hm, ih pl h⟩
  | setElem hm _ ih => exact fun pl h => mem_placesAll.mpr ⟨_, hm, ih pl h⟩
  | mapElem hm _ ih => exact fun pl h => mem_placesAll.mpr ⟨_, hm, ih pl h⟩
  | optional _ ih => exact ih
  | optPtr _ ih => exact ih
  | uptr _ ih => exact ih
  | alt _ _ ih => exact ih
  | ref _ ih => exact ih

/-- C90: views share the input. After a successful `in(items...)` over the buffer `b`, from position `p` to position `p'`, every
object of view type anywhere in the objects read is a place in that buffer, between `p` and `p'`: whatever the memory is later,
the view shows the bytes that are then at this place. -/
theorem C90_shares (d : Nat) (c : Cfg) (m : Memory) (b : Nat) (items : List (Ty × LVal)) (p p' : Nat) (vs : List LVal)
    (habi : AbiOk c.sizeof) (henv : ∀ i, widthsOk (c.env i) = true) (hw : ∀ it ∈ items, widthsOk it.1 = true)
    (hp : p ≤ (m b).length) (hok : decManyL d c m b items p = ⟨.ok, vs, p'⟩) (i : Nat) (t : Ty) (old v w : LVal)
    (hi : items[i]? = some (t, old)) (hv : vs[i]? = some v) (h : ViewObject c.env t v w) :
    ∃ off len, p ≤ off ∧ off + len ≤ p' ∧ ∀ m' : Memory, w.look m' = viewOf (((m' b).drop off).take len) := by
  have h1 := decManyL_views (d := d) (c := c) (m := m) (b := b) items p (by rw [hok]) i t old v hi (by rw [hok]; exact hv) w h
  have h2 := decManyL_placed (V := True) (d := d) (c := c) (m := m) (b := b) habi henv items p hw hp (.inl trivial)
  obtain ⟨pl, rfl⟩ := h1
  rw [hok] at h2
  rcases h2.mem pl (mem_placesAll.mpr ⟨v, List.mem_of_getElem? hv, object_places h pl (by simp [placesOf])⟩) with h3 | ⟨h3, _⟩
  · refine ⟨pl.off, pl.len, h3.2.2.1, h3.2.2.2, fun m' => ?_⟩
    simp only [LVal.look, Memory.bytes, h3.2.1, viewOf]
  · exact absurd rfl h3

/-- C90: no two views of the objects read by one successful call have a byte in common, and all of them lie in the input consumed. -/
theorem C90_apart (d : Nat) (c : Cfg) (m : Memory) (b : Nat) (items : List (Ty × LVal)) (p p' : Nat) (vs : List LVal)
    (habi : AbiOk c.sizeof) (henv : ∀ i, widthsOk (c.env i) = true) (hw : ∀ it ∈ items, widthsOk it.1 = true)
    (hp : p ≤ (m b).length) (hok : decManyL d c m b items p = ⟨.ok, vs, p'⟩) :
    (placesAll vs).Pairwise Apart ∧ (∀ pl ∈ placesAll vs, LiesIn b p p' pl) ∧ p' ≤ (m b).length := by
  have h := decManyL_placed (V := True) (d := d) (c := c) (m := m) (b := b) habi henv items p hw hp (.inl trivial)
  rw [hok] at h
  exact ⟨h.apart rfl, fun pl hm => (h.mem pl hm).elim (fun h => h.2) fun h => absurd rfl h.1, h.inb⟩

/-- C90, any outcome. After a failed read too, a view is in the input consumed, or it was in the objects before the call and is
where it was. -/
theorem C90_failed (d : Nat) (c : Cfg) (m : Memory) (b : Nat) (items : List (Ty × LVal)) (p : Nat)
    (habi : AbiOk c.sizeof) (henv : ∀ i, widthsOk (c.env i) = true) (hw : ∀ it ∈ items, widthsOk it.1 = true)
    (hp : p ≤ (m b).length) (pl : Place) (hpl : pl ∈ placesAll (decManyL d c m b items p).vs) :
    LiesIn b p (decManyL d c m b items p).p pl ∨
      ((decManyL d c m b items p).s ≠ .ok ∧ pl ∈ placesAll (items.map Prod.snd)) :=
  ((decManyL_placed (V := True) habi henv items p hw hp (.inl trivial)).mem pl hpl).imp_left fun h => h.2

/-- C90: nothing else matters. After a successful read, the objects look the same in every later memory that has the same bytes
where this call has read: the rest of the input, all other buffers, and inputs read earlier into the same objects may be
overwritten, resized or freed. -/
theorem C90_kept (d : Nat) (c : Cfg) (m m' : Memory) (b : Nat) (items : List (Ty × LVal)) (p p' : Nat) (vs : List LVal)
    (habi : AbiOk c.sizeof) (henv : ∀ i, widthsOk (c.env i) = true) (hw : ∀ it ∈ items, widthsOk it.1 = true)
    (hp : p ≤ (m b).length) (hok : decManyL d c m b items p = ⟨.ok, vs, p'⟩)
    (hm : ((m' b).take p').drop p = ((m b).take p').drop p) : vs.map (LVal.look m') = vs.map (LVal.look m) := by
  have h := (C90_apart d c m b items p p' vs habi henv hw hp hok).2.1
  refine List.map_congr_left fun v hv => look_congr v fun pl hpl => ?_
  obtain ⟨h1, h2, h3⟩ := h pl (mem_placesAll.mpr ⟨v, hv, hpl⟩)
  have hb : ∀ l : List UInt8, (l.drop pl.off).take pl.len = (((l.take p').drop p).drop (pl.off - p)).take pl.len := by
    intro l
    rw [List.drop_drop, List.drop_take, List.take_take, show p + (pl.off - p) = pl.off by omega,
      show min pl.len (p' - pl.off) = pl.len by omega]
  simp only [Memory.bytes, h1]
  rw [hb, hb, hm]

/-- C90: everything else is a copy. Objects read into types without views contain no places after success: they look the same
in every later memory, whatever happens to the input. -/
theorem C90_copies (d : Nat) (c : Cfg) (m m' : Memory) (b : Nat) (items : List (Ty × LVal)) (p p' : Nat) (vs : List LVal)
    (habi : AbiOk c.sizeof) (henv : ∀ i, widthsOk (c.env i) = true) (hw : ∀ it ∈ items, widthsOk it.1 = true)
    (hp : p ≤ (m b).length) (hfree : ∀ it ∈ items, viewFree it.1 = true) (hfreeEnv : ∀ i, viewFree (c.env i) = true)
    (hok : decManyL d c m b items p = ⟨.ok, vs, p'⟩) : vs.map (LVal.look m') = vs.map (LVal.look m) := by
  have h := decManyL_placed (V := False) (d := d) (c := c) (m := m) (b := b) habi henv items p hw hp (.inr ⟨hfree, hfreeEnv⟩)
  rw [hok] at h
  refine List.map_congr_left fun v hv => look_congr v fun pl hpl => ?_
  rcases h.mem pl (mem_placesAll.mpr ⟨v, hv, hpl⟩) with h | ⟨h, _⟩
  · exact h.1.elim
  · exact absurd rfl h

theorem run_keeps {d : Nat} {c : Cfg} {noFit : Bool} (hg : GrowthOk c.g) : ∀ (ops : List Op) (x : Duplex), Valid ⟨x.data, x.wpos⟩ →
    (Duplex.run d c noFit ops x).2.data.take x.wpos = x.data.take x.wpos
  | [], x, _ => rfl
  | .read dests :: ops, x, hv => by
    have := run_keeps (d := d) (noFit := noFit) hg ops ⟨x.data, x.wpos, (decMany d c x.data dests x.rpos).p⟩ hv
    simpa only [Duplex.run, Duplex.step, Duplex.read] using this
  | .write items :: ops, x, hv => by
    have h := outCall_safe d c hg noFit items ⟨x.data, x.wpos⟩ hv
    simp only [Duplex.run, Duplex.step, Duplex.write]
    have hv' := h.valid hg hv
    have hk := h.keep
    have hm := h.mono
    generalize outCall d c noFit items ⟨x.data, x.wpos⟩ = r at hv' hk hm
    obtain ⟨s, st'⟩ := r
    dsimp only at hv' hk hm ⊢
    have := run_keeps (d := d) (noFit := noFit) hg ops ⟨st'.data, st'.pos, x.rpos⟩ hv'
    have h2 := congrArg (List.take x.wpos) this
    rw [List.take_take, List.take_take, Nat.min_eq_left hm, hk] at h2
    exact h2

/-- C90 over a shared buffer. If an input archive has read objects from bytes the output archive over the same buffer has already
written, no later call of either archive, successful or not, changes what the views in these objects show (as long as the
buffer stays where it is: always, unless it grows). -/
theorem C90_shared_buffer (d : Nat) (c : Cfg) (noFit : Bool) (m m' : Memory) (b : Nat) (x : Duplex) (items : List (Ty × LVal)) (p' : Nat)
    (vs : List LVal) (ops : List Op) (habi : AbiOk c.sizeof) (hg : GrowthOk c.g) (henv : ∀ i, widthsOk (c.env i) = true)
    (hw : ∀ it ∈ items, widthsOk it.1 = true) (hx : Valid ⟨x.data, x.wpos⟩) (hr : x.rpos ≤ x.data.length) (hm : m b = x.data)
    (hok : decManyL d c m b items x.rpos = ⟨.ok, vs, p'⟩) (hwritten : p' ≤ x.wpos)
    (hm' : m' b = (Duplex.run d c noFit ops ⟨x.data, x.wpos, p'⟩).2.data) : vs.map (LVal.look m') = vs.map (LVal.look m) := by
  refine C90_kept d c m m' b items x.rpos p' vs habi henv hw (by rw [hm]; exact hr) hok ?_
  have h := congrArg (List.take p') (run_keeps (d := d) (noFit := noFit) hg ops ⟨x.data, x.wpos, p'⟩ hx)
  simp only [List.take_take, Nat.min_eq_left hwritten] at h
  rw [hm', hm, h]

/-- The memory with `data` in buffer 0. -/
def oneBuffer (data : List UInt8) : Memory := fun b => if b = 0 then data else []

/-- A `string_view` and a `string`, both read as "AB" from the same kind of bytes; then the input is overwritten with zeros: the view
shows zeros, the string is the same. -/
example :
    let r := decManyL 9 (Checks.le Checks.grow (.fixed 1)) (oneBuffer [2, 65, 66, 2, 65, 66]) 0
      [(.seq .view none Checks.chr, .list []), (Checks.str, .list [])] 0
    r.s = .ok ∧ r.p = 6 ∧ placesAll r.vs = [⟨0, 1, 2⟩] ∧
    r.vs.map (LVal.look (oneBuffer [2, 65, 66, 2, 65, 66])) = [viewOf [65, 66], viewOf [65, 66]] ∧
    r.vs.map (LVal.look (oneBuffer [0, 0, 0, 0, 0, 0])) = [viewOf [0, 0], viewOf [65, 66]] := by decide +kernel

/-- A map from views to optional views, read in an order other than that of the keys, and a variant: places in the order of the
keys, none in common. The destination held a view of another buffer, which is gone. -/
example :
    let t : Ty := .struct false [.assoc false false none (.scalar .byte 1) (some (.optional true (.seq .view none Checks.chr))),
      .variant (.scalar .byte 1) [.num 0, .num 1] [true, true] [.seq .view none Checks.chr, Checks.str]]
    let r := decManyL 9 (Checks.le Checks.grow (.fixed 1)) (oneBuffer [2, 9, 1, 1, 65, 5, 1, 2, 66, 67, 0, 1, 68]) 0
      [(t, .list [.list [], .alt 0 (.view ⟨7, 3, 3⟩)])] 0
    r.s = .ok ∧ r.p = 13 ∧ placesAll r.vs = [⟨0, 8, 2⟩, ⟨0, 4, 1⟩, ⟨0, 12, 1⟩] := by decide +kernel

/-- A failed read keeps the view of the other buffer in the object behind the failure. -/
example :
    let r := decManyL 9 (Checks.le Checks.grow (.fixed 1)) (oneBuffer [1, 65, 5]) 0
      [(.seq .view none Checks.chr, .list []), (.seq .view none Checks.chr, .view ⟨7, 3, 3⟩)] 0
    r.s = .err .resultOutOfRange ∧ placesAll r.vs = [⟨0, 1, 1⟩, ⟨7, 3, 3⟩] := by decide +kernel

/-- The hypotheses of `C90_shares` are met by the second object of the first example of this file, inside an optional. -/
example : ViewObject (fun _ => .empty) (.struct false [Checks.str, .optional true (.seq .view none Checks.chr)])
    (.list [.list [], .some (.view ⟨0, 1, 2⟩)]) (.view ⟨0, 1, 2⟩) :=
  .member 1 rfl rfl (.optional (.here (.inr rfl)))

/-- A span of bytes over a buffer shared with an output archive with a fixed buffer: read behind the writer, then the writer
goes on. The view stays as it was; read in front of the writer (`p' ≤ x.wpos` fails), it would change. -/
example :
    let c := Checks.le Checks.fixed (.fixed 1)
    let t : Ty := .seq .view none (.scalar .byte 1)
    let r := decManyL 9 c (oneBuffer [1, 7, 0, 0]) 0 [(t, .list [])] 0
    let y := (Duplex.run 9 c false [.write [(.scalar .int 2, .num 258)]] ⟨[1, 7, 0, 0], 2, 2⟩).2
    r.s = .ok ∧ r.p = 2 ∧ y.data = [1, 7, 2, 1] ∧ r.vs.map (LVal.look (oneBuffer y.data)) = [viewOf [7]] ∧
    (Duplex.run 9 c false [.write [(.scalar .int 2, .num 258)]] ⟨[1, 7, 0, 0], 0, 2⟩).2.data = [2, 1, 0, 0] ∧
    r.vs.map (LVal.look (oneBuffer [2, 1, 0, 0])) = [viewOf [1]] := by decide +kernel

/-- `C90_kept` applies: the input before and behind the bytes read is overwritten, and the buffer has grown. -/
example (m' : Memory) (h : m' 0 = [0, 2, 65, 66, 0, 0]) : m'.bytes ⟨0, 2, 2⟩ = [65, 66] ∧
    (decManyL 9 (Checks.le Checks.grow (.fixed 1)) (oneBuffer [9, 2, 65, 66, 77]) 0
        [(.seq .view none Checks.chr, .list [])] 1).vs.map (LVal.look m') = [viewOf [65, 66]] :=
  ⟨by simp [Memory.bytes, h], by
    refine (C90_kept 9 (Checks.le Checks.grow (.fixed 1)) (oneBuffer [9, 2, 65, 66, 77]) m' 0
      [(.seq .view none Checks.chr, .list [])] 1 4 _ so_abi (fun _ => rfl) (fun it h => by
        rw [List.mem_singleton] at h; subst h; rfl) (by decide) rfl (by rw [h]; decide)).trans ?_
    decide +kernel⟩

/-- Types without views. -/
example : viewFree (.struct false [Checks.str, .optional true (.assoc true true none Checks.i32 (some Checks.str))]) = true ∧
    viewFree (.struct false [Checks.str, .optional true (.seq .view none Checks.chr)]) = false := by decide

end Zpp.Props
