import Verif.Proof.Own
import Verif.Props.Located
/-!
# Writing views
-/

namespace Zpp.Props
open Zpp Zpp.Spec

/-- C91, views of other buffers. Writing objects whose views show bytes of other buffers does what writing the objects does that
own these bytes: the same outcome, bytes, position, and size of the buffer. -/
theorem C91_other_buffers (d : Nat) (c : Cfg) (noFit : Bool) (m : Memory) (b cap : Nat) (items : List (Ty × LVal)) (st : OutSt)
    (hg : GrowthOk c.g) (hv : Valid st) (h : ∀ pl ∈ placesAll (items.map Prod.snd), Elsewhere m b pl) :
    outCallL d c noFit m b cap items st = outCall d c noFit (lookItems (m.with b st.data) items) st := by
  have ha := (agrees_many (O := False) (m := m) (b := b) (p0 := st.pos) (P := 0) (L := max cap st.data.length) (D := st.data) hv.pos_le (Nat.le_trans hv.pos_le (Nat.le_max_right _ _)) (d := d)
    hg items fun pl hp => .inr (h pl hp)).same st hv (Nat.le_refl _) ⟨rfl, fun h => h.elim⟩ False.elim
  unfold outCallL outCall fitCall lookItems
  rw [ha]

/-- C91, own buffer. Views may also show bytes of the archive's own buffer that it has already passed, or bytes of it that are at or
behind the position at which the call ends, if the call does not enlarge the buffer beyond its capacity. (If it does, the views
dangle: `C91_growing`. What views of bytes in between show changes during the call: `C91_in_front`.) -/
theorem C91_own_buffer_partial (d : Nat) (c : Cfg) (noFit : Bool) (m : Memory) (b cap : Nat) (items : List (Ty × LVal)) (st : OutSt)
    (hg : GrowthOk c.g) (hv : Valid st)
    (h : ∀ pl ∈ placesAll (items.map Prod.snd), Behind b st.pos pl ∨
      Ahead b (outCall d c noFit (lookItems (m.with b st.data) items) st).2.pos st.data.length pl ∨ Elsewhere m b pl)
    (hroom : (encMany d c (lookItems (m.with b st.data) items) st).2.data.length ≤ max cap st.data.length) :
    outCallL d c noFit m b cap items st = outCall d c noFit (lookItems (m.with b st.data) items) st := by
  rw [(outCall_state (d := d) hg noFit _ hv).1] at h
  have ha := (agrees_many (O := True) (m := m) (b := b) (p0 := st.pos) (P := (encMany d c (lookItems (m.with b st.data) items) st).2.pos)
    (L := max cap st.data.length) (D := st.data) hv.pos_le (Nat.le_trans hv.pos_le (Nat.le_max_right _ _)) (d := d)
    hg items fun pl hp => by
      rcases h pl hp with h | h | h
      · exact .inl ⟨trivial, .inl h⟩
      · exact .inl ⟨trivial, .inr h⟩
      · exact .inr h).same st hv (Nat.le_refl _) ⟨rfl, fun _ _ _ _ => rfl⟩ fun _ => ⟨hroom, Nat.le_refl _⟩
  unfold outCallL outCall fitCall lookItems
  rw [ha]

/-- C91, fixed buffers are never enlarged. -/
theorem C91_fixed (d : Nat) (c : Cfg) (noFit : Bool) (m : Memory) (b cap : Nat) (items : List (Ty × LVal)) (st : OutSt)
    (hfix : c.g.resizable = false) (hv : Valid st)
    (h : ∀ pl ∈ placesAll (items.map Prod.snd), Behind b st.pos pl ∨
      Ahead b (outCall d c noFit (lookItems (m.with b st.data) items) st).2.pos st.data.length pl ∨ Elsewhere m b pl) :
    outCallL d c noFit m b cap items st = outCall d c noFit (lookItems (m.with b st.data) items) st :=
  have hg : GrowthOk c.g := fun h => by rw [hfix] at h; cases h
  C91_own_buffer_partial d c noFit m b cap items st hg hv h (by
    rw [(encMany_safe d c hg _ st hv).fixed hfix]
    exact Nat.le_max_right _ _)

/-- C91, passing on. Over one fixed buffer with an input and an output archive: what was read from bytes already written, views of
this very buffer included, can be written again, together with other objects read in the same call; this appends what
appending copies of the objects would. -/
theorem C91_pass_on (d d' : Nat) (ci co : Cfg) (noFit : Bool) (m : Memory) (b cap : Nat) (items : List (Ty × LVal)) (vs : List LVal) (p p' : Nat)
    (st : OutSt) (hfix : co.g.resizable = false) (habi : AbiOk ci.sizeof) (henv : ∀ i, widthsOk (ci.env i) = true)
    (hw : ∀ it ∈ items, widthsOk it.1 = true) (hv : Valid st) (hm : m b = st.data) (hp : p ≤ st.data.length)
    (hok : decManyL d ci m b items p = ⟨.ok, vs, p'⟩) (hwritten : p' ≤ st.pos) :
    outCallL d' co noFit m b cap ((items.map Prod.fst).zip vs) st =
      outCall d' co noFit (lookItems m ((items.map Prod.fst).zip vs)) st := by
  have h := (C90_apart d ci m b items p p' vs habi henv hw (by rw [hm]; exact hp) hok).2.1
  have hmem : m.with b st.data = m := by
    funext i
    simp only [Memory.with]
    split
    · next hi => rw [hi, hm]
    · rfl
  have := C91_fixed d' co noFit m b cap ((items.map Prod.fst).zip vs) st hfix hv fun pl hpl => by
    obtain ⟨v, hv', hpl⟩ := mem_placesAll.mp hpl
    obtain ⟨⟨t, v'⟩, hx, rfl⟩ := List.mem_map.mp hv'
    obtain ⟨h1, _, h3⟩ := h pl (mem_placesAll.mpr ⟨v', (List.of_mem_zip hx).2, hpl⟩)
    exact .inl ⟨h1, Nat.le_trans h3 hwritten⟩
  rwa [hmem] at this

/-- C91, compacting. Over one fixed buffer, with an input archive ahead of an output archive: what was read, views of this very buffer
included, is written back further in front, if this ends at or in front of where reading began. This writes what copies of the
objects would have written. -/
theorem C91_compact (d d' : Nat) (ci co : Cfg) (noFit : Bool) (m : Memory) (b cap : Nat) (items : List (Ty × LVal)) (vs : List LVal) (p p' : Nat)
    (st : OutSt) (hfix : co.g.resizable = false) (habi : AbiOk ci.sizeof) (henv : ∀ i, widthsOk (ci.env i) = true)
    (hw : ∀ it ∈ items, widthsOk it.1 = true) (hv : Valid st) (hm : m b = st.data) (hp : p ≤ st.data.length)
    (hok : decManyL d ci m b items p = ⟨.ok, vs, p'⟩)
    (hahead : (outCall d' co noFit (lookItems m ((items.map Prod.fst).zip vs)) st).2.pos ≤ p) :
    outCallL d' co noFit m b cap ((items.map Prod.fst).zip vs) st =
      outCall d' co noFit (lookItems m ((items.map Prod.fst).zip vs)) st := by
  have h := (C90_apart d ci m b items p p' vs habi henv hw (by rw [hm]; exact hp) hok).2.1
  have hmem : m.with b st.data = m := by
    funext i
    simp only [Memory.with]
    split
    · next hi => rw [hi, hm]
    · rfl
  have hin : p' ≤ st.data.length := by
    rw [← hm]
    exact (C90_apart d ci m b items p p' vs habi henv hw (by rw [hm]; exact hp) hok).2.2
  have := C91_fixed d' co noFit m b cap ((items.map Prod.fst).zip vs) st hfix hv fun pl hpl => by
    rw [hmem]
    obtain ⟨v, hv', hpl⟩ := mem_placesAll.mp hpl
    obtain ⟨⟨t, v'⟩, hx, rfl⟩ := List.mem_map.mp hv'
    obtain ⟨h1, h2, h3⟩ := h pl (mem_placesAll.mpr ⟨v', (List.of_mem_zip hx).2, hpl⟩)
    exact .inr (.inl ⟨h1, Nat.le_trans hahead h2, Nat.le_trans h3 hin⟩)
  rwa [hmem] at this

theorem viewSource_outside {m : Memory} {b cap : Nat} {pl : Place} {st : OutSt}
    (hout : pl.buf ≠ b ∧ (m pl.buf).length < pl.off + pl.len ∨ pl.buf = b ∧ st.data.length < pl.off + pl.len) :
    viewSource m b cap pl st = none := by
  unfold viewSource
  rcases hout with ⟨h1, h2⟩ | ⟨h1, h2⟩
  · rw [if_neg h1, if_neg (by omega)]
  · rw [if_pos h1, if_neg (by omega)]

/-- C91, outside. Writing a view, not empty, of bytes that are not all in its buffer is undefined: in another buffer, or in an array or
span that the archive writes to. (Unless the call fails before it comes to the bytes, as it would for any string of this length.) -/
theorem C91_outside (d : Nat) (c : Cfg) (noFit : Bool) (m : Memory) (b cap : Nat) (sz : Option SizeTy) (t : Ty) (pl : Place)
    (str : List UInt8) (st : OutSt) (hg : GrowthOk c.g) (hv : Valid st) (ht : isViewElem t = true) (hlen : 0 < pl.len)
    (hout : pl.buf ≠ b ∧ (m pl.buf).length < pl.off + pl.len ∨
      pl.buf = b ∧ c.g.resizable = false ∧ st.data.length < pl.off + pl.len)
    (hstr : str.length = pl.len) (hok : (outCall d c noFit [(.seq .view sz t, viewOf str)] st).1 = .ok) :
    (outCallL d c noFit m b cap [(.seq .view sz t, .view pl)] st).1 = .ub := by
  have key : (encMany d c [(.seq .view sz t, viewOf str)] st).1 = .ok →
      (encManyL d c m b (max cap st.data.length) [(.seq .view sz t, .view pl)] st).1 = .ub ∧
      (encManyL d c m b (max cap st.data.length) [(.seq .view sz t, .view pl)] st).2.pos ≤
        (encManyL d c m b (max cap st.data.length) [(.seq .view sz t, .view pl)] st).2.data.length := by
    intro hok
    cases d with
    | zero => simp [encMany, encode, OutM.andThen, OutM.fail] at hok
    | succ d =>
      have hc : SeqKind.view ≠ .list ∧ asBytes c t = true := ⟨by simp, asBytes_viewElem ht⟩
      have hne : pl.len ≠ 0 := by omega
      simp only [encMany, encode, viewOf, if_pos hc, List.length_map, hstr, repAll_view c.host ht, encRep, putBytes, put] at hok
      simp only [encManyL, encodeL, ht, and_self, if_true, putView, if_neg hne]
      rw [if_neg hne] at hok
      have s1 := encHdr_safe hg (effSz c sz) pl.len st hv
      have v1 := s1.valid hg hv
      unfold OutM.andThen at hok ⊢
      generalize encHdr c (effSz c sz) pl.len st = r at s1 v1 hok
      obtain ⟨s, st1⟩ := r
      cases s
      case ok =>
        simp only [hstr] at hok ⊢
        obtain ⟨s2, -, -⟩ := claim_safe hg pl.len st1 v1
        generalize claim c.g pl.len st1 = r at s2 hok
        obtain ⟨s, st2⟩ := r
        cases s
        case ok =>
          simp only
          rw [viewSource_outside]
          · exact ⟨rfl, s2.inb⟩
          · rcases hout with h | ⟨h1, h2, h3⟩
            · exact .inl h
            · have e1 := s1.fixed h2
              have e2 := s2.fixed h2
              simp only at e1 e2
              exact .inr ⟨h1, by omega⟩
        all_goals simp at hok
      all_goals simp at hok
  unfold outCall fitCall at hok
  unfold outCallL fitCall
  split at hok
  · next hc =>
    rw [if_pos hc]
    have hok' : (encMany d c [(.seq .view sz t, viewOf str)] st).1 = .ok := by
      generalize encMany d c [(.seq .view sz t, viewOf str)] st = r at hok
      obtain ⟨s, st1⟩ := r
      cases s <;> simp only at hok <;> first | rfl | cases hok | (split at hok <;> first | cases hok | (split at hok <;> cases hok))
    obtain ⟨k1, k2⟩ := key hok'
    generalize encManyL d c m b (max cap st.data.length) [(.seq .view sz t, .view pl)] st = r at k1 k2
    obtain ⟨s, st1⟩ := r
    simp only at k1 k2
    subst k1
    simp only
    split
    · rw [if_neg (by omega)]
    · rfl
  · next hc => rw [if_neg hc]; exact (key hok).1

/-- C91 does not hold for growing buffers: a `string_view` read from a vector is appended to the same vector. The vector is enlarged
before the bytes are copied, and the view dangles. A copy of the string is appended as it should be. -/
theorem C91_growing :
    let c := Checks.le Checks.grow (.fixed 1)
    let t : Ty := .seq .view none Checks.chr
    let m := oneBuffer [2, 65, 66]
    let st : OutSt := ⟨[2, 65, 66], 3⟩
    (decManyL 9 c m 0 [(t, .list [])] 0).s = .ok ∧ placesAll (decManyL 9 c m 0 [(t, .list [])] 0).vs = [⟨0, 1, 2⟩] ∧
    (outCallL 9 c false m 0 3 [(t, .view ⟨0, 1, 2⟩)] st).1 = .ub ∧
    outCall 9 c false [(Checks.str, viewOf [65, 66])] st = (.ok, ⟨[2, 65, 66, 2, 65, 66], 6⟩) := by decide +kernel

/-- C91, bytes in front of the archive. If the view reaches into the bytes that are written, the outcome is undefined (overlapping
`memcpy`), or the view shows what was just written (here: the size prefix). A view right behind the bytes that are written is copied. -/
theorem C91_in_front :
    let c := Checks.le Checks.fixed (.fixed 1)
    let t : Ty := .seq .view none Checks.chr
    (outCallL 9 c false (oneBuffer []) 0 0 [(t, .view ⟨0, 1, 2⟩)] ⟨[9, 65, 66, 0, 0], 0⟩).1 = .ub ∧
    outCallL 9 c false (oneBuffer []) 0 0 [(t, .view ⟨0, 0, 1⟩)] ⟨[65, 66, 67], 0⟩ = (.ok, ⟨[1, 1, 67], 2⟩) ∧
    outCall 9 c false [(t, viewOf [65])] ⟨[65, 66, 67], 0⟩ = (.ok, ⟨[1, 65, 67], 2⟩) ∧
    outCallL 9 c false (oneBuffer []) 0 0 [(t, .view ⟨0, 3, 2⟩)] ⟨[9, 9, 9, 65, 66], 0⟩ = (.ok, ⟨[2, 65, 66, 65, 66], 3⟩) := by decide +kernel

/-- A class with an optional view of the archive's own fixed buffer, and a map of views of another buffer. -/
example :
    let c := Checks.le Checks.fixed (.fixed 1)
    let t : Ty := .struct false [.optional true (.seq .view none Checks.chr),
      .assoc false false none (.seq .view none Checks.chr) (some Checks.str)]
    let v : LVal := .list [.some (.view ⟨0, 1, 2⟩), .list [.list [.view ⟨5, 1, 1⟩, .list []]]]
    let m : Memory := fun i => if i = 5 then [70, 71] else []
    (∀ pl ∈ placesAll [v], Behind 0 3 pl ∨ Elsewhere m 0 pl) ∧
    outCallL 9 c false m 0 3 [(t, v)] ⟨[2, 65, 66] ++ List.replicate 8 0, 3⟩ =
      (.ok, ⟨[2, 65, 66, 1, 2, 65, 66, 1, 1, 71, 0], 11⟩) := by
  refine ⟨?_, by decide +kernel⟩
  intro pl h
  simp only [placesAll, placesOf, List.append_nil, List.nil_append, List.mem_append, List.mem_singleton] at h
  rcases h with rfl | rfl
  · exact .inl ⟨rfl, by decide⟩
  · exact .inr ⟨by decide, by decide⟩

/-- Compacting: a string view is read at 4 and written at 0, where this ends at 3. -/
example :
    let c := Checks.le Checks.fixed (.fixed 1)
    let t : Ty := .seq .view none Checks.chr
    let st : OutSt := ⟨[9, 9, 9, 9, 2, 65, 66, 0], 0⟩
    let m := oneBuffer st.data
    (decManyL 9 c m 0 [(t, .list [])] 4).s = .ok ∧ placesAll (decManyL 9 c m 0 [(t, .list [])] 4).vs = [⟨0, 5, 2⟩] ∧
    outCallL 9 c false m 0 0 [(t, .view ⟨0, 5, 2⟩)] st = (.ok, ⟨[2, 65, 66, 9, 2, 65, 66, 0], 3⟩) := by decide +kernel

/-- A view that ends behind the buffer. -/
example :
    let c := Checks.le Checks.fixed (.fixed 1)
    let t : Ty := .seq .view none Checks.chr
    (outCall 9 c false [(t, viewOf [65, 66])] ⟨[0, 0, 0, 0], 0⟩).1 = .ok ∧
    (outCallL 9 c false (oneBuffer []) 0 0 [(t, .view ⟨0, 3, 2⟩)] ⟨[0, 0, 0, 0], 0⟩).1 = .ub := by decide +kernel

/-- Spare room in a growing buffer is enough for `C91_own_buffer_partial`. -/
example :
    let c := Checks.le Checks.grow (.fixed 1)
    let t : Ty := .seq .view none Checks.chr
    let st : OutSt := ⟨[2, 65, 66, 0, 0, 0, 0], 3⟩
    (encMany 9 c (lookItems ((oneBuffer []).with 0 st.data) [(t, .view ⟨0, 1, 2⟩)]) st).2.data.length = st.data.length ∧
    outCallL 9 c false (oneBuffer []) 0 0 [(t, .view ⟨0, 1, 2⟩)] st = (.ok, ⟨[2, 65, 66, 2, 65, 66, 0], 6⟩) := by decide +kernel

end Zpp.Props
