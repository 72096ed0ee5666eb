import Verif.Spec.KnownId
import Verif.Props.RoundTrip
/-!
# Variants with a known id
-/

namespace Zpp.Props
open Zpp Zpp.Spec

/-- C50, writing. A call with known ids behaves exactly (outcome, buffer, position) like the call in which every variant
with known id is replaced by the object it holds: the id is not written. -/
theorem C50_id_omitted (d : Nat) (c : Cfg) (noFit : Bool) (args : List Arg) (items : List (Ty × Val)) (st : OutSt)
    (h : StandsAll args items) : outArgs d c noFit args st = outCall d c noFit items st := by
  have key : encArgs d c args = encMany d c items := by
    clear st
    induction h with
    | nil => rfl
    | cons h _ ih =>
      rw [encArgs, ih]
      cases h with
      | obj t v => rfl
      | known v hn hi ht =>
        have := findId_nodup hn 0 hi
        simp only [Nat.add_zero] at this
        simp [encArg, this, ht, encMany]
  unfold outArgs outCall
  rw [key]

/-- An alternative with another id, and objects before and behind. -/
example : StandsAll
    [.obj .bool (.num 1), .known (.num 7) [.num 5, .num 7] [true, false] [.bool, .scalar .int 2] (.alt 1 (.num 258))]
    [(.bool, .num 1), (.scalar .int 2, .num 258)] ∧
    outArgs 9 (Checks.le Checks.grow (.fixed 4)) false
      [.obj .bool (.num 1), .known (.num 7) [.num 5, .num 7] [true, false] [.bool, .scalar .int 2] (.alt 1 (.num 258))]
      ⟨[], 0⟩ = (.ok, ⟨[1, 2, 1], 3⟩) :=
  ⟨.cons (.obj _ _) (.cons (.known (i := 1) _ (by decide) rfl rfl) .nil), by decide +kernel⟩

/-- C50: the bytes of a variant are the bytes of its id followed by the bytes written with the known id. -/
theorem C50_variant_is_id_then_known (f : Fmt) (idTy : Ty) (ids : List Val) (dcs : List Bool) (alts : List Ty) (i : Nat)
    (id v : Val) (t : Ty) (bs : List UInt8) (hi : ids[i]? = some id) (ht : alts[i]? = some t)
    (h : wireItems f [(.variant idTy ids dcs alts, .alt i v)] = some bs) :
    ∃ p q, wireId f idTy id = some p ∧ wireItems f [(t, v)] = some q ∧ bs = p ++ q := by
  simp only [wireItems, wire, hi, ht, cat_eq_some] at h
  obtain ⟨a, b, ⟨p, q, hp, hq, rfl⟩, hb, rfl⟩ := h
  cases hb
  exact ⟨p, q, hp, by simp [wireItems, hq, cat], by simp⟩

example : wireItems (fmtOf (Checks.le Checks.grow (.fixed 4)))
    [(.variant (.scalar .int 4) [.num 5, .num 7] [true, false] [.bool, .scalar .int 2], .alt 1 (.num 258))] =
    some ([7, 0, 0, 0] ++ [2, 1]) := by decide +kernel

theorem inArgs_eq {d : Nat} {c : Cfg} {data : List UInt8} (ha : AbiOk c.sizeof) (he : EnvGood c)
    (hlen : data.length < 2 ^ 64) {dests args : List Arg} {xs : List Val} {items : List (Ty × Val)}
    (hr : ReadsAll dests args xs) (h : StandsAll args items) :
    ∀ bs, wireItems (fmtOf c) items = some bs → (∀ x ∈ items, Good c x.1 = true) →
      (∀ x ∈ items, Loadable c x.1 x.2) → StackOk d items →
      ∀ (p : Nat) (rest : List UInt8), p ≤ data.length → data.drop p = bs ++ rest →
      inArgs d c data dests p = ⟨.ok, xs, p + bs.length⟩ := by
  induction hr generalizing items with
  | nil =>
    cases h
    intro bs hw _ _ _ p rest _ _
    cases hw
    rfl
  | @cons a w x as ws xs hx _ ih =>
    cases h with
    | @cons _ y _ ys hy hys =>
    obtain ⟨t, v⟩ := y
    intro bs hw hg hl hd p rest hp hdr
    simp only [wireItems, cat_eq_some] at hw
    obtain ⟨b1, b2, hb1, hb2, rfl⟩ := hw
    have hgt := hg (t, v) (by simp)
    have hlt := hl (t, v) (by simp)
    have hdt := hd (t, v) (by simp)
    have key : ∀ old, decode d c t old data p = ⟨.ok, v, p + b1.length⟩ := fun old =>
      (decode_round d c ha he).1 data hlen t v b1 hgt hb1 hlt (by simp only at hdt; split <;> omega) old p (b2 ++ rest) hp
        (by rw [hdr]; simp)
    have hstep : decArg d c data a p = ⟨.ok, x, p + b1.length⟩ := by
      cases hx with
      | obj => cases hy; simp only [decArg, key]
      | known hi hdc =>
        cases hy with
        | known _ hn _ ht =>
          have := findId_nodup hn 0 hi
          simp only [Nat.add_zero] at this
          simp [decArg, decKnown, decAlt, this, ht, hdc, key]
      | @knownDyn _ _ _ _ i _ old dc hi hdc =>
        cases hy with
        | known _ hn _ ht =>
          have := findId_nodup hn 0 hi
          simp only [Nat.add_zero] at this
          cases dc <;> simp [decArg, decAlt, this, ht, hdc, key]
    have hlen' : p + (b1.length + b2.length) ≤ data.length := by
      have := congrArg List.length hdr
      simp at this; omega
    have h2 := ih hys b2 hb2 (fun x hx => hg x (by simp [hx])) (fun x hx => hl x (by simp [hx]))
      (fun x hx => hd x (by simp [hx])) (p + b1.length) rest (by omega)
      (by rw [← List.drop_drop, hdr, List.append_assoc, List.drop_left])
    simp only [inArgs, hstep, h2, List.length_append]
    simp [Nat.add_assoc]

/-- C50, round trip, weaker than stated: what a successful call with known ids wrote is read back by a call with the
same known ids, given at compile time or at run time, whatever the destinations held before. Missing: reading with a
compile-time id an alternative that is not default constructible; there the reader runs off the end of a function
(`C50_static_undefined`). -/
theorem C50_round_trip_partial (d d' : Nat) (co ci : Cfg) (noFit : Bool) (args dests : List Arg) (xs : List Val)
    (items : List (Ty × Val)) (st st' : OutSt) (bs : List UInt8) (hf : fmtOf ci = fmtOf co)
    (h : StandsAll args items) (hr : ReadsAll dests args xs)
    (hpos : st.pos ≤ st.data.length) (hlen : st.data.length < 2 ^ 63)
    (hs : Supported co items) (hd : StackOk d items) (hb : BitsOk items st)
    (hw : wireItems (fmtOf co) items = some bs) (hl : bs.length < 2 ^ 63)
    (hok : outArgs d co noFit args st = (.ok, st'))
    (hrd : Readable ci items) (hd' : StackOk d' items) :
    inArgs d' ci st'.data dests st.pos = ⟨.ok, xs, st'.pos⟩ := by
  rw [C50_id_omitted d co noFit args items st h] at hok
  obtain ⟨h1, k, h2⟩ := C04_growing_appends d co noFit items st st' bs hpos hlen hs hd hb hw hl hok
  have hv := (outCall_safe d co hs.growth noFit items st ⟨hpos, hlen⟩).valid hs.growth ⟨hpos, hlen⟩
  rw [hok] at hv
  have := hv.len_lt
  simp only at this
  rw [h1]
  refine inArgs_eq hrd.abi hrd.env (by omega) hr h bs (by rw [hf]; exact hw) hrd.types hrd.load hd' st.pos
    (st.data.drop (st.pos + bs.length) ++ List.replicate k 0) ?_ ?_
  · rw [h2]; simp; omega
  · rw [h2, List.append_assoc, List.append_assoc, List.drop_append_of_le_length (by simp; omega)]
    rw [List.drop_eq_nil_of_le (by simp; omega)]
    simp

/-- The variant of the example above, read into a variant holding another alternative: with the compile-time id, and an
alternative without default constructor with the run time id. -/
example :
    let c := Checks.le Checks.grow (.fixed 4)
    let w : List Arg := [.known (.num 5) [.num 5, .num 7] [true, false] [.bool, .scalar .int 2] (.alt 0 (.num 1)),
      .known (.num 7) [.num 5, .num 7] [true, false] [.bool, .scalar .int 2] (.alt 1 (.num 258))]
    let r : List Arg := [.known (.num 5) [.num 5, .num 7] [true, false] [.bool, .scalar .int 2] (.alt 1 (.num 9)),
      .knownDyn (.num 7) [.num 5, .num 7] [true, false] [.bool, .scalar .int 2] .valueless]
    ReadsAll r w [.alt 0 (.num 1), .alt 1 (.num 258)] ∧
    outArgs 9 c false w ⟨[], 0⟩ = (.ok, ⟨[1, 2, 1], 3⟩) ∧
    inArgs 9 c [1, 2, 1] r 0 = ⟨.ok, [.alt 0 (.num 1), .alt 1 (.num 258)], 3⟩ :=
  ⟨.cons (.known rfl rfl) (.cons (.knownDyn rfl rfl) .nil), by decide +kernel, by decide +kernel⟩

/-- C50, run time ids from anywhere: an id no alternative has is `bad_message`; nothing is read and the variant is left
alone. -/
theorem C50_unknown_id (d : Nat) (c : Cfg) (data : List UInt8) (id : Val) (ids : List Val) (dcs : List Bool)
    (alts : List Ty) (old : Val) (rest : List Arg) (p : Nat) (h : id ∉ ids) :
    inArgs d c data (.knownDyn id ids dcs alts old :: rest) p =
      ⟨.err .badMessage, old :: rest.map Arg.val, p⟩ := by
  have : ∀ k, findId id ids k = none := by
    induction ids with
    | nil => intro k; rfl
    | cons x xs ih =>
      intro k
      simp only [List.mem_cons, not_or] at h
      have hx : ¬ x = id := fun e => h.1 e.symm
      simp [findId, hx, ih h.2]
  simp [inArgs, decArg, this]

example : inArgs 9 (Checks.le Checks.grow (.fixed 4)) [1, 2, 3]
    [.knownDyn (.num 6) [.num 5, .num 7] [true, false] [.bool, .scalar .int 2] (.alt 0 (.num 1))] 0 =
    ⟨.err .badMessage, [.alt 0 (.num 1)], 0⟩ := by decide +kernel

/-- C50, any input. Reading with known ids ends exactly (outcome and position) as reading the alternatives with these
ids as objects: no id is looked for in the input. After success, the variants hold these alternatives. Not covered: a
compile-time id of an alternative without default constructor (`C50_static_undefined`). -/
theorem C50_input_partial (d : Nat) (c : Cfg) (data : List UInt8) (dests : List Arg) (items : List (Ty × Val))
    (h : FromAll (dflt c d) dests items) (p : Nat) :
    let r := decMany d c data items p
    (inArgs d c data dests p).s = r.s ∧ (inArgs d c data dests p).p = r.p ∧
      (r.s = .ok → (inArgs d c data dests p).vs = List.zipWith holds dests r.vs) := by
  have hidx : ∀ {ids : List Val} {i : Nat} {id : Val}, nodup ids = true → ids[i]? = some id → ids.idxOf id = i := by
    intro ids
    induction ids with
    | nil => intro i id _ hi; simp at hi
    | cons x xs ih =>
      intro i id hn hi
      simp only [nodup, Bool.and_eq_true, Bool.not_eq_true'] at hn
      cases i with
      | zero => simp only [List.getElem?_cons_zero, Option.some.injEq] at hi; subst hi; simp
      | succ i =>
        simp only [List.getElem?_cons_succ] at hi
        have hm : id ∈ xs := List.mem_of_getElem? hi
        have hne : ¬ x = id := by
          rintro rfl
          have := hn.1
          simp_all
        have hb : (x == id) = false := beq_eq_false_iff_ne.mpr hne
        rw [List.idxOf_cons, hb, ih hn.2 hi]
        rfl
  have key : ∀ {a : Arg} {t : Ty} {v : Val}, From (dflt c d) a t v → ∀ p,
      (decArg d c data a p).s = (decode d c t v data p).s ∧ (decArg d c data a p).p = (decode d c t v data p).p ∧
      ((decode d c t v data p).s = .ok → (decArg d c data a p).v = holds a (decode d c t v data p).v) := by
    intro a t v hf p
    cases hf with
    | obj => exact ⟨rfl, rfl, fun _ => rfl⟩
    | held _ hn hi ht hdc =>
      have := findId_nodup hn 0 hi
      simp only [Nat.add_zero] at this
      simp [decArg, decKnown, decAlt, this, ht, hdc, holds, hidx hn hi]
    | other old hn hi ht hdc ho =>
      have := findId_nodup hn 0 hi
      simp only [Nat.add_zero] at this
      simp only [decArg, this, ht, hdc, decKnown, decAlt, if_true, holds, hidx hn hi]
      cases old with
      | alt j w =>
        have hj : ¬ j = _ := fun e => ho w (e ▸ rfl)
        simp only [if_neg hj]
        exact ⟨trivial, trivial, fun _ => trivial⟩
      | _ => exact ⟨rfl, rfl, fun _ => rfl⟩
    | heldDyn _ hn hi ht hdc =>
      have := findId_nodup hn 0 hi
      simp only [Nat.add_zero] at this
      simp [decArg, decAlt, this, ht, hdc, holds, hidx hn hi]
    | @otherDyn id ids dcs alts i t dc old hn hi ht hdc ho =>
      have := findId_nodup hn 0 hi
      simp only [Nat.add_zero] at this
      simp only [decArg, this, ht, hdc, decAlt, holds, hidx hn hi]
      cases dc with
      | true =>
        simp only [if_true]
        cases old with
        | alt j w =>
          have hj : ¬ j = i := fun e => ho rfl w (e ▸ rfl)
          simp only [if_neg hj]
          exact ⟨trivial, trivial, fun _ => trivial⟩
        | _ => exact ⟨rfl, rfl, fun _ => rfl⟩
      | false =>
        simp only [Bool.false_eq_true, if_false]
        generalize decode d c t (dflt c d t) data p = r
        obtain ⟨s, v, p'⟩ := r
        cases s <;> simp
  induction h generalizing p with
  | nil => exact ⟨rfl, rfl, fun _ => rfl⟩
  | @cons a t v as xs hf _ ih =>
    obtain ⟨h1, h2, h3⟩ := key hf p
    simp only [inArgs, decMany]
    generalize decArg d c data a p = ra at h1 h2 h3
    generalize decode d c t v data p = rb at h1 h2 h3
    obtain ⟨s, va, pa⟩ := ra
    obtain ⟨s', vb, pb⟩ := rb
    simp only at h1 h2 h3
    subst h1 h2
    cases s with
    | ok =>
      obtain ⟨i1, i2, i3⟩ := ih pa
      exact ⟨i1, i2, fun hs => by simp only [List.zipWith_cons_cons]; rw [h3 rfl, i3 hs]⟩
    | _ => exact ⟨rfl, rfl, fun hs => by cases hs⟩

/-- Truncated input: the second byte of the integer is missing. -/
example :
    let c := Checks.le Checks.grow (.fixed 4)
    let r : List Arg := [.known (.num 5) [.num 5, .num 7] [true, false] [.bool, .scalar .int 2] (.alt 1 (.num 9)),
      .knownDyn (.num 7) [.num 5, .num 7] [true, false] [.bool, .scalar .int 2] .valueless]
    FromAll (dflt c 9) r [(.bool, dflt c 9 .bool), (.scalar .int 2, dflt c 9 (.scalar .int 2))] ∧
    inArgs 9 c [1, 2] r 0 = ⟨.err .resultOutOfRange, [.alt 0 (.num 1), .valueless], 1⟩ :=
  ⟨.cons (.other _ (by decide) (i := 0) rfl rfl rfl nofun)
    (.cons (.otherDyn _ (by decide) (i := 1) rfl rfl rfl nofun) .nil), by decide +kernel⟩

/-- C50 fails: reading with a compile-time id an alternative that has no default constructor. The object is read, but
the function that should report success ends without returning a value. -/
theorem C50_static_undefined :
    ∃ (id : Val) (ids : List Val) (dcs : List Bool) (alts : List Ty) (v : Val) (st : OutSt),
      let c := Checks.le Checks.grow (.fixed 4)
      outArgs 9 c false [.known id ids dcs alts v] ⟨[], 0⟩ = (.ok, st) ∧
      (inArgs 9 c st.data [.knownDyn id ids dcs alts .valueless] 0) = ⟨.ok, [v], st.pos⟩ ∧
      (inArgs 9 c st.data [.known id ids dcs alts .valueless] 0).s = .ub :=
  ⟨.num 1, [.num 0, .num 1], [true, false], [.bool, .scalar .int 2], .alt 1 (.num 258), ⟨[2, 1], 2⟩, by decide +kernel⟩

/-- Writing with the id of an alternative the variant does not hold dereferences a null pointer, for every variant and
every such id: naming the active alternative is a precondition the code does not check. -/
theorem C50_other_alternative_undefined (d : Nat) (c : Cfg) (noFit : Bool) (id : Val) (ids : List Val) (dcs : List Bool)
    (alts : List Ty) (i j : Nat) (v : Val) (rest : List Arg) (st : OutSt) (hn : nodup ids = true)
    (hi : ids[i]? = some id) (hl : ids.length = alts.length) (hij : j ≠ i)
    (hpos : st.pos ≤ st.data.length) :
    (outArgs d c noFit (.known id ids dcs alts (.alt j v) :: rest) st).1 = .ub ∧
    (outArgs d c noFit (.known id ids dcs alts .valueless :: rest) st).1 = .ub := by
  have h0 := findId_nodup hn 0 hi
  simp only [Nat.add_zero] at h0
  have hlt : i < alts.length := by
    obtain ⟨h, _⟩ := List.getElem?_eq_some_iff.mp hi; omega
  have ht : alts[i]? = some alts[i] := List.getElem?_eq_getElem hlt
  have key : ∀ w, (w = .alt j v ∨ w = .valueless) → encArgs d c (.known id ids dcs alts w :: rest) st = (.ub, st) := by
    intro w hw
    rcases hw with rfl | rfl <;> simp [encArgs, encArg, h0, ht, hij, OutM.andThen, OutM.fail]
  constructor
  all_goals
    unfold outArgs fitCall
    rw [key _ (by simp)]
    split
    · simp only
      split
      · split
        · omega
        · rfl
      · rfl
    · rfl

example : nodup [Val.num 0, .num 1] = true ∧ [Val.num 0, .num 1][1]? = some (.num 1) ∧
    (outArgs 9 (Checks.le Checks.grow (.fixed 4)) false
      [.known (.num 1) [.num 0, .num 1] [true, true] [.bool, .scalar .int 2] (.alt 0 (.num 1))] ⟨[], 0⟩).1 = .ub := by
  decide +kernel

end Zpp.Props
