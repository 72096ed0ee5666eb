import Verif.Props.Output2
import Verif.Proof.InRoundMain
import Verif.Proof.InCall
/-!
# Reading back what was written

`outCall` / `outCalls` write, `decMany` / `inCalls` read. The destinations `ds` of a read are given with the objects
they hold before; only their types matter.
-/

namespace Zpp.Props
open Zpp Zpp.Spec

/-- C10. Objects written by a successful call, read from the position where the call started by an archive of the
same format (byte order, default size type, class definitions; the host, `sizeof`, buffer kind, limits and stack may
differ): the call succeeds, gives exactly the objects written, whatever the destinations `ds` held before, and stops
where the writer stopped. -/
theorem C10_round_trip (d d' : Nat) (co ci : Cfg) (noFit : Bool) (items ds : List (Ty × Val)) (st st' : OutSt)
    (bs : List UInt8) (hf : fmtOf ci = fmtOf co)
    (hpos : st.pos ≤ st.data.length) (hlen : st.data.length < 2 ^ 63)
    (hs : Supported co items) (hd : StackOk d items) (hb : BitsOk items st)
    (hw : wireItems (fmtOf co) items = some bs) (hl : bs.length < 2 ^ 63)
    (hok : outCall d co noFit items st = (.ok, st'))
    (hr : Readable ci items) (hd' : StackOk d' items) (hds : ds.map Prod.fst = items.map Prod.fst) :
    decMany d' ci st'.data ds st.pos = ⟨.ok, items.map Prod.snd, st'.pos⟩ := by
  obtain ⟨h1, k, h2⟩ := C04_growing_appends d co noFit items st st' bs hpos hlen hs hd hb hw hl hok
  have hv := (outCall_safe d co hs.growth noFit items st ⟨hpos, hlen⟩).valid hs.growth ⟨hpos, hlen⟩
  rw [hok] at hv
  have := hv.len_lt
  simp only at this
  rw [h1]
  refine decMany_rd hr.abi hr.env (data := st'.data) (by omega) items ds bs (by rw [hf]; exact hw) hr.types hr.load hd' hds
    st.pos (st.data.drop (st.pos + bs.length) ++ List.replicate k 0) ?_ ?_
  · rw [h2]; simp; omega
  · rw [h2, List.append_assoc, List.append_assoc, List.drop_append_of_le_length (by simp; omega)]
    rw [List.drop_eq_nil_of_le (by simp; omega)]
    simp

/-- The hypotheses hold for a nested object written by an archive with a growing buffer behind some earlier bytes and
read on a host with other sizes and an allocation limit; the destination holds another object. -/
example :
    let co := Checks.le Checks.grow (.fixed 4)
    let ci := Checks.le { Checks.grow with limit := 100 } (.fixed 4)
    fmtOf ci = fmtOf co ∧ outCall 20 co false [(exTy, exVal)] ⟨[9, 9, 9], 2⟩ = (.ok, ⟨[9, 9] ++ exBytes, 24⟩) ∧
    Readable ci [(exTy, exVal)] ∧ StackOk 20 [(exTy, exVal)] ∧
    decMany 20 ci ([9, 9] ++ exBytes) [(exTy, .list [Checks.strV [1, 2, 3], .num 4, .list [], .valueless])] 2 =
      ⟨.ok, [exVal], 24⟩ := by
  refine ⟨rfl, by decide +kernel, ⟨so_abi, fun _ => ⟨rfl, rfl⟩, ?_, ?_⟩, ?_, by decide +kernel⟩
  · intro x hx; simp only [List.mem_singleton] at hx; subst hx; rfl
  · intro x hx
    simp only [List.mem_singleton] at hx; subst hx
    simp [exTy, exVal, Checks.str, Checks.strV, Loadable, LoadableF, LoadableL, Fits, Checks.le, Checks.grow, Checks.so,
      Checks.chr]
  · intro x hx; simp only [List.mem_singleton] at hx; subst hx; decide

/-- Without a buffer in between: the documented encoding, standing anywhere in an input, reads back as the object. -/
theorem C10_read_encoding (d : Nat) (c : Cfg) (items ds : List (Ty × Val)) (pre bs rest : List UInt8)
    (hlen : (pre ++ bs ++ rest).length < 2 ^ 64) (hw : wireItems (fmtOf c) items = some bs) (hr : Readable c items)
    (hd : StackOk d items) (hds : ds.map Prod.fst = items.map Prod.fst) :
    decMany d c (pre ++ bs ++ rest) ds pre.length = ⟨.ok, items.map Prod.snd, pre.length + bs.length⟩ :=
  decMany_rd hr.abi hr.env hlen items ds bs hw hr.types hr.load hd hds pre.length rest (by simp) (by simp)

/-! ## Streams of calls -/

theorem wireItems_append {f : Fmt} {xs ys : List (Ty × Val)} {bs : List UInt8}
    (h : wireItems f (xs ++ ys) = some bs) :
    ∃ a b, wireItems f xs = some a ∧ wireItems f ys = some b ∧ bs = a ++ b := by
  induction xs generalizing bs with
  | nil => exact ⟨[], bs, rfl, h, rfl⟩
  | cons x xs ih =>
    obtain ⟨t, v⟩ := x
    simp only [List.cons_append, wireItems, cat_eq_some] at h
    obtain ⟨p, q, hp, hq, rfl⟩ := h
    obtain ⟨a, b, ha, hb, rfl⟩ := ih hq
    exact ⟨p ++ a, b, by simp only [wireItems, hp, ha, cat], hb, by simp⟩

/-- Writing by several calls: what one call with all the items would write. -/
theorem outCalls_appends {d : Nat} {c : Cfg} {noFit : Bool} (calls : List (List (Ty × Val))) {st st' : OutSt}
    {bs : List UInt8} (hpos : st.pos ≤ st.data.length) (hlen : st.data.length < 2 ^ 63)
    (hs : Supported c calls.flatten) (hd : StackOk d calls.flatten) (hb : BitsOk calls.flatten st)
    (hw : wireItems (fmtOf c) calls.flatten = some bs) (hl : bs.length < 2 ^ 63)
    (hok : outCalls d c noFit calls st = (.ok, st')) :
    st'.pos = st.pos + bs.length ∧ st'.data.length < 2 ^ 63 ∧
    ∃ k, st'.data = st.data.take st.pos ++ bs ++ st.data.drop (st.pos + bs.length) ++ List.replicate k 0 := by
  induction calls generalizing st bs with
  | nil =>
    cases hw; cases hok
    refine ⟨rfl, hlen, 0, by simp⟩
  | cons items calls ih =>
    simp only [List.flatten_cons] at hs hd hb hw
    obtain ⟨a, b, ha, hb', rfl⟩ := wireItems_append hw
    simp only [List.length_append] at hl
    simp only [outCalls] at hok
    have hs1 : Supported c items := ⟨hs.growth, hs.abi, hs.env, fun x hx => hs.types x (by simp [hx])⟩
    have hs2 : Supported c calls.flatten := ⟨hs.growth, hs.abi, hs.env, fun x hx => hs.types x (List.mem_append_right _ hx)⟩
    have hd1 : StackOk d items := fun x hx => hd x (by simp [hx])
    have hd2 : StackOk d calls.flatten := fun x hx => hd x (List.mem_append_right _ hx)
    have hb1 : BitsOk items st := hb.imp (fun h x hx => h x (by simp [hx])) id
    cases hr : outCall d c noFit items st with
    | mk s st1 =>
      rw [hr] at hok
      cases s with
      | ok =>
        simp only at hok
        obtain ⟨h1, k, h2⟩ := C04_growing_appends d c noFit items st st1 a hpos hlen hs1 hd1 hb1 ha (by omega) hr
        have hv := (outCall_safe d c hs.growth noFit items st ⟨hpos, hlen⟩).valid hs.growth ⟨hpos, hlen⟩
        rw [hr] at hv
        have htake : st1.data.take (st.pos + a.length) = st.data.take st.pos ++ a := by
          rw [h2, List.append_assoc (_ ++ a), List.take_append_of_le_length (by simp; omega), List.take_of_length_le (by simp; omega)]
        have hdrop : ∀ n, st1.data.drop (st.pos + a.length + n) =
            (st.data.drop (st.pos + a.length) ++ List.replicate k 0).drop n := by
          intro n
          have : (st.data.take st.pos ++ a).length = st.pos + a.length := by simp; omega
          rw [← List.drop_drop, h2, List.append_assoc (_ ++ a), ← this, List.drop_left]
        have hb2 : BitsOk calls.flatten st1 := by
          refine hb.imp (fun h x hx => h x (List.mem_append_right _ hx)) ?_
          intro h x hx
          rw [h1] at hx
          have := hdrop 0
          simp only [Nat.add_zero, List.drop_zero] at this
          rw [this, List.mem_append] at hx
          rcases hx with hx | hx
          · exact h x (by rw [← List.drop_drop] at hx; exact List.mem_of_mem_drop hx)
          · exact (List.mem_replicate.mp hx).2
        obtain ⟨h3, h4, k', h5⟩ := ih hv.pos_le hv.len_lt hs2 hd2 hb2 hb' (by omega) hok
        refine ⟨by rw [h3, h1]; simp; omega, h4, ?_⟩
        refine ⟨(k - (b.length - (st.data.length - (st.pos + a.length)))) + k', ?_⟩
        rw [h5, h1, htake, hdrop, List.drop_append, List.drop_drop]
        simp [List.drop_replicate, Nat.add_assoc]
      | _ => simp at hok

/-- Reading by several calls: what one call with all the destinations would read. -/
theorem inCalls_flatten {d : Nat} {c : Cfg} {data : List UInt8} (calls : List (List (Ty × Val))) (p : Nat) :
    inCalls d c data calls p = decMany d c data calls.flatten p := by
  have happ : ∀ (xs ys : List (Ty × Val)) (p : Nat), decMany d c data (xs ++ ys) p =
      match decMany d c data xs p with
      | ⟨.ok, vs, p'⟩ => let r := decMany d c data ys p'; ⟨r.s, vs ++ r.vs, r.p⟩
      | ⟨s, vs, p'⟩ => ⟨s, vs ++ ys.map Prod.snd, p'⟩ := by
    intro xs
    induction xs with
    | nil => intro ys p; simp [decMany]
    | cons x xs ih =>
      intro ys p
      obtain ⟨t, o⟩ := x
      simp only [List.cons_append, decMany]
      generalize decode d c t o data p = r
      obtain ⟨s, v, p'⟩ := r
      cases s <;> simp only [ih]
      case ok =>
        generalize decMany d c data xs p' = r
        obtain ⟨s, vs, p''⟩ := r
        cases s <;> simp
      all_goals simp
  induction calls generalizing p with
  | nil => rfl
  | cons items calls ih =>
    simp only [inCalls, List.flatten_cons, happ, ih]
    generalize decMany d c data items p = r
    obtain ⟨s, vs, p'⟩ := r
    cases s <;> rfl

/-- C12. Reading any bytes into any destinations: how the destinations are grouped into calls makes no difference, to the outcome, the objects or
the position, also when a call fails (and no further call is made). -/
theorem C12_read_grouping (d : Nat) (c : Cfg) (data : List UInt8) (calls calls' : List (List (Ty × Val))) (p : Nat)
    (h : calls.flatten = calls'.flatten) : inCalls d c data calls p = inCalls d c data calls' p := by
  rw [inCalls_flatten, inCalls_flatten, h]

theorem encMany_append {d : Nat} {c : Cfg} (ys : List (Ty × Val)) : ∀ (xs : List (Ty × Val)) (st : OutSt),
    encMany d c (xs ++ ys) st = match encMany d c xs st with
      | (.ok, st') => encMany d c ys st'
      | r => r := by
  intro xs
  induction xs with
  | nil => intro st; rfl
  | cons x xs ih =>
    intro st
    obtain ⟨t, v⟩ := x
    simp only [List.cons_append, encMany, OutM.andThen]
    generalize encode d c t v st = r
    obtain ⟨s, st'⟩ := r
    cases s <;> simp only [ih]

/-- C12. Writing any objects into a buffer that does not grow, or into a growing one with `no_fit_size` or `exact_enlarger`: how the objects are grouped into calls
makes no difference, to the outcome, the buffer or the position, also when a call fails (and no further call is made). -/
theorem C12_write_grouping (d : Nat) (c : Cfg) (noFit : Bool) (calls calls' : List (List (Ty × Val))) (st : OutSt)
    (hfit : c.g.resizable = false ∨ noFit = true ∨ (c.g.mul = 1 ∧ c.g.div = 1)) (h : calls.flatten = calls'.flatten) :
    outCalls d c noFit calls st = outCalls d c noFit calls' st := by
  have e1 : ∀ items, outCall d c noFit items = encMany d c items := by
    intro items
    rcases hfit with hf | hf | hf
    · exact outCall_fixed hf
    · funext st; simp [outCall, fitCall, hf]
    · funext st; simp [outCall, fitCall, hf]
  have e2 : ∀ (calls : List (List (Ty × Val))) (st : OutSt), outCalls d c noFit calls st = encMany d c calls.flatten st := by
    intro calls
    induction calls with
    | nil => intro st; rfl
    | cons items calls ih =>
      intro st
      simp only [outCalls, List.flatten_cons, encMany_append, e1]
      generalize encMany d c items st = r
      obtain ⟨s, st'⟩ := r
      cases s <;> simp only [ih]
  rw [e2, e2, h]

/-- Grouped differently: two calls of one object each, or one call; here the second object does not fit. -/
example : outCalls 9 (Checks.le Checks.fixed (.fixed 4)) false [[(.scalar .int 2, .num 1)], [(.scalar .int 4, .num 2)]] ⟨[0, 0, 0], 0⟩ =
    (.err .resultOutOfRange, ⟨[1, 0, 0], 2⟩) ∧
    outCalls 9 (Checks.le Checks.fixed (.fixed 4)) false [[(.scalar .int 2, .num 1), (.scalar .int 4, .num 2)]] ⟨[0, 0, 0], 0⟩ =
    (.err .resultOutOfRange, ⟨[1, 0, 0], 2⟩) := by decide +kernel

/-- C12. Objects written by successive calls, grouped into calls in any way, and read back by successive calls grouped
in any other way (`reads` lists the destinations; the types must be the types written, in the same order): the bytes
written do not depend on the grouping, and the objects read are the objects written, in order. -/
theorem C12_streams (d d' : Nat) (co ci : Cfg) (noFit : Bool) (writes reads : List (List (Ty × Val))) (st st' : OutSt)
    (bs : List UInt8) (hf : fmtOf ci = fmtOf co)
    (hpos : st.pos ≤ st.data.length) (hlen : st.data.length < 2 ^ 63)
    (hs : Supported co writes.flatten) (hd : StackOk d writes.flatten) (hb : BitsOk writes.flatten st)
    (hw : wireItems (fmtOf co) writes.flatten = some bs) (hl : bs.length < 2 ^ 63)
    (hok : outCalls d co noFit writes st = (.ok, st')) :
    (st'.data.take st'.pos).drop st.pos = bs ∧
    (Readable ci writes.flatten → StackOk d' writes.flatten →
      reads.flatten.map Prod.fst = writes.flatten.map Prod.fst →
      inCalls d' ci st'.data reads st.pos = ⟨.ok, writes.flatten.map Prod.snd, st'.pos⟩) := by
  obtain ⟨h1, h2, k, h3⟩ := outCalls_appends writes hpos hlen hs hd hb hw hl hok
  have hdr : st'.data.drop st.pos = bs ++ (st.data.drop (st.pos + bs.length) ++ List.replicate k 0) := by
    rw [h3, List.append_assoc, List.append_assoc, List.drop_append_of_le_length (by simp; omega)]
    rw [List.drop_eq_nil_of_le (by simp; omega)]
    simp
  refine ⟨?_, ?_⟩
  · rw [h1, ← List.take_drop, hdr]
    simp
  · intro hr hd' hds
    rw [inCalls_flatten, h1]
    exact decMany_rd hr.abi hr.env (data := st'.data) (by omega) writes.flatten reads.flatten bs (by rw [hf]; exact hw)
      hr.types hr.load hd' hds st.pos _ (by rw [h3]; simp; omega) hdr

/-- Three objects, written by two calls and read by two calls split elsewhere. -/
example :
    let c := Checks.le Checks.grow (.fixed 1)
    let w : List (List (Ty × Val)) := [[(.scalar .int 2, .num 258)], [(Checks.str, Checks.strV [65]), (.bool, .num 1)]]
    let r : List (List (Ty × Val)) := [[(.scalar .int 2, .num 0), (Checks.str, .list [])], [(.bool, .num 0)]]
    outCalls 9 c false w ⟨[], 0⟩ = (.ok, ⟨[2, 1, 1, 65, 1], 5⟩) ∧
    inCalls 9 c [2, 1, 1, 65, 1] r 0 = ⟨.ok, [.num 258, Checks.strV [65], .num 1], 5⟩ := by decide +kernel

/-! ## Unique decodability -/

/-- C18. Two objects of one type, readable by some archive: if the encoding of one is a prefix of the encoding of the
other, the objects are equal and so are the encodings. -/
theorem C18_prefix_free (c : Cfg) (t : Ty) (v w : Val) (a b : List UInt8) (habi : AbiOk c.sizeof) (henv : EnvGood c)
    (hg : Good c t = true) (hv : Loadable c t v) (hw : Loadable c t w)
    (ha : wire (fmtOf c) t v = some a) (hb : wire (fmtOf c) t w = some b) (hl : b.length < 2 ^ 64)
    (hp : ∃ rest, b = a ++ rest) : v = w ∧ a = b := by
  obtain ⟨rest, hp⟩ := hp
  have h1 := (decode_round (2 * (depth v + depth w)) c habi henv).1 b hl t v a hg ha hv (by split <;> omega) .unit 0 rest
    (by omega) (by simpa using hp)
  have h2 := (decode_round (2 * (depth v + depth w)) c habi henv).1 b hl t w b hg hb hw (by split <;> omega) .unit 0 []
    (by omega) (by simp)
  rw [h1] at h2
  injection h2 with _ e1 e2
  refine ⟨e1, ?_⟩
  have : rest.length = 0 := by
    have := congrArg List.length hp
    simp only [List.length_append] at this
    omega
  rw [hp, List.eq_nil_of_length_eq_zero this, List.append_nil]

example :
    let c := Checks.le Checks.grow .varint
    Good c (.seq .vector none Checks.vint32) = true ∧ Loadable c (.seq .vector none Checks.vint32) (.list [.num 300]) ∧
    wire (fmtOf c) (.seq .vector none Checks.vint32) (.list [.num 300]) = some [1, 172, 2] := by
  refine ⟨by decide +kernel, ?_, by decide +kernel⟩
  simp [Loadable, LoadableL, Fits, Checks.le, Checks.grow, Checks.so, Checks.vint32]

end Zpp.Props
