import Verif.Props.RoundTrip
import Verif.Props.Input
import Verif.Proof.Assoc
/-!
# Consequences of the round trip: truncation, byte order, `optional_ptr`, protobuf, maps, trees
-/

namespace Zpp.Props
open Zpp Zpp.Spec

theorem onward_inv {d : Nat} {c : Cfg} {noFit : Bool} {q : Nat} (hg : GrowthOk c.g) {a b : OutSt}
    (h : Onward d c noFit q a b) (hv : Valid a) (hq : q ≤ a.pos) :
    Valid b ∧ q ≤ b.pos ∧ b.data.take q = a.data.take q := by
  induction h with
  | init => exact ⟨hv, hq, rfl⟩
  | call items _ ih =>
    obtain ⟨v, i0, i1⟩ := ih
    have s := outCall_safe d c hg noFit items _ v
    refine ⟨s.valid hg v, Nat.le_trans i0 s.mono, ?_⟩
    have hk := congrArg (List.take q) s.keep
    rw [List.take_take, List.take_take, Nat.min_eq_left i0] at hk
    rw [hk, i1]
  | seek p _ h1 h2 ih =>
    obtain ⟨v, i0, i1⟩ := ih
    exact ⟨⟨h2, v.len_lt⟩, h1, i1⟩

/-- C51. Objects written by a successful call can be read back after any further history: calls of any objects, also
failing ones, and repositionings, as long as none goes in front of the end of these objects. -/
theorem C51_still_readable (d d' : Nat) (co ci : Cfg) (noFit : Bool) (items ds : List (Ty × Val)) (st st' b : OutSt)
    (bs : List UInt8) (hf : fmtOf ci = fmtOf co)
    (hpos : st.pos ≤ st.data.length) (hlen : st.data.length < 2 ^ 63)
    (hs : Supported co items) (hd : StackOk d items) (hb : BitsOk items st)
    (hw : wireItems (fmtOf co) items = some bs) (hl : bs.length < 2 ^ 63)
    (hok : outCall d co noFit items st = (.ok, st')) (hist : Onward d co noFit st'.pos st' b)
    (hr : Readable ci items) (hd' : StackOk d' items) (hds : ds.map Prod.fst = items.map Prod.fst) :
    decMany d' ci b.data ds st.pos = ⟨.ok, items.map Prod.snd, st'.pos⟩ := by
  obtain ⟨h1, k, h2⟩ := C04_growing_appends d co noFit items st st' bs hpos hlen hs hd hb hw hl hok
  have hv := (outCall_safe d co hs.growth noFit items st ⟨hpos, hlen⟩).valid hs.growth ⟨hpos, hlen⟩
  rw [hok] at hv
  obtain ⟨v, -, hkeep⟩ := onward_inv hs.growth hist hv (Nat.le_refl _)
  have hbl := v.len_lt
  have hsplit : b.data = st.data.take st.pos ++ bs ++ b.data.drop st'.pos := by
    have : st'.data.take st'.pos = st.data.take st.pos ++ bs := by
      rw [h1, h2, List.append_assoc _ _ (List.replicate k 0)]
      exact List.take_left' (by simp; omega)
    rw [← this, ← hkeep, List.take_append_drop]
  have hp : (st.data.take st.pos).length = st.pos := by simp; omega
  have h := C10_read_encoding d' ci items ds (st.data.take st.pos) bs (b.data.drop st'.pos)
    (by rw [← hsplit]; omega) (by rw [hf]; exact hw) hr hd' hds
  rw [← hsplit, hp] at h
  rw [h, h1]

/-- Three objects: one of 2 bytes, one that does not fit, one of 4 bytes written further on. -/
example : ∃ b : OutSt,
    let c := Checks.le Checks.fixed (.fixed 4)
    outCall 20 c false [(.scalar .int 2, .num 258)] ⟨List.replicate 8 7, 1⟩ = (.ok, ⟨[7, 2, 1, 7, 7, 7, 7, 7], 3⟩) ∧
    Onward 20 c false 3 ⟨[7, 2, 1, 7, 7, 7, 7, 7], 3⟩ b ∧ b.data = [7, 2, 1, 2, 9, 0, 0, 0] ∧
    decMany 20 c b.data [(.scalar .int 2, .num 0)] 1 = ⟨.ok, [.num 258], 3⟩ := by
  refine ⟨_, by decide +kernel, ((Onward.init _).call [(.array 2 (.scalar .int 1), .list [.num 2, .num 0]), (.scalar .int 8, .num 5)]
    |>.seek 4 (by omega) (by decide +kernel)).call [(.scalar .int 4, .num 9)], by decide +kernel, by decide +kernel⟩

/-- C14. Every proper prefix of the encoding of some objects is rejected with `result_out_of_range`. -/
theorem C14_encoding_truncated (d : Nat) (c : Cfg) (items ds : List (Ty × Val)) (pre bs : List UInt8) (n : Nat)
    (hlen : (pre ++ bs).length < 2 ^ 64) (hw : wireItems (fmtOf c) items = some bs) (hr : Readable c items)
    (henv : ∀ i, widthsOk (c.env i) = true ∧ selfDelimiting c.dsz (c.env i) = true)
    (hty : ∀ it ∈ items, widthsOk it.1 = true ∧ selfDelimiting c.dsz it.1 = true)
    (hd : StackOk d items) (hds : ds.map Prod.fst = items.map Prod.fst) (hn : n < bs.length) :
    (decMany d c (pre ++ bs.take n) ds pre.length).s = .err .resultOutOfRange := by
  have h := C10_read_encoding d c items items pre bs [] (by simpa using hlen) hw hr hd rfl
  rw [List.append_nil] at h
  have h2 := C14_truncated d c (pre ++ bs) items pre.length hr.abi henv hty (by simp) (by rw [h]) (pre.length + n) (by omega)
    (by rw [h]; simp; omega) ds hds
  rw [List.take_append, List.take_of_length_le (by omega)] at h2
  simpa using h2

/-- C26, input. What one host wrote with a byte order option is read back on any other host given the same options. -/
theorem C26_cross_host (d₁ d₂ : Nat) (h₁ h₂ : Host) (r₁ r₂ : Bool) (opts : List Opt) (e : Endian)
    (noFit : Bool) (items ds : List (Ty × Val)) (st st' : OutSt) (bs : List UInt8)
    (hm : Opt.endian e ∈ opts) (ho : ∀ e', Opt.endian e' ∈ opts → e' = e) (henv : h₁.env = h₂.env)
    (hpos : st.pos ≤ st.data.length) (hlen : st.data.length < 2 ^ 63)
    (hs : Supported (cfgOf h₁ r₁ opts) items) (hd₁ : StackOk d₁ items) (hb : BitsOk items st)
    (hw : wireItems ⟨e, getDefaultSizeType opts, h₁.env⟩ items = some bs) (hl : bs.length < 2 ^ 63)
    (hok : outCall d₁ (cfgOf h₁ r₁ opts) noFit items st = (.ok, st'))
    (hr : Readable (cfgOf h₂ r₂ opts) items) (hd₂ : StackOk d₂ items) (hds : ds.map Prod.fst = items.map Prod.fst) :
    decMany d₂ (cfgOf h₂ r₂ opts) st'.data ds st.pos = ⟨.ok, items.map Prod.snd, st'.pos⟩ := by
  have f₁ : fmtOf (cfgOf h₁ r₁ opts) = ⟨e, getDefaultSizeType opts, h₁.env⟩ := by
    have := C48_byte_order_option h₁ r₁ opts e hm ho
    rw [← this]; rfl
  have f₂ : fmtOf (cfgOf h₂ r₂ opts) = ⟨e, getDefaultSizeType opts, h₁.env⟩ := by
    have := C48_byte_order_option h₂ r₂ opts e hm ho
    rw [← this, henv]; rfl
  exact C10_round_trip d₁ d₂ _ _ noFit items ds st st' bs (by rw [f₁, f₂]) hpos hlen hs hd₁ hb (by rw [f₁]; exact hw) hl
    hok hr hd₂ hds

example :
    let h (e : Endian) : Host := ⟨e, 2 ^ 40, Checks.so, fun _ => .empty, Checks.numLt⟩
    let ds : List (Ty × Val) := [(.scalar .int 4, .num 0), (Checks.str, Checks.strV [])]
    let bs : List UInt8 := [1, 2, 3, 4, 0, 0, 0, 1, 65]
    decMany 9 (cfgOf (h .little) true [.endian .big]) bs ds 0 = ⟨.ok, [.num 0x01020304, Checks.strV [65]], 9⟩ ∧
    decMany 9 (cfgOf (h .big) true [.endian .big]) bs ds 0 = ⟨.ok, [.num 0x01020304, Checks.strV [65]], 9⟩ := by
  decide +kernel

/-! ## `optional_ptr` -/

/-- C27, input. On any bytes, `optional_ptr<T>` and `optional<T>` are read with the same outcome, the same number of
bytes and, on success, the same value, whatever they held before. -/
theorem C27_same_input (d : Nat) (c : Cfg) (dc : Bool) (t : Ty) (old old' : Val) (data : List UInt8) (p : Nat)
    (habi : AbiOk c.sizeof) (henv : ∀ i, oldFree c.dsz (c.env i) = true) (ht : oldFree c.dsz t = true) :
    let r := decode d c (.optPtr t) old data p
    let r' := decode d c (.optional dc t) old' data p
    r.s = r'.s ∧ r.p = r'.p ∧ (r.s = .ok → r.v = r'.v) := by
  cases d with
  | zero => simp [decode]
  | succ d =>
    simp only [decode]
    generalize getBytes data p 1 = g
    obtain ⟨s, bs, p1⟩ := g
    cases s <;> simp only
    case ok =>
      by_cases hz : leNat bs = 0
      · simp [hz]
      · simp only [hz, if_false]
        cases dc
        · simp only [Bool.false_eq_true, if_false]
          generalize decode d c t (dflt c d t) data p1 = r
          obtain ⟨s, v, p2⟩ := r
          cases s <;> simp
        · simp only [if_true]
          have hsame := fun cur => decode_old c habi.pos henv d t data (dflt c d t) cur p1 ht
          cases old' <;> dsimp only
          case some w =>
            have hsame := hsame w
            generalize decode d c t w data p1 = r' at *
            generalize decode d c t (dflt c d t) data p1 = r at *
            obtain ⟨s, v, p2⟩ := r
            obtain ⟨s', v', p2'⟩ := r'
            obtain ⟨h1, h2, h3⟩ := hsame
            dsimp only at h1 h2 h3
            subst h1 h2
            cases s <;> simp
            exact h3 rfl
          all_goals
            generalize decode d c t (dflt c d t) data p1 = r
            obtain ⟨s, v, p2⟩ := r
            cases s <;> simp
    all_goals simp

/-- C27. Written as `optional_ptr<T>`, read as `optional<T>`, and the other way round. -/
theorem C27_read_as_other (d d' : Nat) (co ci : Cfg) (noFit dc : Bool) (t : Ty) (v old : Val) (st st' : OutSt)
    (bs : List UInt8) (hf : fmtOf ci = fmtOf co) (hpos : st.pos ≤ st.data.length) (hlen : st.data.length < 2 ^ 63)
    (hs : Supported co [(.optional dc t, v)]) (hd : StackOk d [(.optional dc t, v)])
    (hb : BitsOk [(.optional dc t, v)] st)
    (hw : wireItems (fmtOf co) [(.optional dc t, v)] = some bs) (hl : bs.length < 2 ^ 63)
    (hr : Readable ci [(.optional dc t, v)]) (hd' : StackOk d' [(.optional dc t, v)]) :
    (outCall d co noFit [(.optPtr t, v)] st = (.ok, st') →
      decMany d' ci st'.data [(.optional dc t, old)] st.pos = ⟨.ok, [v], st'.pos⟩) ∧
    (outCall d co noFit [(.optional dc t, v)] st = (.ok, st') →
      decMany d' ci st'.data [(.optPtr t, old)] st.pos = ⟨.ok, [v], st'.pos⟩) := by
  refine ⟨?_, ?_⟩
  · intro h
    rw [C27_same_output d co noFit dc] at h
    exact C10_round_trip d d' co ci noFit [(.optional dc t, v)] [(.optional dc t, old)] st st' bs hf hpos hlen hs hd hb hw hl
      h hr hd' rfl
  · intro h
    rw [← C27_same_output d co noFit dc] at h
    have wsame : ∀ f : Fmt, wire f (.optPtr t) v = wire f (.optional dc t) v := by
      intro f; cases v <;> simp [wire, wireNum]
    have lsame : Loadable ci (.optPtr t) v = Loadable ci (.optional dc t) v := by
      cases v <;> simp [Loadable]
    refine C10_round_trip d d' co ci noFit [(.optPtr t, v)] [(.optPtr t, old)] st st' bs hf hpos hlen
      ⟨hs.growth, hs.abi, hs.env, ?_⟩ ?_ ?_ ?_ hl h ⟨hr.abi, hr.env, ?_, ?_⟩ ?_ rfl
    · intro x hx; simp only [List.mem_singleton] at hx; subst hx
      simpa [Good] using hs.types (.optional dc t, v) (by simp)
    · intro x hx; simp only [List.mem_singleton] at hx; subst hx
      exact hd (.optional dc t, v) (by simp)
    · exact hb.imp (fun h x hx => by simp only [List.mem_singleton] at hx; subst hx; exact h (.optional dc t, v) (by simp)) id
    · rw [← hw]; simp only [wireItems, wsame]
    · intro x hx; simp only [List.mem_singleton] at hx; subst hx
      simpa [Good] using hr.types (.optional dc t, v) (by simp)
    · intro x hx; simp only [List.mem_singleton] at hx; subst hx
      rw [lsame]; exact hr.load (.optional dc t, v) (by simp)
    · intro x hx; simp only [List.mem_singleton] at hx; subst hx
      exact hd' (.optional dc t, v) (by simp)

example :
    let c := Checks.le Checks.grow (.fixed 1)
    outCall 9 c false [(.optPtr (.scalar .int 2), .some (.num 258))] ⟨[], 0⟩ = (.ok, ⟨[1, 2, 1], 3⟩) ∧
    decMany 9 c [1, 2, 1] [(.optional true (.scalar .int 2), .none)] 0 = ⟨.ok, [.some (.num 258)], 3⟩ := by
  decide +kernel

/-! ## Protobuf -/

/-- C30, messages behind a size prefix (the default), at any place of a stream: see `C10_round_trip`, of which this is
the case of one message. The destination may hold anything. -/
theorem C30_round_trip_partial (d d' : Nat) (co ci : Cfg) (noFit ok : Bool) (sz : Option SizeTy) (maps : List (Nat × Nat))
    (nums : List (Option Nat)) (fs : List Ty) (v old : Val) (st st' : OutSt)
    (bs : List UInt8) (hf : fmtOf ci = fmtOf co) (hpos : st.pos ≤ st.data.length) (hlen : st.data.length < 2 ^ 63)
    (hs : Supported co [(.msg sz ok maps nums fs, v)]) (hd : StackOk d [(.msg sz ok maps nums fs, v)])
    (hb : BitsOk [(.msg sz ok maps nums fs, v)] st)
    (hw : wireItems (fmtOf co) [(.msg sz ok maps nums fs, v)] = some bs) (hl : bs.length < 2 ^ 63)
    (hok : outCall d co noFit [(.msg sz ok maps nums fs, v)] st = (.ok, st'))
    (hr : Readable ci [(.msg sz ok maps nums fs, v)]) (hd' : StackOk d' [(.msg sz ok maps nums fs, v)]) :
    decMany d' ci st'.data [(.msg sz ok maps nums fs, old)] st.pos = ⟨.ok, [v], st'.pos⟩ :=
  C10_round_trip d d' co ci noFit [(.msg sz ok maps nums fs, v)] [(.msg sz ok maps nums fs, old)] st st' bs hf hpos hlen
    hs hd hb hw hl hok hr hd' rfl

/-- C30, a message without size prefix (`no_size`): it extends to the end of the input, so it is read back from
what was written up to the position of the writer. -/
theorem C30_unsized_round_trip_partial (d d' : Nat) (co ci : Cfg) (noFit ok : Bool) (sz : Option SizeTy) (maps : List (Nat × Nat))
    (nums : List (Option Nat)) (fs : List Ty) (vs : List Val) (old : Val) (st st' : OutSt)
    (bs : List UInt8) (hf : fmtOf ci = fmtOf co) (hsz : sz.getD ci.dsz = .none)
    (hpos : st.pos ≤ st.data.length) (hlen : st.data.length < 2 ^ 63)
    (hs : Supported co [(.msg sz ok maps nums fs, .list vs)]) (hd : StackOk d [(.msg sz ok maps nums fs, .list vs)])
    (hb : BitsOk [(.msg sz ok maps nums fs, .list vs)] st)
    (hw : wireItems (fmtOf co) [(.msg sz ok maps nums fs, .list vs)] = some bs) (hl : bs.length < 2 ^ 63)
    (hok : outCall d co noFit [(.msg sz ok maps nums fs, .list vs)] st = (.ok, st'))
    (habi : AbiOk ci.sizeof) (henv : EnvGood ci) (hg : Good ci (.msg sz ok maps nums fs) = true)
    (hload : LoadablePb (insideMsg ci) fs vs) (hd' : StackOk d' [(.msg sz ok maps nums fs, .list vs)]) :
    decMany d' ci (st'.data.take st'.pos) [(.msg sz ok maps nums fs, old)] st.pos = ⟨.ok, [.list vs], st'.pos⟩ := by
  obtain ⟨h1, k, h2⟩ := C04_growing_appends d co noFit _ st st' bs hpos hlen hs hd hb hw hl hok
  have h3 := C03_wire_format d co noFit _ st st' bs hpos hlen hs hd hb hw hl hok
  have hv := (outCall_safe d co hs.growth noFit [(.msg sz ok maps nums fs, .list vs)] st ⟨hpos, hlen⟩).valid hs.growth ⟨hpos, hlen⟩
  rw [hok] at hv
  have h4 := hv.len_lt
  have h5 := hv.pos_le
  simp only at h4 h5
  have hw' : wire (fmtOf ci) (.msg sz ok maps nums fs) (.list vs) = some bs := by
    rw [hf]
    simp only [wireItems, cat_eq_some] at hw
    obtain ⟨a, b, ha, hb, rfl⟩ := hw
    cases hb
    rw [List.append_nil]; exact ha
  have := msg_unsized_rd d' ci habi henv hsz hg hw' hload (by have := hd' _ (List.mem_singleton.mpr rfl); simp only at this; omega)
    old (data := st'.data.take st'.pos) (by simp; omega) (p := st.pos) (by simp; omega) h3
  simp only [decMany, this]
  rw [h1]

/-- A person with phone numbers, without and with length prefix. -/
example : decMany 20 (Checks.le Checks.grow .none) Checks.johnBytes [(Checks.person, .list [])] 0 =
      ⟨.ok, [Checks.john], 45⟩ ∧
    decMany 20 (Checks.le Checks.grow .varint) (45 :: Checks.johnBytes ++ [7]) [(Checks.person, .list [])] 0 =
      ⟨.ok, [Checks.john], 46⟩ := by decide +kernel

example : Good (Checks.le Checks.grow .none) Checks.person = true ∧
    LoadablePb (insideMsg (Checks.le Checks.grow .none)) [Checks.str, Checks.vint32, Checks.str, .seq .vector none Checks.phone]
      [Checks.strV Checks.sName, .num 1234, Checks.strV Checks.sMail, .list [.list [Checks.strV Checks.sPhone, .num 1]]] := by
  refine ⟨by decide +kernel, ?_⟩
  have hp : ∀ s : List UInt8, s.length < 100 →
      PackedFits (insideMsg (Checks.le Checks.grow .none)) true true Checks.chr (s.map fun b => .num b.toNat) := by
    intro s hs body hb
    have : body.length = s.length := by
      clear hs
      induction s generalizing body with
      | nil => simp only [List.map_nil, wireNums, Option.some.injEq] at hb; subst hb; rfl
      | cons b s ih =>
        simp only [List.map_cons, wireNums, Zpp.cat_eq_some] at hb
        obtain ⟨x, y, hx, hy, rfl⟩ := hb
        have := ih y hy
        simp only [Checks.chr, packedElem, wireNum] at hx
        split at hx
        · cases hx; simp [digits, this]
          unfold pbFmt; simp; omega
        · cases hx
    simp [Checks.chr, packedElem, Checks.le, insideMsg, Checks.grow]
    omega
  simp only [LoadablePb, LoadablePbField, Checks.str, Checks.strV, Checks.vint32, Checks.phone, Checks.msg, LoadableL, Loadable,
    and_true]
  exact ⟨hp Checks.sName (by decide), trivial, hp Checks.sMail (by decide), by decide, hp Checks.sPhone (by decide)⟩

/-! ## Sets and maps -/

/-- C49, reading a set or map from any input. If the read succeeds, there are elements `es`, as many as the size prefix
announced, which stand one after the other in the input; whatever the container held before, it now consists
exactly of the first element of each key (of all elements for multi containers), in iteration order. -/
theorem C49_read (d : Nat) (c : Cfg) (multi hashed : Bool) (sz : Option SizeTy) (key : Ty) (mapped : Option Ty)
    (old v : Val) (data : List UInt8) (p p' : Nat) (hlt : WeakOrder (c.keyLt key))
    (hok : decode (d + 1) c (.assoc multi hashed sz key mapped) old data p = ⟨.ok, v, p'⟩) :
    ∃ (es vs : List Val) (p1 : Nat), v = .list vs ∧
      decHdr c (effSz c sz) data p = (.ok, es.length, p1) ∧
      (mapped = none → decMany d c data (es.map fun _ => (key, dflt c d key)) p1 = ⟨.ok, es, p'⟩) ∧
      (∀ m, mapped = some m → decMany (d + 1) c data
        (es.map fun _ => (.struct false [key, m], .list [dflt c d key, dflt c d m])) p1 = ⟨.ok, es, p'⟩) ∧
      Ordered (c.keyLt key) multi hashed mapped.isSome vs ∧
      (multi = true → vs.Perm es) ∧
      (multi = false → vs.Perm (firsts (sameKey (c.keyLt key) hashed mapped.isSome) es)) := by
  have key' : ∀ (D : Nat) (t : Ty) (o : Val) (n : Nat) (vs : List Val) (q : Nat) (r : List Val),
      decAssoc (fun p => decode D c t o data p) (assocInsert (c.keyLt key) multi hashed mapped.isSome) n vs q = ⟨.ok, r, p'⟩ →
      ∃ es : List Val, es.length = n ∧ decMany D c data (es.map fun _ => (t, o)) q = ⟨.ok, es, p'⟩ ∧
        r = insertAll (c.keyLt key) multi hashed mapped.isSome es vs := by
    intro D t o n
    induction n with
    | zero =>
      intro vs q r h
      simp only [decAssoc] at h
      cases h
      exact ⟨[], rfl, rfl, rfl⟩
    | succ n ih =>
      intro vs q r h
      simp only [decAssoc] at h
      cases hr : decode D c t o data q with
      | mk s e q1 =>
        rw [hr] at h
        cases s with
        | ok =>
          simp only at h
          obtain ⟨es, h1, h2, h3⟩ := ih _ _ _ h
          refine ⟨e :: es, by simp [h1], ?_, by rw [h3]; rfl⟩
          simp only [List.map_cons, decMany, hr, h2]
        | _ => simp at h
  have fin : ∀ es : List Val, Ordered (c.keyLt key) multi hashed mapped.isSome
        (insertAll (c.keyLt key) multi hashed mapped.isSome es []) ∧
      (multi = true → (insertAll (c.keyLt key) multi hashed mapped.isSome es []).Perm es) ∧
      (multi = false → (insertAll (c.keyLt key) multi hashed mapped.isSome es []).Perm
        (firsts (sameKey (c.keyLt key) hashed mapped.isSome) es)) := by
    intro es
    refine ⟨orderedK_iff.mp (insertAll_ordered hlt es List.Pairwise.nil), ?_, ?_⟩
    · rintro rfl; simpa using insertAll_multi (lt := c.keyLt key) (isMap := mapped.isSome) (hashed := hashed) es []
    · rintro rfl; 
      have h := insertAll_firsts (isMap := mapped.isSome) hlt (hashed := hashed) es []
      rwa [List.nil_append, List.filter_eq_self.mpr (by simp)] at h
  rw [decode] at hok
  cases hh : decHdr c (effSz c sz) data p with
  | mk s x =>
    obtain ⟨n, p1⟩ := x
    rw [hh] at hok
    cases s with
    | ok =>
      simp only at hok
      cases mapped with
      | none =>
        simp only at hok
        generalize hr : decAssoc (fun p => decode d c key (dflt c d key) data p)
          (assocInsert (c.keyLt key) multi hashed (none : Option Ty).isSome) n [] p1 = r at hok
        obtain ⟨s, vs, q⟩ := r
        simp only [ResL.toRes, Res.mk.injEq] at hok
        obtain ⟨rfl, rfl, rfl⟩ := hok
        obtain ⟨es, h1, h2, h3⟩ := key' d key (dflt c d key) n [] p1 vs hr
        subst h3
        exact ⟨es, _, p1, rfl, by rw [h1], fun _ => h2, nofun, fin es⟩
      | some m =>
        simp only at hok
        have hs : ∀ q, decode (d + 1) c (.struct false [key, m]) (.list [dflt c d key, dflt c d m]) data q =
            (decFields (fun t v p => decode d c t v data p) [key, m] [dflt c d key, dflt c d m] q).toRes := by
          intro q
          rw [decode]
          simp [asBytes, Ty.endianIndep, Ty.byteSer, Val.elems]
        generalize hr : decAssoc (fun p => (decFields (fun t v p => decode d c t v data p) [key, m]
          [dflt c d key, dflt c d m] p).toRes) (assocInsert (c.keyLt key) multi hashed (some m).isSome) n [] p1 = r at hok
        obtain ⟨s, vs, q⟩ := r
        simp only [ResL.toRes, Res.mk.injEq] at hok
        obtain ⟨rfl, rfl, rfl⟩ := hok
        simp only [← hs] at hr
        obtain ⟨es, h1, h2, h3⟩ := key' (d + 1) _ _ n [] p1 vs hr
        subst h3
        exact ⟨es, _, p1, rfl, by rw [h1], nofun, fun m' hm' => by cases hm'; exact h2, fin es⟩
    | _ => simp at hok

/-- Old elements vanish, the first of two equal keys stays, the rest is sorted. -/
example : decode 9 (Checks.le Checks.grow (.fixed 1)) (.assoc false false none Checks.chr (some Checks.chr))
      (.list [.list [.num 1, .num 1]]) [3, 9, 1, 5, 2, 9, 3] 0 =
    ⟨.ok, .list [.list [.num 5, .num 2], .list [.num 9, .num 1]], 7⟩ := by decide +kernel

theorem numLt_weak (t : Ty) : WeakOrder (Checks.numLt t) where
  asymm a b h := by cases a <;> cases b <;> simp_all [Checks.numLt] <;> omega
  negTrans a b c h1 h2 := by
    cases b with
    | num b => cases a <;> cases c <;> simp_all [Checks.numLt] <;> omega
    | _ => cases a <;> cases c <;> simp_all [Checks.numLt]

/-- C49, writing and reading back: a set or map in iteration order, whatever the destination held. -/
theorem C49_round_trip (d d' : Nat) (co ci : Cfg) (noFit multi hashed : Bool) (sz : Option SizeTy) (key : Ty)
    (mapped : Option Ty) (vs : List Val) (old : Val) (st st' : OutSt) (bs : List UInt8) (hf : fmtOf ci = fmtOf co)
    (hpos : st.pos ≤ st.data.length) (hlen : st.data.length < 2 ^ 63)
    (hs : Supported co [(.assoc multi hashed sz key mapped, .list vs)])
    (hd : StackOk d [(.assoc multi hashed sz key mapped, .list vs)])
    (hb : BitsOk [(.assoc multi hashed sz key mapped, .list vs)] st)
    (hw : wireItems (fmtOf co) [(.assoc multi hashed sz key mapped, .list vs)] = some bs) (hl : bs.length < 2 ^ 63)
    (hok : outCall d co noFit [(.assoc multi hashed sz key mapped, .list vs)] st = (.ok, st'))
    (habi : AbiOk ci.sizeof) (henv : EnvGood ci) (hg : Good ci (.assoc multi hashed sz key mapped) = true)
    (hsz : sz.getD ci.dsz ≠ .none) (hord : Ordered (ci.keyLt key) multi hashed mapped.isSome vs)
    (hk : mapped = none → ∀ e ∈ vs, Loadable ci key e)
    (hm : ∀ m, mapped = some m → ∀ e ∈ vs, Loadable ci (.struct false [key, m]) e)
    (hd' : StackOk d' [(.assoc multi hashed sz key mapped, .list vs)]) :
    decMany d' ci st'.data [(.assoc multi hashed sz key mapped, old)] st.pos = ⟨.ok, [.list vs], st'.pos⟩ := by
  have hL : ∀ t (vs : List Val), (∀ e ∈ vs, Loadable ci t e) → LoadableL ci t vs := by
    intro t vs
    induction vs with
    | nil => intro _; simp [LoadableL]
    | cons v vs ih => intro h; exact ⟨h v (by simp), ih fun e he => h e (by simp [he])⟩
  refine C10_round_trip d d' co ci noFit [(.assoc multi hashed sz key mapped, .list vs)]
    [(.assoc multi hashed sz key mapped, old)] st st' bs hf hpos hlen hs hd hb hw hl hok ⟨habi, henv, ?_, ?_⟩ hd' rfl
  · intro x hx; simp only [List.mem_singleton] at hx; subst hx; exact hg
  · intro x hx; simp only [List.mem_singleton] at hx; subst hx
    cases mapped with
    | none => exact ⟨hsz, hord, hL _ _ (hk rfl)⟩
    | some m => exact ⟨hsz, hord, hL _ _ (hm m rfl)⟩

/-! ## Recursive data structures -/

/-- Trees with a 32 bit number and any number of subtrees at each node:
`struct tree { std::uint32_t x; std::vector<tree> kids; };` -/
inductive Rose
  | node (x : UInt32) (kids : List Rose)

mutual
/-- The C++ object. -/
def Rose.val : Rose → Val
  | .node x kids => .list [.num x.toNat, .list (Rose.vals kids)]
/-- The elements of a vector of trees. -/
def Rose.vals : List Rose → List Val
  | [] => []
  | t :: ts => t.val :: Rose.vals ts
end

mutual
/-- The documented encoding: the number, the number of subtrees, the subtrees. -/
def Rose.bytes : Rose → List UInt8
  | .node x kids => digits .little 4 x.toNat ++ (digits .little 4 kids.length ++ Rose.bytesL kids)
/-- One tree after the other. -/
def Rose.bytesL : List Rose → List UInt8
  | [] => []
  | t :: ts => t.bytes ++ Rose.bytesL ts
end

/-- The class definition. -/
def roseTy : Ty := .struct false [.scalar .int 4, .seq .vector none (.ref 0)]

/-- A little-endian archive with 4 byte sizes that knows the class. -/
def roseCfg (g : Growth) (so : Ty → Nat) : Cfg :=
  ⟨.little, false, .fixed 4, g, so, fun _ => roseTy, fun _ _ _ => false⟩

theorem Rose.vals_length (ts : List Rose) : (Rose.vals ts).length = ts.length := by
  induction ts with
  | nil => rfl
  | cons t ts ih => simp [Rose.vals, ih]

theorem Rose.kids_le (ts : List Rose) : ts.length ≤ (Rose.bytesL ts).length := by
  induction ts with
  | nil => simp
  | cons t ts ih =>
    cases t with
    | node x kids => simp [Rose.bytesL, Rose.bytes, digits]; omega

mutual
theorem Rose.wire_eq (f : Fmt) (ho : f.order = .little) (hs : f.dsz = .fixed 4) (he : ∀ i, f.env i = roseTy) :
    ∀ t : Rose, t.bytes.length < 2 ^ 32 → ∀ i, wire f (.ref i) t.val = some t.bytes
  | .node x kids, h, i => by
    simp only [Rose.bytes, List.length_append] at h
    have hk := Rose.kids_le kids
    have hx : x.toNat < 256 ^ 4 := x.toNat_lt
    have hl := Rose.wireL_eq f ho hs he kids (by omega) 0
    simp only [Rose.val, wire, he, roseTy, wireFields, wireNum, hx, if_true, ho, hs, sizePrefix, Option.getD_none,
      Rose.vals_length, show kids.length < 256 ^ 4 by omega, hl, cat, Rose.bytes, List.append_nil]
theorem Rose.wireL_eq (f : Fmt) (ho : f.order = .little) (hs : f.dsz = .fixed 4) (he : ∀ i, f.env i = roseTy) :
    ∀ ts : List Rose, (Rose.bytesL ts).length < 2 ^ 32 → ∀ i, wireAll f (.ref i) (Rose.vals ts) = some (Rose.bytesL ts)
  | [], _, _ => rfl
  | t :: ts, h, i => by
    simp only [Rose.bytesL, List.length_append] at h
    simp only [Rose.vals, wireAll, Rose.wire_eq f ho hs he t (by omega) i, Rose.wireL_eq f ho hs he ts (by omega) i, cat,
      Rose.bytesL]
end

mutual
theorem Rose.loadable (c : Cfg) (hs : c.dsz = .fixed 4) (he : ∀ i, c.env i = roseTy) (hl : c.g.limit = sizeMax) (M : Nat)
    (hm : M * c.sizeof (.ref 0) ≤ c.g.maxMem) :
    ∀ t : Rose, t.bytes.length ≤ M → ∀ i, Loadable c (.ref i) t.val
  | .node x kids, h, i => by
    simp only [Rose.bytes, List.length_append] at h
    have hk := Rose.kids_le kids
    have hload := Rose.loadableL c hs he hl M hm kids (by omega) 0
    simp only [Rose.val, Loadable, he, roseTy, LoadableF, hs, Option.getD_none, Fits, Rose.vals_length, hload, hl]
    refine ⟨trivial, ⟨by simp, by simp, fun _ => ⟨Or.inl trivial, ?_⟩, trivial⟩, trivial⟩
    exact Nat.le_trans (Nat.mul_le_mul_right _ (by omega)) hm
theorem Rose.loadableL (c : Cfg) (hs : c.dsz = .fixed 4) (he : ∀ i, c.env i = roseTy) (hl : c.g.limit = sizeMax) (M : Nat)
    (hm : M * c.sizeof (.ref 0) ≤ c.g.maxMem) :
    ∀ ts : List Rose, (Rose.bytesL ts).length ≤ M → ∀ i, LoadableL c (.ref i) (Rose.vals ts)
  | [], _, _ => by simp [Rose.vals, LoadableL]
  | t :: ts, h, i => by
    simp only [Rose.bytesL, List.length_append] at h
    exact ⟨Rose.loadable c hs he hl M hm t (by omega) i, Rose.loadableL c hs he hl M hm ts (by omega) i⟩
end

/-- C52 for trees: every finite tree, of any depth and width, whose encoding is shorter than 2^32 bytes, written into an
empty growing buffer: the bytes are its encoding, and reading them gives the tree back. `d` is the available stack,
two frames per level of the object. -/
theorem C52_trees (d : Nat) (g : Growth) (so : Ty → Nat) (noFit : Bool) (t : Rose) (old : Val) (st' : OutSt)
    (hg : GrowthOk g) (hso : AbiOk so) (hlim : g.limit = sizeMax) (hmem : t.bytes.length * so (.ref 0) ≤ g.maxMem)
    (hlen : t.bytes.length < 2 ^ 32) (hd : 2 * depth t.val ≤ d)
    (hok : outCall d (roseCfg g so) noFit [(.ref 0, t.val)] ⟨[], 0⟩ = (.ok, st')) :
    st'.data.take st'.pos = t.bytes ∧
    decMany d (roseCfg g so) st'.data [(.ref 0, old)] 0 = ⟨.ok, [t.val], st'.pos⟩ := by
  have hgood : Good (roseCfg g so) roseTy = true ∧ Good (pbCfg (roseCfg g so)) roseTy = true := by
    constructor <;>
      simp [Good, GoodL, nodeOk, roseTy, roseCfg, copyOk, oneBlock, scalarOk, pbCfg]
  have hty : ∀ x ∈ [((.ref 0 : Ty), t.val)], Good (roseCfg g so) x.1 = true := by
    intro x hx; simp only [List.mem_singleton] at hx; subst hx; rfl
  have hs : Supported (roseCfg g so) [(.ref 0, t.val)] := ⟨hg, hso, fun _ => hgood, hty⟩
  have hst : StackOk d [(.ref 0, t.val)] := by
    intro x hx; simp only [List.mem_singleton] at hx; subst hx; exact hd
  have hb : BitsOk [(.ref 0, t.val)] ⟨[], 0⟩ := Or.inr (by simp)
  have hw : wireItems (fmtOf (roseCfg g so)) [(.ref 0, t.val)] = some t.bytes := by
    simp [wireItems, Rose.wire_eq (fmtOf (roseCfg g so)) rfl rfl (fun _ => rfl) t hlen 0, cat]
  have h1 := C03_wire_format d _ noFit _ _ st' t.bytes (by simp) (by simp) hs hst hb hw (by omega) hok
  refine ⟨by simpa using h1, ?_⟩
  exact C10_round_trip d d _ (roseCfg g so) noFit _ [(.ref 0, old)] ⟨[], 0⟩ st' t.bytes rfl (by simp) (by simp) hs hst hb hw
    (by omega) hok ⟨hso, fun _ => hgood, hty, fun x hx => by
      simp only [List.mem_singleton] at hx; subst hx
      exact Rose.loadable _ rfl (fun _ => rfl) hlim _ hmem t (Nat.le_refl _) 0⟩ hst rfl

/-- A tree of depth 3. -/
example :
    let t : Rose := .node 1 [.node 2 [], .node 3 [.node 4 []]]
    let bs : List UInt8 := [1, 0, 0, 0, 2, 0, 0, 0, 2, 0, 0, 0, 0, 0, 0, 0, 3, 0, 0, 0, 1, 0, 0, 0, 4, 0, 0, 0, 0, 0, 0, 0]
    outCall 20 (roseCfg Checks.grow Checks.so) false [(.ref 0, t.val)] ⟨[], 0⟩ = (.ok, ⟨bs, 32⟩) ∧ t.bytes = bs ∧
    2 * depth t.val ≤ 20 ∧ decMany 20 (roseCfg Checks.grow Checks.so) bs [(.ref 0, .list [])] 0 = ⟨.ok, [t.val], 32⟩ := by
  decide +kernel

end Zpp.Props
