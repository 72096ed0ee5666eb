import Verif.Proof.OutBits
import Verif.Props.RoundTrip
import Verif.Props.Input2
/-!
# What the code does where a property fails as stated

For properties the code violates: the exact behaviour in the cases the `_partial` theorems leave out.
-/

namespace Zpp.Props
open Zpp Zpp.Spec

/-- C08, exact. Over any old content, writing a bitset puts into bit `k` of byte `j` bit `8 j + k` of the bitset *or* the
bit that was there before (bytes behind the end of a growing buffer count as zero): bits of the old content stay set. So
C08 holds exactly for those old bytes that have no bit set outside the bitset. -/
theorem C08_or_partial (d : Nat) (c : Cfg) (noFit : Bool) (n : Nat) (bits : List Bool) (st st' : OutSt)
    (hg : GrowthOk c.g) (hpos : st.pos ≤ st.data.length) (hlen : st.data.length < 2 ^ 63)
    (hok : outCall (d + 1) c noFit [(.bitset n, .bits bits)] st = (.ok, st')) :
    st'.pos = st.pos + (n + 7) / 8 ∧
    ∀ j k, j < (n + 7) / 8 → k < 8 → (st'.data.getD (st.pos + j) 0).toNat.testBit k =
      ((st.data.getD (st.pos + j) 0).toNat.testBit k || bits.getD (8 * j + k) false) := by
  have hv : Valid st := ⟨hpos, hlen⟩
  have h1 := outCall_status (d := d + 1) hg noFit [(.bitset n, .bits bits)] hv
  have h2 := outCall_state (d := d + 1) hg noFit [(.bitset n, .bits bits)] hv
  rw [hok] at h1 h2
  simp only [encMany, encode, andThen_skip] at h1 h2
  generalize he : encBitset c.g n bits st = r at h1 h2
  obtain ⟨s, st1⟩ := r
  simp only at h1 h2
  subst h1
  obtain ⟨h3, h4⟩ := encBitset_or hg hv he
  refine ⟨by rw [h2.1, h3]; rfl, fun j k hj hk => ?_⟩
  rw [← h4 j k hj hk]
  have := congrArg (fun l => l.getD (st.pos + j) 0) h2.2
  simp only [bitsetBytes] at this h3
  have hg : ∀ l : List UInt8, (l.take st1.pos).getD (st.pos + j) 0 = l.getD (st.pos + j) 0 := by
    intro l
    simp only [List.getD_eq_getElem?_getD]
    rw [List.getElem?_take_of_lt (by omega)]
  rw [hg, hg] at this
  rw [this]

-- The two calls of `C08_depends_on_old_content`, and a bitset written half over old bytes, half behind them.
example : outCall 9 (Checks.le Checks.grow (.fixed 4)) false
    [(.bitset 12, .bits [true, false, false, false, false, false, false, false, true, true, false, true])] ⟨[7, 0x60], 1⟩ =
    (.ok, ⟨[7, 0x61, 11], 3⟩) := by decide +kernel

theorem wireAll_append' {f : Fmt} {t : Ty} : ∀ (xs ys : List Val) (bs : List UInt8), wireAll f t (xs ++ ys) = some bs →
    ∃ a b, wireAll f t xs = some a ∧ wireAll f t ys = some b ∧ bs = a ++ b := by
  intro xs
  induction xs with
  | nil => intro ys bs h; exact ⟨[], bs, rfl, h, rfl⟩
  | cons x xs ih =>
    intro ys bs h
    simp only [List.cons_append, wireAll, cat_eq_some] at h
    obtain ⟨a, b, h1, h2, rfl⟩ := h
    obtain ⟨a', b', h3, h4, rfl⟩ := ih ys b h2
    exact ⟨a ++ a', b', by simp [wireAll, h1, h3, cat], h4, by simp⟩

/-- C28, exact. A container of any number of elements is written with a `w`-byte size prefix: the prefix and *all*
elements are appended. Reading it back gives the first `size % 256^w` elements, and the position stops behind these: the
other elements are left in the input, where the next read will find them. -/
theorem C28_read_back_partial (d d' : Nat) (co ci : Cfg) (noFit : Bool) (k : SeqKind) (w : Nat) (t : Ty) (vs : List Val)
    (old : Val) (st st' : OutSt) (bs : List UInt8) (hf : fmtOf ci = fmtOf co) (hw : 0 < w)
    (hpos : st.pos ≤ st.data.length) (hlen : st.data.length < 2 ^ 63)
    (hs : Supported co [(.seq k (some (.fixed w)) t, .list vs)])
    (hd : StackOk (d + 1) [(.seq k (some (.fixed w)) t, .list vs)])
    (hb : BitsOk [(.seq k (some (.fixed w)) t, .list vs)] st)
    (hbs : wireAll (fmtOf co) t vs = some bs) (hl : w + bs.length < 2 ^ 63)
    (hok : outCall (d + 1) co noFit [(.seq k (some (.fixed w)) t, .list vs)] st = (.ok, st'))
    (hr : Readable ci [(.seq k (some (.fixed w)) t, .list (vs.take (vs.length % 256 ^ w)))])
    (hd' : StackOk d' [(.seq k (some (.fixed w)) t, .list (vs.take (vs.length % 256 ^ w)))]) :
    st'.pos = st.pos + w + bs.length ∧
    ∃ a, wireAll (fmtOf co) t (vs.take (vs.length % 256 ^ w)) = some a ∧
      decMany d' ci st'.data [(.seq k (some (.fixed w)) t, old)] st.pos =
        ⟨.ok, [.list (vs.take (vs.length % 256 ^ w))], st.pos + w + a.length⟩ := by
  have hm : vs.length % 256 ^ w < 256 ^ w := Nat.mod_lt _ (Nat.pow_pos (by decide))
  rw [C28_size_converted_partial] at hok
  have hg : Good co (.seq k (some (.fixed w)) t) = true := hs.types _ (List.mem_singleton.mpr rfl)
  obtain ⟨a, b, h1, h2, h3⟩ := wireAll_append' (vs.take (vs.length % 256 ^ w)) (vs.drop (vs.length % 256 ^ w)) bs
    (by rw [List.take_append_drop]; exact hbs)
  have hwi : wireItems (fmtOf co) [(.scalar .int w, .num (vs.length % 256 ^ w)), (.seq k (some .none) t, .list vs)] =
      some (digits (fmtOf co).order w (vs.length % 256 ^ w) ++ bs) := by
    simp [wireItems, wire, wireNum, hm, sizePrefix, hbs, cat]
  have hc := C04_growing_appends (d + 1) co noFit _ st st' _ hpos hlen ⟨hs.growth, hs.abi, hs.env, by
      intro x hx
      simp only [List.mem_cons, List.not_mem_nil, or_false] at hx
      rcases hx with rfl | rfl
      · simpa [Good, nodeOk, scalarOk] using hw
      · simpa [Good, nodeOk] using hg⟩ (by
      intro x hx
      simp only [List.mem_cons, List.not_mem_nil, or_false] at hx
      have := hd _ (List.mem_singleton.mpr rfl)
      rcases hx with rfl | rfl
      · simp [depth] at this ⊢; omega
      · exact this) (by
      rcases hb with hb | hb
      · refine Or.inl fun x hx => ?_
        simp only [List.mem_cons, List.not_mem_nil, or_false] at hx
        rcases hx with rfl | rfl
        · rfl
        · exact hb (.seq k (some (.fixed w)) t, .list vs) (List.mem_singleton.mpr rfl)
      · exact Or.inr hb) hwi (by simp; omega) hok
  obtain ⟨e1, k0, e2⟩ := hc
  simp only [List.length_append, digits_length] at e1
  refine ⟨by omega, a, h1, ?_⟩
  have hrd : wireItems (fmtOf ci) [(.seq k (some (.fixed w)) t, .list (vs.take (vs.length % 256 ^ w)))] =
      some (digits (fmtOf co).order w (vs.length % 256 ^ w) ++ a) := by
    have : min (vs.length % 256 ^ w) vs.length = vs.length % 256 ^ w := Nat.min_eq_left (Nat.mod_le _ _)
    simp [wireItems, wire, sizePrefix, hf, h1, cat, this, hm]
  have hv := (outCall_safe (d + 1) co hs.growth noFit
    [(.scalar .int w, .num (vs.length % 256 ^ w)), (.seq k (some .none) t, .list vs)] st ⟨hpos, hlen⟩).valid hs.growth
    ⟨hpos, hlen⟩
  rw [hok] at hv
  have := hv.len_lt
  simp only at this
  have hp1 : (st.data.take st.pos).length = st.pos := by simp; omega
  have := C10_read_encoding d' ci [(.seq k (some (.fixed w)) t, .list (vs.take (vs.length % 256 ^ w)))]
    [(.seq k (some (.fixed w)) t, old)] (st.data.take st.pos) _
    (b ++ st.data.drop (st.pos + (w + bs.length)) ++ List.replicate k0 0) (by
      have : st'.data.length < 2 ^ 64 := by omega
      have hbl : bs.length = a.length + b.length := by rw [h3, List.length_append]
      rw [e2] at this
      simp only [List.length_append, List.length_take, List.length_drop, List.length_replicate, digits_length] at this ⊢
      omega) hrd hr hd' rfl
  rw [hp1] at this
  rw [e2, h3]
  simp only [List.append_assoc, List.length_append, digits_length, List.map_cons, List.map_nil] at this ⊢
  rw [h3] at this
  simp only [List.length_append] at this
  rw [this, Nat.add_assoc]

-- `C28_all_items_written` is such a case: 257 elements, of which one is read back. The hypotheses hold there:
example : (let x : Ty × Val := (.seq .list (some (.fixed 1)) .bool, .list (List.replicate 257 (.num 1)))
    let y : Ty × Val := (.seq .list (some (.fixed 1)) .bool, .list ((List.replicate 257 (.num 1)).take (257 % 256 ^ 1)))
    let c := Checks.le Checks.fixed (.fixed 4)
    Supported c [x] ∧ StackOk 9 [x] ∧ BitsOk [x] ⟨List.replicate 258 0, 0⟩ ∧
      wireAll (fmtOf c) .bool (List.replicate 257 (.num 1)) = some (List.replicate 257 1) ∧
      Readable c [y] ∧ StackOk 9 [y]) := by
  refine ⟨⟨nofun, so_abi, fun _ => ⟨rfl, rfl⟩, ?_⟩, ?_, Or.inl ?_, by decide +kernel,
    ⟨so_abi, fun _ => ⟨rfl, rfl⟩, ?_, ?_⟩, ?_⟩
  all_goals (intro x hx; simp only [List.mem_singleton] at hx; subst hx)
  · rfl
  · decide +kernel
  · decide +kernel
  · rfl
  · have : (List.replicate 257 (Val.num 1)).take (257 % 256 ^ 1) = [.num 1] := by decide +kernel
    rw [this]
    simp [Loadable, LoadableL, Fits, Checks.le, Checks.fixed, Checks.so]
  · decide +kernel

/-- C29, exact for size fields of `k` bytes, in any archive and for bodies of any length. The message is written as `k`
bytes holding the length of the body modulo `256^k` *in the byte order of the host*, whatever byte order the archive has,
followed by the body, which is exactly what the same message without size field produces. So C29 holds exactly when the
length fits and the archive has the order of the host, or `k ≤ 1`, or the length reads the same in both orders. -/
theorem C29_native_order_partial (d : Nat) (c : Cfg) (noFit ok : Bool) (sz : Option SizeTy) (k : Nat)
    (maps : List (Nat × Nat)) (nums : List (Option Nat)) (fs : List Ty) (v : Val) (st st' : OutSt) (body : List UInt8)
    (hsz : sz.getD c.dsz = .fixed k) (hpos : st.pos ≤ st.data.length) (hlen : st.data.length < 2 ^ 63)
    (hs : Supported c [(.msg (some .none) ok maps nums fs, v)]) (hd : StackOk d [(.msg (some .none) ok maps nums fs, v)])
    (hb : BitsOk [(.msg (some .none) ok maps nums fs, v)] st)
    (hw : wireItems (fmtOf c) [(.msg (some .none) ok maps nums fs, v)] = some body) (hl : k + body.length < 2 ^ 63)
    (hok : outCall d c noFit [(.msg sz ok maps nums fs, v)] st = (.ok, st')) :
    st'.pos = st.pos + k + body.length ∧
    (st'.data.take st'.pos).drop st.pos = digits c.host k (body.length % 256 ^ k) ++ body := by
  have hv : Valid st := ⟨hpos, hlen⟩
  have h1 := outCall_status (d := d) hs.growth noFit [(.msg sz ok maps nums fs, v)] hv
  have h2 := outCall_state (d := d) hs.growth noFit [(.msg sz ok maps nums fs, v)] hv
  rw [hok] at h1 h2
  have he : ∀ z, (z = true ∨ noBits v = true) →
      Emits c.g z (digits c.host k (body.length % 256 ^ k) ++ body) (encMany d c [(.msg sz ok maps nums fs, v)]) := by
    intro z hz
    have h := encMany_emits d c z _ body hs hd hw (by omega) (hz.imp id fun h x hx => by
      simp only [List.mem_singleton] at hx
      subst hx; exact h)
    simp only [encMany, andThen_skip] at h ⊢
    cases d with
    | zero => have := hd _ (List.mem_singleton.mpr rfl); have := depth_pos v; simp only at *; omega
    | succ d =>
      cases v with
      | list vs =>
        simp only [encode, effSz, hsz] at h ⊢
        exact encByProtocol_native hs.growth z h hl
      | _ => simp [wireItems, wire, wireNum, cat] at hw
  have e : st = ⟨st.data.take st.pos ++ st.data.drop st.pos, (st.data.take st.pos).length⟩ := by
    cases st; simp at hpos ⊢; omega
  have hl2 : (st.data.take st.pos).length + (st.data.drop st.pos).length < 2 ^ 63 := by simp; omega
  have hres : EmitRes c.g (digits c.host k (body.length % 256 ^ k) ++ body) (st.data.take st.pos) (st.data.drop st.pos)
      (encMany d c [(.msg sz ok maps nums fs, v)] st) := by
    rcases hb with hb | hb
    · have := he false (Or.inr (hb _ (List.mem_singleton.mpr rfl))) (st.data.take st.pos) (st.data.drop st.pos) nofun hl2
      rwa [← e] at this
    · have := he true (Or.inl rfl) (st.data.take st.pos) (st.data.drop st.pos) (fun _ => hb) hl2
      rwa [← e] at this
  have hp1 : (st.data.take st.pos).length = st.pos := by simp; omega
  rcases hres with ⟨kk, he, hk, hf, hbd⟩ | ⟨hr, he, hlt'⟩ | ⟨hr, he, hlt'⟩ | ⟨hr, he, hlt'⟩
  · rw [he] at h2
    simp only [List.length_append, digits_length, hp1] at h2
    refine ⟨by rw [h2.1]; omega, ?_⟩
    rw [h2.1, h2.2, List.append_assoc, List.take_append, List.take_of_length_le (by omega), List.drop_append, hp1,
      List.drop_of_length_le (by omega)]
    simp only [Nat.sub_self, List.drop_zero, List.nil_append, Nat.add_sub_cancel_left]
    rw [List.take_append_of_le_length (by simp), List.take_of_length_le (by simp)]
  all_goals (rw [he] at h1; cases h1)

-- `D10_message_size_native_order` is the case of a big-endian archive on a little-endian host. A body too long for its
-- size field: 299 bytes behind one byte of size.
example : outCall 30 (Checks.le Checks.grow (.fixed 1)) false
    [(.msg (some (.fixed 1)) true [] [none] [.seq .list none (.scalar .chr 1)], .list [.list (List.replicate 296 (.num 65))])] ⟨[9], 1⟩ =
    (.ok, ⟨[9, 43, 0x0a, 0xa8, 0x02] ++ List.replicate 296 65, 301⟩) := by decide +kernel

end Zpp.Props
