import Verif.Spec.Prepared
import Verif.Proof.InRoundMain
import Verif.Proof.InRecords
/-! # Reading into prepared destinations -/

namespace Zpp
open Spec

theorem Spec.PreparedAll.len {c : Cfg} {D : Nat} {t : Ty} : ∀ {vs os : List Val}, PreparedAll c D t vs os → os.length = vs.length
  | _, _, .nil => rfl
  | _, _, .cons _ hs => by simp [PreparedAll.len hs]

theorem seqBody_prep {c : Cfg} {k : SeqKind} {t : Ty} {rec : Val → Nat → Res} {data : List UInt8} (ha : AbiOk c.sizeof)
    (hcp : (k == .list || copyOk c t) = true) (hg : Good c t = true) {vs olds : List Val} {bs : List UInt8}
    (hw : wireAll (fmtOf c) t vs = some bs) (hl : olds.length = vs.length) (hr : RdL data (decAll rec olds) bs vs) :
    Rd data (seqBody c k t rec olds data) bs (.list vs) := by
  unfold seqBody
  by_cases h : k ≠ .list ∧ asBytes c t = true
  · have hcp' : copyOk c t = true := by
      simp only [Bool.or_eq_true, beq_iff_eq] at hcp
      rcases hcp with e | e
      · exact absurd e h.1
      · exact e
    simp only [if_pos h, hl]
    exact RdL.toRes (decRep_rd ha h.2 hcp' hg hw hl)
  · simp only [if_neg h]
    exact RdL.toRes hr

theorem take_resize (os : List Val) (n : Nat) (dv : Val) : os.take n ++ List.replicate (n - os.length) dv = resizeVals os n dv := by
  rfl

theorem idLoadable (c : Cfg) {idTy : Ty} (g1 : idTyOk idTy = true) (id : Val) : Loadable c idTy id := by
  cases idTy with
  | scalar k n => cases id <;> simp only [Loadable]
  | bool => cases id <;> simp only [Loadable]
  | varint n zz => cases id <;> simp only [Loadable]
  | array n t'' =>
    cases id <;> simp only [Loadable]
    rename_i es
    simp only [idTyOk, Bool.and_eq_true] at g1
    induction es with
    | nil => simp only [LoadableL]
    | cons e es ih =>
      simp only [LoadableL]
      refine ⟨?_, ih⟩
      cases t'' <;> first | (simp [numTy] at g1; done) | (cases e <;> simp only [Loadable])
  | _ => simp [idTyOk, numTy] at g1

/-- The variant reader on an encoded alternative, given what reading the alternative does. -/
theorem variant_prep {d : Nat} {c : Cfg} (ha : AbiOk c.sizeof) (he : EnvGood c) {data : List UInt8} (hlen : data.length < 2 ^ 64)
    {idTy : Ty} {ids : List Val} {dcs : List Bool} {alts : List Ty} {i : Nat} {t : Ty} {v old cur : Val} {bs : List UInt8}
    (gt : Good c (.variant idTy ids dcs alts) = true) (ht : alts[i]? = some t)
    (hw : wire (fmtOf c) (.variant idTy ids dcs alts) (.alt i v) = some bs) (hd : 4 ≤ d + 1)
    (hcur : cur = (match dcs[i]? with
      | some true => (match old with | .alt j w => if j = i then w else dflt c d t | _ => dflt c d t)
      | _ => dflt c d t))
    (hr : ∀ y, wire (fmtOf c) t v = some y → Rd data (decode d c t cur data) y v) :
    Rd data (decode (d + 1) c (.variant idTy ids dcs alts) old data) bs (.alt i v) := by
  intro p rest hp hdr
  simp only [wire] at hw
  simp only [Good, Bool.and_eq_true, nodeOk, beq_iff_eq] at gt
  obtain ⟨⟨⟨⟨⟨g1, g2⟩, g3⟩, g4⟩, g5⟩, g6⟩ := gt
  split at hw
  · rename_i id t0 hid halt
    rw [ht] at halt
    cases halt
    rw [cat_eq_some] at hw
    obtain ⟨x, y, hx, hy, rfl⟩ := hw
    obtain ⟨w1, w2, w3, w4⟩ := wireId_wire g1 hx
    rw [List.append_assoc] at hdr
    have s1 := drop_split hp hdr
    have h1 := (decode_round d c ha he).1 data hlen idTy id x g5 w1 (idLoadable c g1 id)
      (by rw [w4]; simp only [Bool.false_eq_true, if_false]; omega) (dflt c d idTy) p _ hp hdr
    have h2 := hr y hy _ rest s1.1 s1.2
    have hdc : ∃ dc, dcs[i]? = some dc := by
      have : i < alts.length := by
        rw [List.getElem?_eq_some_iff] at ht
        exact ht.1
      exact ⟨dcs[i]'(by omega), List.getElem?_eq_getElem (by omega)⟩
    obtain ⟨dc, hdc⟩ := hdc
    rw [decode]
    simp only [h1, findId_nodup g4 0 hid, Nat.add_zero, ht, hdc, List.length_append, ← Nat.add_assoc]
    simp only [hdc] at hcur
    unfold decAlt
    cases dc
    · simp only at hcur
      subst hcur
      simp only [Bool.false_eq_true, if_false, h2]
    · simp only at hcur
      subst hcur
      simp only [if_true]
      cases old <;> simp only at h2 ⊢ <;> rw [h2]
  · cases hw

/-- Optionals and pointers: the presence byte, then the object. -/
theorem present_prep {r : Nat → Res} {g : Nat → Res} {data : List UInt8} {v v' : Val} {f : Option (List UInt8)} {bs : List UInt8}
    (hw : cat (some [1]) f = some bs) (hr : ∀ y, f = some y → Rd data r y v)
    (hg : ∀ p b q, getBytes data p 1 = (.ok, [1], b) → r b = ⟨.ok, v, q⟩ → g p = ⟨.ok, v', q⟩) : Rd data g bs v' := by
  intro p rest hp hdr
  rw [cat_eq_some] at hw
  obtain ⟨x, y, hx, hy, rfl⟩ := hw
  cases hx
  rw [List.append_assoc] at hdr
  have s1 := drop_split hp hdr
  have h1 := getBytes_rd hp hdr
  have h2 := hr y hy _ rest s1.1 s1.2
  simp only [List.length_singleton] at h1 h2
  rw [hg p _ _ h1 h2]
  simp only [List.length_append, List.length_singleton, ← Nat.add_assoc]

mutual
theorem prepared_rd {c : Cfg} {D : Nat} (ha : AbiOk c.sizeof) (he : EnvGood c) {data : List UInt8} (hlen : data.length < 2 ^ 64)
    {t : Ty} {v old : Val} (h : Prepared c D t v old) (d : Nat) (bs : List UInt8) (gt : Good c t = true)
    (hw : wire (fmtOf c) t v = some bs) (hd : 2 * depth v + D ≤ (if t.isRef then d else d + 1)) :
    Rd data (decode d c t old data) bs v := by
  cases d with
  | zero => have := depth_pos v; split at hd <;> omega
  | succ d =>
    match h with
    | .any hl => exact (decode_round (d + 1) c ha he).1 data hlen t v bs gt hw hl (by omega) old
    | .span (sz := sz) (t := t) (vs := vs) (os := os) hs hle hp =>
      simp only [Ty.isRef, depth, Bool.false_eq_true, if_false] at hd
      simp only [wire, cat_eq_some] at hw
      obtain ⟨x, y, hx, hy, rfl⟩ := hw
      have g2 : Good c t = true := by simp only [Good, Bool.and_eq_true] at gt; exact gt.2
      simp only [Good, nodeOk, Bool.and_eq_true] at gt
      have hall := preparedAll_rd ha he hlen hp d y g2 hy (by omega)
      have hb := seqBody_prep (k := .span) ha gt.1.1 g2 hy hp.len hall
      intro p rest hp' hdr
      have hne : effSz c sz ≠ .none := hs
      rw [List.append_assoc] at hdr
      have s1 := drop_split hp' hdr
      rw [decode_seq hne, decHdr_rd hne hx hp' hdr]
      simp only [seqFill, List.length_append, ← Nat.add_assoc]
      rw [if_neg (by simp only [Val.elems]; omega)]
      exact hb _ rest s1.1 s1.2
    | .unsized (k := k) (sz := sz) (t := t) (vs := vs) (os := os) hk hs hp =>
      simp only [Ty.isRef, depth, Bool.false_eq_true, if_false] at hd
      have hs' : sz.getD (fmtOf c).dsz = .none := hs
      simp only [wire, hs', sizePrefix, cat_eq_some] at hw
      obtain ⟨x, y, hx, hy, rfl⟩ := hw
      cases hx
      have g2 : Good c t = true := by simp only [Good, Bool.and_eq_true] at gt; exact gt.2
      simp only [Good, nodeOk, Bool.and_eq_true] at gt
      have hall := preparedAll_rd ha he hlen hp d y g2 hy (by omega)
      have hb := seqBody_prep (k := k) ha gt.1.1 g2 hy hp.len hall
      intro p rest hp' hdr
      have hne : effSz c sz = .none := hs
      rw [decode]
      simp only [hne, List.nil_append]
      unfold seqUnsized
      cases k <;> first | exact absurd rfl hk | exact hb p rest hp' hdr
    | .seq (k := k) (sz := sz) (t := t) (vs := vs) (os := os) (dv := dv) hk hs hf hi hdv hp =>
      simp only [Ty.isRef, depth, Bool.false_eq_true, if_false] at hd
      simp only [wire, cat_eq_some] at hw
      obtain ⟨x, y, hx, hy, rfl⟩ := hw
      have g2 : Good c t = true := by simp only [Good, Bool.and_eq_true] at gt; exact gt.2
      simp only [Good, nodeOk, Bool.and_eq_true] at gt
      have hall := preparedAll_rd ha he hlen hp d y g2 hy (by omega)
      have hb := seqBody_prep (k := k) ha gt.1.1 g2 hy hp.len hall
      intro p rest hp' hdr
      have hne : effSz c sz ≠ .none := hs
      rw [List.append_assoc] at hdr
      have s1 := drop_split hp' hdr
      rw [decode_seq hne, decHdr_rd hne hx hp' hdr]
      simp only [List.length_append, ← Nat.add_assoc]
      have e : seqFill c k t (fun v p => decode d c t v data p) (dflt c d t) (.list os) data vs.length (p + x.length) =
          (if c.g.limit ≠ sizeMax ∧ c.g.limit / c.sizeof t < vs.length then ⟨.err .messageSize, .list os, p + x.length⟩
          else if c.g.maxMem < vs.length * c.sizeof t then ⟨.badAlloc, .list os, p + x.length⟩
          else seqBody c k t (fun v p => decode d c t v data p) (resizeVals os vs.length (dflt c d t)) data (p + x.length)) := by
        unfold seqFill
        rcases hk with rfl | rfl <;> rfl
      obtain ⟨f1, f2⟩ := hf
      rw [e, if_neg (by intro ⟨a1, a2⟩; rcases f1 with h | h <;> first | exact a1 h | omega), if_neg (by omega),
        initial_dflt hi d (by split <;> omega), ← take_resize]
      exact hb _ rest s1.1 s1.2
    | .struct (ok := ok) (fs := fs) (vs := vs) (os := os) hp =>
      simp only [Ty.isRef, depth, Bool.false_eq_true, if_false] at hd
      intro p rest hp' hdr
      rw [decode]
      split
      · rename_i hab
        have := decRep_rd (data := data) ha hab (by simp [Good, nodeOk] at gt; exact gt.1) gt (vs := [.list vs])
          (olds := [.list os]) (bs := bs) (wireAll_single hw) rfl p rest hp' hdr
        simp only [List.length_singleton] at this
        simp only [this, List.headD_cons]
      · have gl : GoodL c fs = true := by simp only [Good, Bool.and_eq_true] at gt; exact gt.2
        simp only [wire] at hw
        exact RdL.toRes (preparedF_rd ha he hlen hp d bs gl hw (by omega)) p rest hp' hdr
    | .array (n := n) (t := t) (vs := vs) (os := os) hp =>
      simp only [Ty.isRef, depth, Bool.false_eq_true, if_false] at hd
      simp only [wire] at hw
      split at hw
      · rename_i hn
        have g2 : Good c t = true := by simp only [Good, Bool.and_eq_true] at gt; exact gt.2
        have cp : copyOk c t = true := by simp [Good, nodeOk] at gt; exact gt.1.2
        have hl := hp.len
        have hre : resizeVals os n .unit = os := by
          rw [← take_resize, show n - os.length = 0 by omega, List.take_of_length_le (by omega)]; simp
        intro p rest hp' hdr
        rw [decode]
        simp only [Val.elems, hre]
        split
        · rename_i hab
          have := decRep_rd (data := data) ha hab cp g2 hw hl p rest hp' hdr
          rw [hn] at this
          rw [this]; rfl
        · exact RdL.toRes (preparedAll_rd ha he hlen hp d bs g2 hw (by omega)) p rest hp' hdr
      · cases hw
    | .here (t := t) (v := v) (o := o) hp =>
      simp only [Ty.isRef, depth, Bool.false_eq_true, if_false] at hd
      simp only [wire] at hw
      refine present_prep hw (fun y hy => prepared_rd ha he hlen hp d y (by simpa only [Good] using gt) hy (by split <;> omega)) ?_
      intro p b q h1 h2
      simp only [decode, h1]
      rw [if_neg (by decide)]
      simp only [if_true, h2]
    | .optional (dc := dc) (t := t) (v := v) (old := old) ho hi hdv hp =>
      simp only [Ty.isRef, depth, Bool.false_eq_true, if_false] at hd
      simp only [wire] at hw
      have hdf := initial_dflt hi d (by split <;> omega)
      refine present_prep hw (fun y hy => prepared_rd ha he hlen hp d y (by simpa only [Good] using gt) hy (by split <;> omega)) ?_
      intro p b q h1 h2
      simp only [decode, h1]
      rw [if_neg (by decide)]
      cases dc
      · simp only [Bool.false_eq_true, if_false, hdf, h2]
      · have ho := ho.resolve_left (by simp)
        cases old <;> first | exact absurd rfl (ho _) | simp only [if_true, hdf, h2]
    | .optPtr (t := t) (v := v) hi hdv hp =>
      simp only [Ty.isRef, depth, Bool.false_eq_true, if_false] at hd
      simp only [wire] at hw
      have hdf := initial_dflt hi d (by split <;> omega)
      refine present_prep hw (fun y hy => prepared_rd ha he hlen hp d y (by simpa only [Good] using gt) hy (by split <;> omega)) ?_
      intro p b q h1 h2
      simp only [decode, h1]
      rw [if_neg (by decide)]
      simp only [hdf, h2]
    | .uptr (t := t) (v := v) hi hdv hp =>
      simp only [Ty.isRef, depth, Bool.false_eq_true, if_false] at hd
      simp only [wire] at hw
      have hdf := initial_dflt hi d (by split <;> omega)
      intro p rest hp' hdr
      have h2 := prepared_rd ha he hlen hp d bs (by simpa only [Good] using gt) hw (by split <;> omega) p rest hp' hdr
      simp only [decode, hdf, h2]
    | .alt (dcs := dcs) (i := i) (t := t) (v := v) (o := o) ht hc hp =>
      simp only [Ty.isRef, depth, Bool.false_eq_true, if_false] at hd
      have := depth_pos v
      have g6 := gt
      simp only [Good, Bool.and_eq_true] at g6
      refine variant_prep ha he hlen gt ht hw (by omega) (cur := o) (by simp [hc]) (fun y hy =>
        prepared_rd ha he hlen hp d y (GoodL_mem g6.2 t (List.mem_of_getElem? ht)) hy (by split <;> omega))
    | .variant (dcs := dcs) (i := i) (t := t) (v := v) (old := old) (dv := dv) ht ho hi hdv hp =>
      simp only [Ty.isRef, depth, Bool.false_eq_true, if_false] at hd
      have := depth_pos v
      have g6 := gt
      simp only [Good, Bool.and_eq_true] at g6
      have hdf := initial_dflt hi d (by split <;> omega)
      refine variant_prep ha he hlen gt ht hw (by omega) (cur := dv) ?_ (fun y hy =>
        prepared_rd ha he hlen hp d y (GoodL_mem g6.2 t (List.mem_of_getElem? ht)) hy (by split <;> omega))
      rw [hdf]
      rcases ho with ho | ho
      · rw [ho]
      · split
        · cases old <;> try rfl
          rename_i j w
          dsimp only
          rw [if_neg]
          intro e; subst e
          exact ho _ rfl
        · rfl
    | .ref (i := i) (v := v) (old := old) hp =>
      simp only [Ty.isRef, if_true] at hd
      cases v <;> simp only [wire, wireNum] at hw <;> first | cases hw | skip
      rename_i vs
      have henv : (fmtOf c).env = c.env := rfl
      rw [henv] at hw
      intro p rest hp' hdr
      rw [decode]
      refine prepared_rd ha he hlen hp d bs (he i).1 ?_ ?_ p rest hp' hdr
      · cases hc : c.env i <;> simp only [hc] at hw <;> first | cases hw | skip
        · simp only [wire]; exact hw
        · simp only [wire]; exact hw
      · have : (c.env i).isRef = false := by
          cases hc : c.env i <;> simp only [hc] at hw <;> first | cases hw | rfl
        rw [this]
        simp only [Bool.false_eq_true, if_false]
        omega
theorem preparedAll_rd {c : Cfg} {D : Nat} (ha : AbiOk c.sizeof) (he : EnvGood c) {data : List UInt8} (hlen : data.length < 2 ^ 64)
    {t : Ty} {vs os : List Val} (h : PreparedAll c D t vs os) (d : Nat) (bs : List UInt8) (gt : Good c t = true)
    (hw : wireAll (fmtOf c) t vs = some bs) (hd : 2 * depthL vs + D ≤ d) :
    RdL data (decAll (fun v p => decode d c t v data p) os) bs vs := by
  match h with
  | .nil => cases hw; intro p rest _ _; rfl
  | .cons (v := v) (vs := vs) h hs =>
    simp only [wireAll, cat_eq_some] at hw
    obtain ⟨x, y, hx, hy, rfl⟩ := hw
    simp only [depthL] at hd
    intro p rest hp hdr
    rw [List.append_assoc] at hdr
    have s1 := drop_split hp hdr
    have h1 := prepared_rd ha he hlen h d x gt hx (by split <;> omega) p _ hp hdr
    have h2 := preparedAll_rd ha he hlen hs d y gt hy (by omega) _ rest s1.1 s1.2
    simp only [decAll, h1, h2, List.length_append, Nat.add_assoc]
theorem preparedF_rd {c : Cfg} {D : Nat} (ha : AbiOk c.sizeof) (he : EnvGood c) {data : List UInt8} (hlen : data.length < 2 ^ 64)
    {ts : List Ty} {vs os : List Val} (h : PreparedF c D ts vs os) (d : Nat) (bs : List UInt8) (gt : GoodL c ts = true)
    (hw : wireFields (fmtOf c) ts vs = some bs) (hd : 2 * depthL vs + D ≤ d) :
    RdL data (decFields (fun t v p => decode d c t v data p) ts os) bs vs := by
  match h with
  | .nil => cases hw; intro p rest _ _; rfl
  | .cons (t := t) (v := v) (vs := vs) h hs =>
    simp only [wireFields, cat_eq_some] at hw
    obtain ⟨x, y, hx, hy, rfl⟩ := hw
    simp only [depthL] at hd
    simp only [GoodL, Bool.and_eq_true] at gt
    intro p rest hp hdr
    rw [List.append_assoc] at hdr
    have s1 := drop_split hp hdr
    have h1 := prepared_rd ha he hlen h d x gt.1 hx (by split <;> omega) p _ hp hdr
    have h2 := preparedF_rd ha he hlen hs d y gt.2 hy (by omega) _ rest s1.1 s1.2
    simp only [decFields, List.headD_cons, List.tail_cons, h1, h2, List.length_append, Nat.add_assoc]
end

theorem preparedItems_rd {d D : Nat} {c : Cfg} (ha : AbiOk c.sizeof) (he : EnvGood c) {data : List UInt8} (hlen : data.length < 2 ^ 64) :
    ∀ (items ds : List (Ty × Val)) (bs : List UInt8), wireItems (fmtOf c) items = some bs →
      (∀ x ∈ items, Good c x.1 = true) → PreparedItems c D items ds → (∀ x ∈ items, 2 * depth x.2 + D ≤ d) →
      RdL data (decMany d c data ds) bs (items.map Prod.snd) := by
  intro items
  induction items with
  | nil =>
    intro ds bs h _ hp _
    cases h
    cases ds with
    | nil => intro p rest _ _; rfl
    | cons => exact absurd hp (by simp [PreparedItems])
  | cons x items ih =>
    intro ds bs h hg hl hd
    obtain ⟨t, v⟩ := x
    cases ds with
    | nil => exact absurd hl (by simp [PreparedItems])
    | cons y ds =>
      obtain ⟨t', o⟩ := y
      simp only [PreparedItems] at hl
      obtain ⟨rfl, hl1, hl2⟩ := hl
      simp only [wireItems, cat_eq_some] at h
      obtain ⟨a, b, hx, hy, rfl⟩ := h
      intro p rest hp hdr
      rw [List.append_assoc] at hdr
      have s1 := drop_split hp hdr
      have h1 := prepared_rd ha he hlen hl1 d a (hg (t', v) (by simp)) hx (by
        have := hd (t', v) (by simp)
        simp only at this
        split <;> omega) p _ hp hdr
      have h2 := ih ds b hy (fun x h => hg x (by simp [h])) hl2 (fun x h => hd x (by simp [h])) _ rest s1.1 s1.2
      rw [decMany]
      simp only [h1, h2, List.map_cons, List.length_append, Nat.add_assoc]

end Zpp
