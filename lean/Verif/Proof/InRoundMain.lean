import Verif.Proof.InRoundPb
import Verif.Proof.InLocal
/-! # Reading back the documented encoding: all types -/

namespace Zpp
open Spec

theorem view_rd {c : Cfg} {t : Ty} {data : List UInt8} (ha : AbiOk c.sizeof) (hi : t.endianIndep = true) (hnum : numTy t = true)
    (hg : Good c t = true) {vs : List Val} {bs : List UInt8} (hw : wireAll (fmtOf c) t vs = some bs) :
    bs.length = vs.length ∧ unrepAll c.host c.sizeof t vs.length bs = vs := by
  have hab : asBytes c t = true := by simp [asBytes, hi]
  have hsz : c.sizeof t = 1 ∧ plain t = true := by
    cases t with
    | scalar k n =>
      cases k with
      | byte =>
        have : n = 1 := by simpa [numTy, scalarOk] using hnum
        subst this
        exact ⟨ha.scalar _ _ (by omega), rfl⟩
      | chr =>
        have : n = 1 := by simpa [numTy, scalarOk] using hnum
        subst this
        exact ⟨ha.scalar _ _ (by omega), rfl⟩
      | _ => cases hi
    | array => cases hnum
    | _ => cases hi
  have hr := repAll_of_asBytes hab (by simp [copyOk, hsz.2]) hg vs bs hw
  obtain ⟨h1, h2⟩ := chunks_rep (so := c.sizeof) (u := unrep c.host c.sizeof t) (sz := c.sizeof t) vs bs hr
    (fun v _ b hb' => unrep_rep c.host ha t v b (asBytes_byteSer hab) hsz.2 hg hb')
  exact ⟨by rw [h1, hsz.1]; omega, h2⟩

/-- Elements, with one copy or one by one. -/
theorem seqBody_rd {c : Cfg} {k : SeqKind} {t : Ty} {rec : Val → Nat → Res} {data : List UInt8} (ha : AbiOk c.sizeof)
    (hcp : (k == .list || copyOk c t) = true) (hg : Good c t = true) {vs olds : List Val} {bs : List UInt8}
    (hw : wireAll (fmtOf c) t vs = some bs) (hl : olds.length = vs.length)
    (hr : ∀ v ∈ vs, ∀ b, wire (fmtOf c) t v = some b → ∀ old, Rd data (rec old) b v) :
    Rd data (seqBody c k t rec olds data) bs (.list vs) := by
  unfold seqBody
  by_cases h : k ≠ .list ∧ asBytes c t = true
  · have hcp' : copyOk c t = true := by
      simp only [Bool.or_eq_true, beq_iff_eq] at hcp
      rcases hcp with e | e
      · exact absurd e h.1
      · exact e
    simp only [if_pos h, hl]
    exact RdL.toRes (decRep_rd ha h.2 hcp' hg hw hl)
  · simp only [if_neg h]
    exact RdL.toRes (decAll_rd (w := wire (fmtOf c) t) (W := wireAll (fmtOf c) t) rfl (fun _ _ => rfl) vs olds bs hw hl hr)

theorem decode_round (d : Nat) : ∀ (c : Cfg), AbiOk c.sizeof → EnvGood c →
    DecOk c (decode d c) d ∧ DecUns c (decode d c) d := by
  induction d with
  | zero =>
    intro c _ _
    refine ⟨?_, ?_⟩
    · intro data _ t v bs _ _ _ hd
      have := depth_pos v
      split at hd <;> omega
    · intro data _ k t vs olds bs _ _ _ _ _ hd
      simp only [depth] at hd; omega
  | succ d ih =>
    intro c ha he
    obtain ⟨hrec, _⟩ := ih c ha he
    refine And.symm ⟨?_, ?_⟩
    · intro data hlen k t vs olds bs hk hg hnum hw hl hd
      simp only [Good, nodeOk, Bool.and_eq_true] at hg
      have hb := seqBody_rd (k := k) (rec := fun v p => decode d c t v data p) (data := data) ha hg.1.1 hg.2 hw hl (by
        intro v hv b hb old
        have h1 := depth_mem hv
        have h2 := depth_pos v
        simp only [depth] at hd
        exact (numTy_rd hrec hlen hnum (by omega) old v b hb).2)
      intro p rest hp hdr
      rw [decode]
      simp only [effSz, Option.getD_some]
      unfold seqUnsized
      rcases hk with rfl | rfl <;> exact hb p rest hp hdr
    intro data hlen t v bs gt hw hld hd old p rest hp hdr
    cases t with
    | scalar k n =>
      cases v <;> simp only [wire, wireNum] at hw <;> first | cases hw | skip
      split at hw
      · rename_i x hx
        cases hw
        have h1 := getBytes_rd hp hdr
        rw [digits_length] at h1
        simp only [decode, h1, digits_length]
        rw [← ioBytes_eq, ioNat_ioBytes c n x hx]
      · cases hw
    | bool =>
      cases v <;> simp only [wire, wireNum] at hw <;> first | cases hw | skip
      split at hw
      · rename_i x hx
        cases hw
        have h1 := getBytes_rd hp hdr
        simp only [List.length_singleton] at h1
        simp only [decode, h1, List.length_singleton]
        congr 2
        simp only [leNat]
        rw [ofNat_toNat8 x (by omega)]
        simp
      · cases hw
    | varint n zz =>
      cases v <;> simp only [wire, wireNum] at hw <;> first | cases hw | skip
      split at hw
      · rename_i x hx
        cases hw
        simp only [decode]
        exact getVarint_rd (intWidth_iff.mp (by simpa [Good, nodeOk] using gt)) zz hx old hp hdr
      · cases hw
    | empty =>
      cases v <;> simp [wire, wireNum] at hw
      subst hw; rfl
    | struct ok fs =>
      cases v <;> simp only [wire, wireNum] at hw <;> first | cases hw | skip
      rename_i vs
      simp only [Loadable] at hld
      rw [decode]
      split
      · rename_i hab
        have := decRep_rd (data := data) ha hab (by simp [Good, nodeOk] at gt; exact gt.1) gt (vs := [.list vs]) (olds := [old])
          (bs := bs) (wireAll_single (by simp only [wire]; exact hw)) rfl p rest hp hdr
        simp only [List.length_singleton] at this
        simp only [this, List.headD_cons]
      · have gl : GoodL c fs = true := by simp only [Good, Bool.and_eq_true] at gt; exact gt.2
        refine RdL.toRes (decFields_rd (c := c) fs vs old.elems bs hw hld ?_) p rest hp hdr
        intro t ht v hv b hb hl' o
        refine hrec data hlen t v b (GoodL_mem gl t ht) hb hl' ?_ o
        have := depth_mem hv
        simp only [Ty.isRef, depth, Bool.false_eq_true, if_false] at hd
        split <;> omega
    | array n t' =>
      cases v <;> simp only [wire, wireNum] at hw <;> first | cases hw | skip
      rename_i vs
      split at hw
      · rename_i hn
        have g2 : Good c t' = true := by simp only [Good, Bool.and_eq_true] at gt; exact gt.2
        have cp : copyOk c t' = true := by simp [Good, nodeOk] at gt; exact gt.1.2
        simp only [Loadable] at hld
        rw [decode]
        have hl : (resizeVals old.elems n .unit).length = vs.length := by simp [hn]
        split
        · rename_i hab
          have := decRep_rd (data := data) ha hab cp g2 hw hl p rest hp hdr
          rw [hn] at this
          rw [this]; rfl
        · refine RdL.toRes (decAll_rd (w := wire (fmtOf c) t') (W := wireAll (fmtOf c) t') rfl (fun _ _ => rfl) vs _ bs hw hl ?_)
            p rest hp hdr
          intro v hv b hb o
          refine hrec data hlen t' v b g2 hb (LoadableL_mem hld v hv) ?_ o
          have := depth_mem hv
          simp only [Ty.isRef, depth, Bool.false_eq_true, if_false] at hd
          split <;> omega
      · cases hw
    | seq k sz t' =>
      cases v <;> simp only [wire, wireNum] at hw <;> first | cases hw | skip
      rename_i vs
      rw [cat_eq_some] at hw
      obtain ⟨x, y, hx, hy, rfl⟩ := hw
      have g2 : Good c t' = true := by simp only [Good, Bool.and_eq_true] at gt; exact gt.2
      simp only [Loadable] at hld
      obtain ⟨l1, l2, l3, l4⟩ := hld
      have hne : effSz c sz ≠ .none := l2
      rw [List.append_assoc] at hdr
      have s1 := drop_split hp hdr
      have s2 := drop_split s1.1 s1.2
      rw [decode_seq hne, decHdr_rd hne hx hp hdr]
      simp only [Good, nodeOk, Bool.and_eq_true] at gt
      have hbody : ∀ olds : List Val, olds.length = vs.length →
          Rd data (seqBody c k t' (fun v p => decode d c t' v data p) olds data) y (.list vs) := by
        intro olds hl
        refine seqBody_rd ha gt.1.1 g2 hy hl ?_
        intro v hv b hb o
        refine hrec data hlen t' v b g2 hb (LoadableL_mem l4 v hv) ?_ o
        have := depth_mem hv
        simp only [Ty.isRef, depth, Bool.false_eq_true, if_false] at hd
        split <;> omega
      simp only [List.length_append, ← Nat.add_assoc]
      have growing : k ≠ .view → k ≠ .span → seqFill c k t' (fun v p => decode d c t' v data p) (dflt c d t') old data vs.length
          (p + x.length) = ⟨.ok, .list vs, p + x.length + y.length⟩ := by
        intro hk1 hk2
        obtain ⟨f1, f2⟩ := l3 hk1
        have e : seqFill c k t' (fun v p => decode d c t' v data p) (dflt c d t') old data vs.length (p + x.length) =
            (if c.g.limit ≠ sizeMax ∧ c.g.limit / c.sizeof t' < vs.length then ⟨.err .messageSize, old, p + x.length⟩
            else if c.g.maxMem < vs.length * c.sizeof t' then ⟨.badAlloc, old, p + x.length⟩
            else seqBody c k t' (fun v p => decode d c t' v data p) (resizeVals old.elems vs.length (dflt c d t')) data (p + x.length)) := by
          unfold seqFill
          cases k <;> first | rfl | exact absurd rfl hk1 | exact absurd rfl hk2
        rw [e, if_neg (by intro ⟨a1, a2⟩; rcases f1 with h | h <;> first | exact a1 h | omega), if_neg (by omega)]
        exact hbody _ (by simp) _ rest s1.1 s1.2
      cases k with
      | span => exact absurd rfl l1
      | view =>
        have hv : (t'.endianIndep && numTy t') = true := by
          have := byteTy_facts (t := t') (by simpa using gt.1.2)
          simp [this.1, this.2]
        simp only [Bool.and_eq_true] at hv
        obtain ⟨v1, v2⟩ := view_rd (data := data) ha hv.1 hv.2 g2 hy
        simp only [seqFill]
        rw [subSz_of_le s1.1, if_neg (by omega), if_pos (by omega), s1.2, ← v1, List.take_left]
        rw [v1, v2]
      | vector => exact growing (by simp) (by simp)
      | list => exact growing (by simp) (by simp)
    | assoc multi hashed sz key mapped =>
      cases mapped with
      | none =>
        cases v <;> simp only [wire, wireNum] at hw <;> first | cases hw | skip
        rename_i vs
        rw [cat_eq_some] at hw
        obtain ⟨x, y, hx, hy, rfl⟩ := hw
        have g2 : Good c key = true := by simpa only [Good] using gt
        simp only [Loadable] at hld
        obtain ⟨l1, l2, l3⟩ := hld
        have hne : effSz c sz ≠ .none := l1
        rw [List.append_assoc] at hdr
        have s1 := drop_split hp hdr
        rw [decode, decHdr_rd hne hx hp hdr]
        simp only [List.length_append, ← Nat.add_assoc]
        have := decAssoc_rd (data := data) (elem := fun p => decode d c key (dflt c d key) data p)
          (w := wire (fmtOf c) key) (W := wireAll (fmtOf c) key) rfl (fun _ _ => rfl) vs [] y hy l2 (by
            intro v hv b hb
            refine hrec data hlen key v b g2 hb (LoadableL_mem l3 v hv) ?_ _
            have := depth_mem hv
            simp only [Ty.isRef, depth, Bool.false_eq_true, if_false] at hd
            split <;> omega)
        have := this _ rest s1.1 s1.2
        simp only [List.nil_append] at this
        simp only [Option.isSome_none, this]; rfl
      | some m =>
        cases v <;> simp only [wire, wireNum] at hw <;> first | cases hw | skip
        rename_i vs
        rw [cat_eq_some] at hw
        obtain ⟨x, y, hx, hy, rfl⟩ := hw
        simp only [Good, Bool.and_eq_true] at gt
        simp only [Loadable] at hld
        obtain ⟨l1, l2, l3⟩ := hld
        have hne : effSz c sz ≠ .none := l1
        rw [List.append_assoc] at hdr
        have s1 := drop_split hp hdr
        rw [decode, decHdr_rd hne hx hp hdr]
        simp only [List.length_append, ← Nat.add_assoc]
        have := decAssoc_rd (data := data) (elem := fun p =>
            (decFields (fun t v p => decode d c t v data p) [key, m] [dflt c d key, dflt c d m] p).toRes)
          (w := wire (fmtOf c) (.struct false [key, m])) (W := wireAll (fmtOf c) (.struct false [key, m])) rfl (fun _ _ => rfl)
          vs [] y hy l2 (by
            intro e hv b hb
            have hl2 := LoadableL_mem l3 e hv
            cases e <;> simp only [wire, wireNum] at hb <;> first | cases hb | skip
            rename_i es
            simp only [Loadable] at hl2
            refine RdL.toRes (decFields_rd (c := c) [key, m] es _ b hb hl2 ?_)
            intro t ht v' hv' b' hb' hl' o
            have gtt : Good c t = true := by
              simp only [List.mem_cons, List.not_mem_nil, or_false] at ht
              rcases ht with rfl | rfl
              · exact gt.1
              · exact gt.2
            refine hrec data hlen t v' b' gtt hb' hl' ?_ o
            have h1 := depth_mem hv
            have h2 := depth_mem hv'
            simp only [depth] at h1
            simp only [Ty.isRef, depth, Bool.false_eq_true, if_false] at hd
            split <;> omega)
        have := this _ rest s1.1 s1.2
        simp only [List.nil_append] at this
        simp only [Option.isSome_some, this]; rfl
    | optional dc t' =>
      have hflag : ∀ b y : List UInt8, b.length = 1 → data.drop p = b ++ y → getBytes data p 1 = (.ok, b, p + 1) := by
        intro b y hb1 hdd
        have := getBytes_rd hp hdd
        rwa [hb1] at this
      cases v <;> simp only [wire, wireNum] at hw <;> first | cases hw | skip
      · have h1 := hflag [0] rest rfl hdr
        simp only [decode, h1]; rfl
      · rename_i v'
        rw [cat_eq_some] at hw
        obtain ⟨x, y, hx, hy, rfl⟩ := hw
        cases hx
        rw [List.append_assoc] at hdr
        have s1 := drop_split hp hdr
        have h1 := hflag [1] (y ++ rest) rfl hdr
        simp only [Loadable] at hld
        have h2 : ∀ o, decode d c t' o data (p + 1) = ⟨.ok, v', p + 1 + y.length⟩ := fun o =>
          hrec data hlen t' v' y (by simpa only [Good] using gt) hy hld (by
            simp only [Ty.isRef, depth, Bool.false_eq_true, if_false] at hd
            split <;> omega) o _ rest s1.1 s1.2
        simp only [decode, h1]
        rw [if_neg (by decide)]
        cases dc
        · simp only [Bool.false_eq_true, if_false, h2, List.length_append, List.length_singleton, ← Nat.add_assoc]
        · simp only [if_true, h2, List.length_append, List.length_singleton, ← Nat.add_assoc]
    | optPtr t' =>
      have hflag : ∀ b y : List UInt8, b.length = 1 → data.drop p = b ++ y → getBytes data p 1 = (.ok, b, p + 1) := by
        intro b y hb1 hdd
        have := getBytes_rd hp hdd
        rwa [hb1] at this
      cases v <;> simp only [wire, wireNum] at hw <;> first | cases hw | skip
      · have h1 := hflag [0] rest rfl hdr
        simp only [decode, h1]; rfl
      · rename_i v'
        rw [cat_eq_some] at hw
        obtain ⟨x, y, hx, hy, rfl⟩ := hw
        cases hx
        rw [List.append_assoc] at hdr
        have s1 := drop_split hp hdr
        have h1 := hflag [1] (y ++ rest) rfl hdr
        simp only [Loadable] at hld
        have h2 : ∀ o, decode d c t' o data (p + 1) = ⟨.ok, v', p + 1 + y.length⟩ := fun o =>
          hrec data hlen t' v' y (by simpa only [Good] using gt) hy hld (by
            simp only [Ty.isRef, depth, Bool.false_eq_true, if_false] at hd
            split <;> omega) o _ rest s1.1 s1.2
        simp only [decode, h1]
        rw [if_neg (by decide)]
        simp only [h2, List.length_append, List.length_singleton, ← Nat.add_assoc]
    | uptr t' =>
      cases v <;> simp only [wire, wireNum] at hw <;> first | cases hw | skip
      rename_i v'
      simp only [Loadable] at hld
      have h2 := hrec data hlen t' v' bs (by simpa only [Good] using gt) hw hld (by
            simp only [Ty.isRef, depth, Bool.false_eq_true, if_false] at hd
            split <;> omega) (dflt c d t') _ rest hp hdr
      simp only [decode, h2]
    | variant idTy ids dcs alts =>
      cases v <;> simp only [wire, wireNum] at hw <;> first | cases hw | skip
      rename_i i v'
      simp only [Good, Bool.and_eq_true, nodeOk, beq_iff_eq] at gt
      obtain ⟨⟨⟨⟨⟨g1, g2⟩, g3⟩, g4⟩, g5⟩, g6⟩ := gt
      simp only [Ty.isRef, depth, Bool.false_eq_true, if_false] at hd
      simp only [Loadable] at hld
      split at hw
      · rename_i id t hid halt
        rw [cat_eq_some] at hw
        obtain ⟨x, y, hx, hy, rfl⟩ := hw
        obtain ⟨w1, w2, w3, w4⟩ := wireId_wire g1 hx
        rw [List.append_assoc] at hdr
        have s1 := drop_split hp hdr
        have hidl : Loadable c idTy id := by
          cases idTy with
          | scalar k n => cases id <;> simp only [Loadable]
          | bool => cases id <;> simp only [Loadable]
          | varint n zz => cases id <;> simp only [Loadable]
          | array n t'' =>
            cases id <;> simp only [Loadable]
            rename_i es
            simp only [idTyOk, Bool.and_eq_true] at g1
            clear w1 w2 w3 hx hid
            induction es with
            | nil => simp only [LoadableL]
            | cons e es ih =>
              simp only [LoadableL]
              refine ⟨?_, ih⟩
              cases t'' <;> first | (simp [numTy] at g1; done) | (cases e <;> simp only [Loadable])
          | _ => simp [idTyOk, numTy] at g1
        have h1 := hrec data hlen idTy id x g5 w1 hidl (by rw [w4]; simp only [Bool.false_eq_true, if_false]; omega)
          (dflt c d idTy) p _ hp hdr
        have h2 : ∀ o, decode d c t o data (p + x.length) = ⟨.ok, v', p + x.length + y.length⟩ := fun o =>
          hrec data hlen t v' y (GoodL_mem g6 t (List.mem_of_getElem? halt)) hy (hld t halt) (by split <;> omega) o _ rest s1.1 s1.2
        have hdc : ∃ dc, dcs[i]? = some dc := by
          have : i < alts.length := by
            rw [List.getElem?_eq_some_iff] at halt
            exact halt.1
          exact ⟨dcs[i]'(by omega), List.getElem?_eq_getElem (by omega)⟩
        obtain ⟨dc, hdc⟩ := hdc
        rw [decode]
        simp only [h1, findId_nodup g4 0 hid, Nat.add_zero, halt, hdc, List.length_append, ← Nat.add_assoc]
        unfold decAlt
        cases dc
        · simp only [Bool.false_eq_true, if_false, h2]
        · simp only [if_true, h2]
      · cases hw
    | bitset n =>
      cases v <;> simp only [wire, wireNum] at hw <;> first | cases hw | skip
      rename_i bits
      split at hw
      · rename_i hn
        cases hw
        have hl : (packBits n bits).length = (n + 7) / 8 := by simp [packBits]
        have h1 := getBytes_rd hp hdr
        rw [hl] at h1
        simp only [decode, h1, hl]
        rw [readBits_packBits n bits hn]
      · cases hw
    | msg sz ok maps nums fs =>
      cases v <;> simp only [wire, wireNum] at hw <;> first | cases hw | skip
      rename_i vs
      simp only [Ty.isRef, depth, Bool.false_eq_true, if_false] at hd
      simp only [Loadable] at hld
      obtain ⟨l1, l2⟩ := hld
      cases hb : pbFields (fmtOf c).env maps 0 nums fs vs with
      | none => simp [hb] at hw
      | some body =>
        simp only [hb] at hw
        rw [cat_eq_some] at hw
        obtain ⟨x, y, hx, hy, rfl⟩ := hw
        cases hy
        simp only [Good, nodeOk, Bool.and_eq_true] at gt
        obtain ⟨⟨⟨⟨g1, g2⟩, g3⟩, g4⟩, g5⟩ := gt
        have hne : effSz c sz ≠ .none := l1
        rw [List.append_assoc] at hdr
        have s1 := drop_split hp hdr
        have hh := decHdr_rd hne (msgPrefix_size hx) hp hdr
        obtain ⟨ihp, ihu⟩ := ih (pbCfg c) ha (EnvGood.pb he)
        have hrun := msgRun_rd (c := pbCfg c) (inPb_pbCfg c) ha ihp ihu (fresh := dflt (pbCfg c) d) (maps := maps)
          g1 g5 g2 hb l2 (by omega) hlen old s1.1 s1.2
          (size := body.length) (by have := drop_split s1.1 s1.2; omega)
        rw [decode]
        split
        · rename_i h; exact absurd h hne
        · simp only [hh, hrun, List.length_append, ← Nat.add_assoc]
    | ref i =>
      cases v <;> simp only [wire, wireNum] at hw <;> first | cases hw | skip
      rename_i vs
      simp only [Ty.isRef, if_true] at hd
      simp only [Loadable] at hld
      have henv : (fmtOf c).env = c.env := rfl
      rw [henv] at hw
      rw [decode]
      refine hrec data hlen (c.env i) (.list vs) bs (he i).1 ?_ ?_ ?_ old p rest hp hdr
      · cases hc : c.env i <;> simp only [hc] at hw <;> first | cases hw | skip
        · simp only [wire]; exact hw
        · simp only [wire]; exact hw
      · cases hc : c.env i <;> simp only [hc] at hw hld <;> first | cases hw | skip
        · simp only [Loadable]; exact hld
        · simp only [Loadable]; exact hld
      · have : (c.env i).isRef = false := by
          cases hc : c.env i <;> simp only [hc] at hw <;> first | cases hw | rfl
        rw [this]
        simp only [Bool.false_eq_true, if_false]
        exact hd

/-- A message without size prefix that extends to the end of the input. -/
theorem msg_unsized_rd (d : Nat) (c : Cfg) (ha : AbiOk c.sizeof) (he : EnvGood c) {sz : Option SizeTy} (hsz : sz.getD c.dsz = .none)
    {ok : Bool} {maps : List (Nat × Nat)} {nums : List (Option Nat)} {fs : List Ty} {vs : List Val} {bs : List UInt8}
    (gt : Good c (.msg sz ok maps nums fs) = true) (hw : wire (fmtOf c) (.msg sz ok maps nums fs) (.list vs) = some bs)
    (hld : LoadablePb (pbCfg c) fs vs) (hd : 2 * depth (.list vs) ≤ d + 1) (old : Val) {data : List UInt8}
    (hlen : data.length < 2 ^ 64) {p : Nat} (hp : p ≤ data.length) (hdr : data.drop p = bs) :
    decode d c (.msg sz ok maps nums fs) old data p = ⟨.ok, .list vs, p + bs.length⟩ := by
  cases d with
  | zero => simp only [depth] at hd; omega
  | succ d =>
    simp only [depth] at hd
    simp only [wire] at hw
    cases hb : pbFields (fmtOf c).env maps 0 nums fs vs with
    | none => simp [hb] at hw
    | some body =>
      have h2 : (fmtOf c).dsz = c.dsz := rfl
      simp only [hb, h2, hsz, msgPrefix, sizePrefix, cat, List.nil_append, Option.some.injEq] at hw
      subst hw
      simp only [Good, nodeOk, Bool.and_eq_true] at gt
      obtain ⟨⟨⟨⟨g1, g2⟩, g3⟩, g4⟩, g5⟩ := gt
      obtain ⟨ihp, ihu⟩ := decode_round d (pbCfg c) ha (EnvGood.pb he)
      have hl := congrArg List.length hdr
      simp only [List.length_drop] at hl
      have hrun := msgRun_rd (c := pbCfg c) (inPb_pbCfg c) ha ihp ihu (fresh := dflt (pbCfg c) d) (maps := maps)
        g1 g5 g2 hb hld (by omega) hlen old hp (rest := []) (by simpa using hdr) (size := sizeMax)
        (by unfold sizeMax; omega)
      rw [decode]
      have : effSz c sz = .none := hsz
      simp only [this, hrun]

/-- Items of a call. -/
theorem decMany_rd {d : Nat} {c : Cfg} (ha : AbiOk c.sizeof) (he : EnvGood c) {data : List UInt8} (hlen : data.length < 2 ^ 64) :
    ∀ (items ds : List (Ty × Val)) (bs : List UInt8), wireItems (fmtOf c) items = some bs →
      (∀ x ∈ items, Good c x.1 = true) → (∀ x ∈ items, Loadable c x.1 x.2) → StackOk d items →
      ds.map Prod.fst = items.map Prod.fst → RdL data (decMany d c data ds) bs (items.map Prod.snd) := by
  intro items
  induction items with
  | nil =>
    intro ds bs h _ _ _ hds
    cases h
    cases ds with
    | nil => intro p rest _ _; rfl
    | cons => simp at hds
  | cons x items ih =>
    intro ds bs h hg hl hd hds
    obtain ⟨t, v⟩ := x
    cases ds with
    | nil => simp at hds
    | cons y ds =>
      obtain ⟨t', o⟩ := y
      simp only [List.map_cons, List.cons.injEq] at hds
      obtain ⟨rfl, hds⟩ := hds
      simp only [wireItems, cat_eq_some] at h
      obtain ⟨a, b, hx, hy, rfl⟩ := h
      intro p rest hp hdr
      rw [List.append_assoc] at hdr
      have s1 := drop_split hp hdr
      have h1 := (decode_round d c ha he).1 data hlen t' v a (hg (t', v) (by simp)) hx (hl (t', v) (by simp)) (by
        have := hd (t', v) (by simp)
        simp only at this
        split <;> omega) o p _ hp hdr
      have h2 := ih ds b hy (fun x h => hg x (by simp [h])) (fun x h => hl x (by simp [h])) (fun x h => hd x (by simp [h]))
        hds _ rest s1.1 s1.2
      rw [decMany]
      simp only [h1, h2, List.map_cons, List.length_append, Nat.add_assoc]

end Zpp
