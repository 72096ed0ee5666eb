import Verif.Proof.Reread2
import Verif.Spec.Archive
/-! # What a successful read of arbitrary bytes yields: main induction -/

namespace Zpp
open Spec

theorem RrFs.toRr {c : Cfg} {data : List UInt8} {ok : Bool} {fs : List Ty} {p q : Nat} {vs : List Val} (h : RrFs c data fs p q vs) :
    Rr c data (.struct ok fs) p q (.list vs) :=
  ⟨h.mono, h.inb, h.short, h.again, h.load⟩

theorem RrEs.toArr {c : Cfg} {data : List UInt8} {t : Ty} {n p q : Nat} {vs : List Val} (h : RrEs c data t p q vs) (hn : vs.length = n) :
    Rr c data (.array n t) p q (.list vs) := by
  refine ⟨h.mono, h.inb, fun bs hw => ?_, fun hb => ?_, h.load⟩
  · simp only [wire, hn, if_true] at hw
    exact h.short bs hw
  · simp only [wire, hn, if_true]
    exact h.again hb

theorem RrEs.toSeq {c : Cfg} {data : List UInt8} {k : SeqKind} {sz : Option SizeTy} {t : Ty} {n p p1 q : Nat} {vs : List Val}
    (hp : p ≤ data.length) (hh : decHdr c (effSz c sz) data p = (.ok, n, p1)) (h : RrEs c data t p1 q vs) (hn : vs.length = n)
    (hk : k ≠ .span) (hsz : sz.getD c.dsz ≠ .none) (hf : k ≠ .view → Fits c.g (c.sizeof t) vs.length) :
    Rr c data (.seq k sz t) p q (.list vs) := by
  have h1 := decHdr_again hp hh
  obtain ⟨h1, h2, h3, h4⟩ := h1
  have := h.mono
  have e : (fmtOf c).dsz = c.dsz := rfl
  refine ⟨by omega, h.inb, fun bs hw => ?_, fun hb => ?_, ⟨hk, hsz, hf, h.load⟩⟩
  · simp only [wire, cat_eq_some, e] at hw
    obtain ⟨a, b, ha, hb, rfl⟩ := hw
    obtain ⟨pre, hpre, hl⟩ := h3 vs.length (by omega)
    unfold effSz at hpre h4
    rw [ha] at hpre
    cases hpre
    obtain ⟨l1, l2⟩ := h.short b hb
    refine ⟨by simp; omega, fun hr => ?_⟩
    simp only [RigidIn, rigid, Bool.and_eq_true, bne_iff_ne, ne_eq] at hr
    have h5 := h4 hr.2.1
    rw [← hn, ha] at h5
    cases h5
    rw [l2 ⟨hr.1, hr.2.2⟩, slice_append h1 h.mono]
  · obtain ⟨pre, hpre, hl⟩ := h3 vs.length (by omega)
    obtain ⟨b, hb⟩ := h.again hb
    refine ⟨pre ++ b, ?_⟩
    unfold effSz at hpre
    simp only [wire, e, hpre, hb, cat]

theorem RrAs.toAssoc {c : Cfg} {data : List UInt8} {mu ha : Bool} {sz : Option SizeTy} {key : Ty} {m : Option Ty} {n p p1 q : Nat} {vs : List Val}
    (hp : p ≤ data.length) (hh : decHdr c (effSz c sz) data p = (.ok, n, p1))
    (h : RrAs c (match m with | none => key | some m => .struct false [key, m]) p1 q vs) (hn : vs.length ≤ n)
    (hq : q ≤ data.length) (ho : Ordered (c.keyLt key) mu ha m.isSome vs) (hsz : sz.getD c.dsz ≠ .none) :
    Rr c data (.assoc mu ha sz key m) p q (.list vs) := by
  obtain ⟨h1, h2, h3, h4⟩ := decHdr_again hp hh
  have := h.mono
  have e : (fmtOf c).dsz = c.dsz := rfl
  obtain ⟨pre, hpre, hl⟩ := h3 vs.length (by omega)
  unfold effSz at hpre
  cases m with
  | none =>
    refine ⟨by omega, hq, fun bs hw => ?_, fun hb => ?_, ⟨hsz, ho, h.load⟩⟩
    · simp only [wire, cat_eq_some, e, hpre] at hw
      obtain ⟨a, b, ha, hb, rfl⟩ := hw
      cases ha
      have := h.short b hb
      exact ⟨by simp; omega, fun hr => by simp [RigidIn, rigid] at hr⟩
    · obtain ⟨b, hb⟩ := h.again hb
      exact ⟨pre ++ b, by simp only [wire, e, hpre, hb, cat]⟩
  | some m =>
    refine ⟨by omega, hq, fun bs hw => ?_, fun hb => ?_, ⟨hsz, ho, h.load⟩⟩
    · simp only [wire, cat_eq_some, e, hpre] at hw
      obtain ⟨a, b, ha, hb, rfl⟩ := hw
      cases ha
      have := h.short b hb
      exact ⟨by simp; omega, fun hr => by simp [RigidIn, rigid] at hr⟩
    · obtain ⟨b, hb⟩ := h.again hb
      exact ⟨pre ++ b, by simp only [wire, e, hpre, hb, cat]⟩

theorem seqBody_again {c : Cfg} {data : List UInt8} {k : SeqKind} {t : Ty} {rec : Val → Nat → Res} (ha : AbiOk c.sizeof)
    (hcp : k = .list ∨ copyOk c t = true) (hg : Good c t = true)
    (h : ∀ o p v q, p ≤ data.length → rec o p = ⟨.ok, v, q⟩ → Rr c data t p q v) {olds : List Val} {p q : Nat} {v : Val} (hp : p ≤ data.length)
    (he : seqBody c k t rec olds data p = ⟨.ok, v, q⟩) : ∃ vs, v = .list vs ∧ RrEs c data t p q vs ∧ vs.length = olds.length := by
  unfold seqBody at he
  split at he
  · rename_i hb
    have h1 := fun vs q => decRep_again (c := c) (data := data) (t := t) (n := olds.length) (p := p) (q := q) (olds := olds) (vs := vs) ha hb.2
      (hcp.resolve_left hb.1) hg rfl hp
    generalize decRep c t olds.length olds data p = r at h1 he
    obtain ⟨s, vs, q1⟩ := r
    cases he
    exact ⟨vs, rfl, h1 _ _ rfl⟩
  · have h1 := fun vs q => decAll_again h olds p vs q hp
    generalize decAll rec olds p = r at h1 he
    obtain ⟨s, vs, q1⟩ := r
    cases he
    exact ⟨vs, rfl, h1 _ _ rfl⟩

theorem Rr.some_flag {c : Cfg} {data : List UInt8} {t : Ty} {p q : Nat} {v : Val} (h : Rr c data t (p + 1) q v) (t' : Ty)
    (ht : ∃ dc, t' = .optional dc t ∨ t' = .optPtr t) : Rr c data t' p q (.some v) := by
  have := h.mono
  obtain ⟨dc, rfl | rfl⟩ := ht <;>
  · refine ⟨by omega, h.inb, fun bs hw => ?_, fun hb => ?_, h.load⟩
    · simp only [wire, cat_eq_some] at hw
      obtain ⟨a, b, ha, hb, rfl⟩ := hw
      cases ha
      have := (h.short b hb).1
      exact ⟨by simp; omega, fun hr => by simp [RigidIn, rigid] at hr⟩
    · obtain ⟨b, hb⟩ := h.again hb
      exact ⟨[1] ++ b, by simp only [wire, hb, cat]⟩

theorem Rr.none_flag {c : Cfg} {data : List UInt8} {t : Ty} {p : Nat} (hp : p + 1 ≤ data.length) (t' : Ty)
    (ht : ∃ dc, t' = .optional dc t ∨ t' = .optPtr t) : Rr c data t' p (p + 1) .none := by
  obtain ⟨dc, rfl | rfl⟩ := ht <;>
  · refine ⟨by omega, hp, fun bs hw => ?_, fun hb => ⟨[0], rfl⟩, by simp only [Loadable]⟩
    simp only [wire] at hw
    cases hw
    exact ⟨by simp; omega, fun hr => by simp [RigidIn, rigid] at hr⟩

/-- What is read from arbitrary bytes can be written, in no more bytes, and read back. -/
theorem decode_again {c : Cfg} (ha : AbiOk c.sizeof) (he : EnvGood c) (hsd : ∀ i, selfDelimiting c.dsz (c.env i) = true)
    (hlt : ∀ key, WeakOrder (c.keyLt key)) {data : List UInt8} : ∀ (d : Nat) (t : Ty), Good c t = true → selfDelimiting c.dsz t = true →
    ∀ o p v q, p ≤ data.length → decode d c t o data p = ⟨.ok, v, q⟩ → Rr c data t p q v := by
  intro d
  induction d with
  | zero => intro t _ _ o p v q _ h; cases h
  | succ d ih =>
    intro t hg hs o p v q hp h
    cases t with
    | scalar k n =>
      simp only [decode] at h
      split at h
      · rename_i bs q' hb
        cases h
        obtain ⟨h1, h2, h3, h4⟩ := getBytes_slice hp hb
        have hlt := ioNat_lt c bs
        have hd := digits_ioNat c bs
        rw [h4] at hlt hd
        refine ⟨by omega, h2, fun b hw => ?_, fun _ => ⟨bs, ?_⟩, by simp only [Loadable]⟩
        · simp only [wire, wireNum, if_pos hlt, hd] at hw
          cases hw
          exact ⟨by omega, fun _ => h3⟩
        · simp only [wire, wireNum, if_pos hlt, hd]
      · cases h; simp_all
    | bool =>
      simp only [decode] at h
      split at h
      · rename_i bs q' hb
        cases h
        obtain ⟨h1, h2, h3, h4⟩ := getBytes_slice hp hb
        obtain ⟨b, rfl⟩ := List.length_eq_one_iff.mp h4
        refine ⟨by omega, h2, fun b' hw => ?_, fun hbo => ⟨[b], ?_⟩, by simp only [Loadable]⟩
        · simp only [wire, wireNum, leNat_singleton] at hw
          split at hw
          · cases hw
            refine ⟨by simp; omega, fun _ => ?_⟩
            rw [← h3]; simp
          · cases hw
        · simp only [Bools, leNat_singleton] at hbo
          simp only [wire, wireNum, leNat_singleton, if_pos hbo]
          simp
      · cases h; simp_all
    | varint n zz =>
      simp only [decode] at h
      have hn : IntWidth n := intWidth_iff.mp (by simpa [Good, nodeOk] using hg)
      obtain ⟨h1, h2, x, rfl, hx, hl⟩ := getVarint_again hn zz hp h
      have hn0 : 0 < n := by rcases hn with h | h | h | h <;> omega
      have hle : leb (varintValue n zz x) = varintBytes (varintLoad n zz x) := leb_varintValue n zz x hn hx
      refine ⟨h1, h2, fun b hw => ?_, fun _ => ⟨leb (varintValue n zz x), by simp only [wire, wireNum, if_pos hx]⟩, by simp only [Loadable]⟩
      simp only [wire, wireNum, if_pos hx] at hw
      cases hw
      rw [hle]
      exact ⟨hl, fun hr => by simp [RigidIn, rigid] at hr⟩
    | empty =>
      cases h
      refine ⟨Nat.le_refl _, hp, fun bs hw => ?_, fun _ => ⟨[], rfl⟩, by simp only [Loadable]⟩
      simp only [wire] at hw
      cases hw
      simp [slice_self]
    | struct ok fs =>
      simp only [decode] at h
      simp only [selfDelimiting] at hs
      split at h
      · rename_i hb
        have hg' := hg
        simp only [Good, nodeOk, Bool.and_eq_true] at hg'
        have h1 := fun vs q => decRep_again (c := c) (data := data) (n := 1) (p := p) (q := q) (olds := [o]) (vs := vs) ha hb
          hg'.1 hg rfl hp
        generalize decRep c (.struct ok fs) 1 [o] data p = r at h1 h
        obtain ⟨s, vs, q1⟩ := r
        cases h
        obtain ⟨h2, h3⟩ := h1 _ _ rfl
        obtain ⟨v, rfl⟩ := List.length_eq_one_iff.mp h3
        refine ⟨h2.mono, h2.inb, fun bs hw => ?_, fun hbo => ?_, h2.load.1⟩
        · exact h2.short bs (wireAll_single hw)
        · obtain ⟨bs, hbs⟩ := h2.again ⟨hbo, trivial⟩
          simp only [wireAll, cat_eq_some] at hbs
          obtain ⟨a, _, ha', _⟩ := hbs
          exact ⟨a, ha'⟩
      · simp only [Good, Bool.and_eq_true] at hg
        have h1 := fun vs q => decFields_again (c := c) (data := data) (rec := fun t v p => decode d c t v data p) fs o.elems p vs q
          (fun t ht => ih t (GoodL_mem hg.2 t ht) (selfDelimitingL_mem hs t ht)) hp
        generalize decFields (fun t v p => decode d c t v data p) fs o.elems p = r at h1 h
        obtain ⟨s, vs, q1⟩ := r
        cases h
        exact (h1 _ _ rfl).toRr
    | array n t' =>
      simp only [decode] at h
      simp only [selfDelimiting] at hs
      simp only [Good, nodeOk, Bool.and_eq_true] at hg
      split at h
      · rename_i hb
        have h1 := fun vs q => decRep_again (c := c) (data := data) (n := n) (p := p) (q := q) (olds := resizeVals o.elems n .unit) (vs := vs) ha hb
          hg.1.2 hg.2 (resizeVals_length _ _ _) hp
        generalize decRep c t' n _ data p = r at h1 h
        obtain ⟨s, vs, q1⟩ := r
        cases h
        exact (h1 _ _ rfl).1.toArr (h1 _ _ rfl).2
      · have h1 := fun vs q => decAll_again (ih t' hg.2 hs) (resizeVals o.elems n .unit) p vs q hp
        rw [resizeVals_length] at h1
        generalize decAll _ (resizeVals o.elems n .unit) p = r at h1 h
        obtain ⟨s, vs, q1⟩ := r
        cases h
        exact (h1 _ _ rfl).1.toArr (h1 _ _ rfl).2
    | seq k sz t' =>
      simp only [selfDelimiting, Bool.and_eq_true, bne_iff_ne, ne_eq] at hs
      simp only [Good, nodeOk, Bool.and_eq_true, Bool.or_eq_true, beq_iff_eq, bne_iff_ne, ne_eq] at hg
      have hdec : ∃ n p1, decHdr c (effSz c sz) data p = (.ok, n, p1) ∧
          seqFill c k t' (fun v p => decode d c t' v data p) (dflt c d t') o data n p1 = ⟨.ok, v, q⟩ := by
        simp only [decode] at h
        split at h
        · rename_i hn; exact absurd hn hs.1.2
        · split at h
          · rename_i hh; exact ⟨_, _, hh, h⟩
          · cases h; simp_all
      obtain ⟨n, p1, hh, hf⟩ := hdec
      have hin := (decHdr_again hp hh).2.1
      have body : ∀ olds, olds.length = n → k ≠ .view → Fits c.g (c.sizeof t') n →
          seqBody c k t' (fun v p => decode d c t' v data p) olds data p1 = ⟨.ok, v, q⟩ → Rr c data (.seq k sz t') p q v := by
        intro olds hl hv hfit hb
        obtain ⟨vs, rfl, h1, h2⟩ := seqBody_again ha hg.1.1 hg.2 (ih t' hg.2 hs.2) hin hb
        exact h1.toSeq hp hh (by omega) hs.1.1 hs.1.2 (fun _ => by rw [h2, hl]; exact hfit)
      cases k with
      | view =>
        simp only [seqFill] at hf
        split at hf
        · cases hf
        · split at hf
          · rename_i hle
            cases hf
            have hbt : byteTy t' = true := by simpa using hg.1.2
            have hso : c.sizeof t' = 1 ∧ t'.endianIndep = true ∧ plain t' = true := by
              cases t' with
              | scalar sk m => cases sk <;> simp [byteTy] at hbt <;> (subst hbt; simp [ha.scalar, Ty.endianIndep, plain])
              | _ => simp [byteTy] at hbt
            have h1 := block_again (c := c) (data := data) ha (byteSer_of_endianIndep c.sizeof t' hso.2.1) (Or.inr hso.2.1) hso.2.2 hg.2 n p1 (p1 + n)
              (by rw [hso.1]; omega) hle
            have e : (data.drop p1).take n = slice data p1 (p1 + n) := by simp [slice]
            rw [e]
            exact h1.1.toSeq hp hh h1.2 (by simp) hs.1.2 (by simp)
          · cases hf
      | span => exact absurd rfl hs.1.1
      | _ =>
        simp only [seqFill] at hf
        split at hf
        · cases hf
        · split at hf
          · cases hf
          · exact body _ (resizeVals_length _ _ _) (by simp) ⟨by
              rename_i h1 _
              by_cases h : c.g.limit = sizeMax
              · exact Or.inl h
              · right
                have := not_and.mp h1 h
                omega, by omega⟩ hf
    | assoc mu hsh sz key m =>
      simp only [decode] at h
      split at h
      · rename_i n p1 hh
        have hin := (decHdr_again hp hh).2.1
        have hsz : sz.getD c.dsz ≠ .none := by
          intro hz
          unfold effSz at hh
          rw [hz] at hh
          cases hh
        have hel : ∀ p v q, p ≤ data.length → (match m with
              | none => decode d c key (dflt c d key) data p
              | some m => (decFields (fun t v p => decode d c t v data p) [key, m] [dflt c d key, dflt c d m] p).toRes) = ⟨.ok, v, q⟩ →
            Rr c data (match m with | none => key | some m => .struct false [key, m]) p q v := by
          intro p v q hp h
          cases m with
          | none => exact ih key (by simpa [Good] using hg) (by simpa [selfDelimiting] using hs) _ _ _ _ hp h
          | some m =>
            simp only [Good, Bool.and_eq_true] at hg
            simp only [selfDelimiting, Bool.and_eq_true] at hs
            simp only at h
            have h1 := fun vs q => decFields_again (c := c) (data := data) (rec := fun t v p => decode d c t v data p) [key, m]
              [dflt c d key, dflt c d m] p vs q (by
                intro t ht
                simp only [List.mem_cons, List.not_mem_nil, or_false] at ht
                rcases ht with rfl | rfl
                · exact ih _ hg.1 hs.1
                · exact ih _ hg.2 hs.2) hp
            generalize decFields (fun t v p => decode d c t v data p) [key, m] [dflt c d key, dflt c d m] p = r at h1 h
            obtain ⟨s, vs, q1⟩ := r
            cases h
            exact (h1 _ _ rfl).toRr
        have h1 := fun vs q => decAssoc_again (lt := c.keyLt key) (multi := mu) (hashed := hsh) (isMap := m.isSome) (hlt key) (p0 := p1) hel n [] p1 vs q hin
          ⟨Nat.le_refl _, fun bs hb => by simp only [wireAll] at hb; cases hb; simp, fun _ => ⟨[], rfl⟩, trivial⟩ (by simp [OrderedK])
        generalize decAssoc _ (assocInsert (c.keyLt key) mu hsh m.isSome) n [] p1 = r at h1 h
        obtain ⟨s, vs, q1⟩ := r
        cases h
        obtain ⟨h2, h3, h4, h5⟩ := h1 _ _ rfl
        exact h2.toAssoc hp hh (by simpa using h4) h5 (orderedK_iff.mp h3) hsz
      · cases h; simp_all
    | optional dc t' =>
      simp only [decode] at h
      simp only [Good] at hg
      simp only [selfDelimiting] at hs
      split at h
      · rename_i bs p1 hb
        obtain ⟨h1, h2, _, _⟩ := getBytes_slice hp hb
        subst h1
        split at h
        · cases h; exact .none_flag (t := t') h2 _ ⟨dc, Or.inl rfl⟩
        · split at h
          · have h3 := fun o v q => ih t' hg hs o (p + 1) v q h2
            have h5 : ∃ cur, (⟨(decode d c t' cur data (p + 1)).s, .some (decode d c t' cur data (p + 1)).v, (decode d c t' cur data (p + 1)).p⟩ : Res) = ⟨.ok, v, q⟩ := ⟨_, h⟩
            obtain ⟨cur, h5⟩ := h5
            have h3 := h3 cur
            generalize decode d c t' cur data (p + 1) = r at h3 h5
            obtain ⟨s, v, q1⟩ := r
            cases h5
            exact (h3 _ _ rfl).some_flag _ ⟨dc, Or.inl rfl⟩
          · have h3 := fun v q => ih t' hg hs (dflt c d t') (p + 1) v q h2
            generalize decode d c t' (dflt c d t') data (p + 1) = r at h3 h
            obtain ⟨s, v, q1⟩ := r
            cases s <;> first | (cases h; done) | skip
            cases h
            exact (h3 _ _ rfl).some_flag _ ⟨dc, Or.inl rfl⟩
      · cases h; simp_all
    | optPtr t' =>
      simp only [decode] at h
      simp only [Good] at hg
      simp only [selfDelimiting] at hs
      split at h
      · rename_i bs p1 hb
        obtain ⟨h1, h2, _, _⟩ := getBytes_slice hp hb
        subst h1
        split at h
        · cases h; exact .none_flag (t := t') h2 _ ⟨true, Or.inr rfl⟩
        · have h3 := fun v q => ih t' hg hs (dflt c d t') (p + 1) v q h2
          generalize decode d c t' (dflt c d t') data (p + 1) = r at h3 h
          obtain ⟨s, v, q1⟩ := r
          cases s <;> first | (cases h; done) | skip
          cases h
          exact (h3 _ _ rfl).some_flag _ ⟨true, Or.inr rfl⟩
      · cases h; simp_all
    | uptr t' =>
      simp only [decode] at h
      simp only [Good] at hg
      simp only [selfDelimiting] at hs
      have h3 := fun v q => ih t' hg hs (dflt c d t') p v q hp
      generalize decode d c t' (dflt c d t') data p = r at h3 h
      obtain ⟨s, v, q1⟩ := r
      cases s <;> first | (cases h; done) | skip
      cases h
      have h4 := h3 _ _ rfl
      exact ⟨h4.mono, h4.inb, h4.short, h4.again, h4.load⟩
    | variant idTy ids dcs alts =>
      simp only [decode] at h
      simp only [Good, nodeOk, Bool.and_eq_true] at hg
      simp only [selfDelimiting, Bool.and_eq_true] at hs
      have h3 := fun v q => ih idTy hg.1.2 hs.1 (dflt c d idTy) p v q hp
      generalize decode d c idTy (dflt c d idTy) data p = r at h3 h
      obtain ⟨s, id, p1⟩ := r
      cases s <;> first | (cases h; done) | skip
      have h3 := h3 _ _ rfl
      simp only at h
      split at h
      · cases h
      · rename_i i hfi
        have hid := (findId_getElem hfi).2
        simp only [Nat.sub_zero] at hid
        split at h
        · rename_i t' dc halt hdc
          have hm := List.mem_of_getElem? halt
          have h4 := fun o v q => ih t' (GoodL_mem hg.2 t' hm) (selfDelimitingL_mem hs.2 t' hm) o p1 v q h3.inb
          have hv : ∃ v', v = .alt i v' ∧ Rr c data t' p1 q v' := by
            unfold decAlt at h
            cases dc
            · simp only [Bool.false_eq_true, if_false] at h
              have h4 := h4 (dflt c d t')
              generalize decode d c t' (dflt c d t') data p1 = r at h4 h
              obtain ⟨s, v, q1⟩ := r
              cases s <;> first | (cases h; done) | skip
              cases h
              exact ⟨v, rfl, h4 _ _ rfl⟩
            · simp only [if_true] at h
              have h5 : ∃ cur, (⟨(decode d c t' cur data p1).s, .alt i (decode d c t' cur data p1).v, (decode d c t' cur data p1).p⟩ : Res) = ⟨.ok, v, q⟩ := ⟨_, h⟩
              obtain ⟨cur, h5⟩ := h5
              have h4 := h4 cur
              generalize decode d c t' cur data p1 = r at h4 h5
              obtain ⟨s, v, q1⟩ := r
              cases h5
              exact ⟨v, rfl, h4 _ _ rfl⟩
          obtain ⟨v', rfl, h5⟩ := hv
          have := h3.mono
          have := h5.mono
          refine ⟨by omega, h5.inb, fun bs hw => ?_, fun hb => ?_, ?_⟩
          · simp only [wire, hid, halt, cat_eq_some] at hw
            obtain ⟨a, b, ha', hb', rfl⟩ := hw
            obtain ⟨l1, e1⟩ := h3.short a (wireId_wire hg.1.1.1.1.1 ha').1
            obtain ⟨l2, e2⟩ := h5.short b hb'
            refine ⟨by simp; omega, fun hr => ?_⟩
            simp only [RigidIn, rigid, Bool.and_eq_true] at hr
            rw [e1 ⟨hr.1, hr.2.1⟩, e2 ⟨hr.1, rigidL_mem hr.2.2 t' hm⟩, slice_append h3.mono h5.mono]
          · simp only [Bools] at hb
            obtain ⟨a, ha'⟩ := h3.again (boolId_bools hg.1.1.1.1.1 (hb.1 id hid))
            obtain ⟨b, hb'⟩ := h5.again (hb.2 t' halt)
            exact ⟨a ++ b, by simp only [wire, hid, halt, wire_wireId hg.1.1.1.1.1 ha', hb', cat]⟩
          · intro t'' ht''
            rw [halt] at ht''
            cases ht''
            exact h5.load
        · cases h
    | bitset n =>
      simp only [decode] at h
      split at h
      · rename_i bs q' hb
        cases h
        obtain ⟨h1, h2, h3, h4⟩ := getBytes_slice hp hb
        have hl : (readBits n bs).length = n := by simp [readBits]
        refine ⟨by omega, h2, fun b hw => ?_, fun _ => ⟨packBits n (readBits n bs), by simp only [wire, hl, if_true]⟩, by simp only [Loadable]⟩
        simp only [wire, hl, if_true] at hw
        cases hw
        refine ⟨by simp; omega, fun hr => ?_⟩
        simp only [RigidIn, rigid, beq_iff_eq] at hr
        rw [packBits_readBits hr.2 h4, h3]
      · cases h; simp_all
    | msg sz ok maps nums fs => simp [selfDelimiting] at hs
    | ref i =>
      simp only [decode] at h
      have h1 := ih (c.env i) (he i).1 (hsd i) o p v q hp h
      have h2 := hsd i
      simp only [Good, nodeOk] at hg
      cases hi : c.env i with
      | struct ok fs =>
        rw [hi] at h1
        have hf : (fmtOf c).env i = .struct ok fs := hi
        have hw : wire (fmtOf c) (.ref i) v = wire (fmtOf c) (.struct ok fs) v := by
          cases v <;> simp only [wire, wireNum, hf]
        refine ⟨h1.mono, h1.inb, fun bs hb => ?_, fun hb => ?_, ?_⟩
        · rw [hw] at hb
          obtain ⟨l1, l2⟩ := h1.short bs hb
          exact ⟨l1, fun hr => l2 ⟨hr.1, by have := hr.1 i; rwa [hi] at this⟩⟩
        · rw [hw]
          apply h1.again
          cases v <;> simp only [Bools, hi] at hb ⊢
          exact hb
        · have := h1.load
          cases v <;> simp only [Loadable, hi] at this ⊢
          exact this
      | msg => rw [hi] at h2; simp [selfDelimiting] at h2
      | _ => rw [hi] at hg; cases hg

/-- All destinations at once. -/
theorem decMany_again {d : Nat} {c : Cfg} {data : List UInt8} (ds : List (Ty × Val)) (hc : Delimited c (ds.map Prod.fst)) :
    ∀ (p q : Nat) (vs : List Val), p ≤ data.length → decMany d c data ds p = ⟨.ok, vs, q⟩ →
    vs.length = ds.length ∧ p ≤ q ∧ q ≤ data.length ∧
    (∀ bs, wireItems (fmtOf c) ((ds.map Prod.fst).zip vs) = some bs → bs.length + p ≤ q ∧
      (RigidIn c (rigidL c.dsz (ds.map Prod.fst)) → bs = slice data p q)) ∧
    ((∀ x ∈ (ds.map Prod.fst).zip vs, Bools c.env x.1 x.2) → ∃ bs, wireItems (fmtOf c) ((ds.map Prod.fst).zip vs) = some bs) ∧
    (∀ x ∈ (ds.map Prod.fst).zip vs, Loadable c x.1 x.2) := by
  induction ds with
  | nil =>
    intro p q vs hp h
    cases h
    refine ⟨rfl, Nat.le_refl _, hp, ?_, fun _ => ⟨[], rfl⟩, by simp⟩
    intro bs hb
    simp only [List.map_nil, List.zip_nil_left, wireItems] at hb
    cases hb
    simp [slice_self]
  | cons x ds ih =>
    obtain ⟨t, o⟩ := x
    intro p q vs hp h
    unfold decMany at h
    have h1 := decode_again (data := data) hc.abi hc.env hc.envExtent hc.keys d t (hc.types t (by simp)) (hc.extent t (by simp)) o p
    generalize decode d c t o data p = r at h1 h
    obtain ⟨s, v, q1⟩ := r
    cases s <;> first | (cases h; done) | skip
    have h1 := h1 v q1 hp rfl
    have h2 := ih ⟨hc.abi, hc.env, hc.envExtent, hc.keys, fun t ht => hc.types t (by simp_all), fun t ht => hc.extent t (by simp_all)⟩ q1
    simp only at h
    generalize decMany d c data ds q1 = r at h2 h
    obtain ⟨s, vs', q2⟩ := r
    cases h
    obtain ⟨a1, a2, a3, a4, a5, a6⟩ := h2 q2 vs' h1.inb rfl
    have := h1.mono
    dsimp only
    refine ⟨by simp [a1], by omega, a3, fun bs hb => ?_, fun hb => ?_, ?_⟩
    · simp only [List.map_cons, List.zip_cons_cons, wireItems, cat_eq_some] at hb
      obtain ⟨x, y, hx, hy, rfl⟩ := hb
      obtain ⟨l1, e1⟩ := h1.short x hx
      obtain ⟨l2, e2⟩ := a4 y hy
      refine ⟨by simp; omega, fun hr => ?_⟩
      simp only [RigidIn, List.map_cons, rigidL, Bool.and_eq_true] at hr
      rw [e1 ⟨hr.1, hr.2.1⟩, e2 ⟨hr.1, hr.2.2⟩, slice_append h1.mono a2]
    · simp only [List.map_cons, List.zip_cons_cons, List.mem_cons, forall_eq_or_imp] at hb
      obtain ⟨x, hx⟩ := h1.again hb.1
      obtain ⟨y, hy⟩ := a5 hb.2
      exact ⟨x ++ y, by simp only [List.map_cons, List.zip_cons_cons, wireItems, hx, hy, cat]⟩
    · simp only [List.map_cons, List.zip_cons_cons, List.mem_cons, forall_eq_or_imp]
      exact ⟨h1.load, a6⟩

end Zpp
