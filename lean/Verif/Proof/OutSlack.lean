import Verif.Proof.OutExact
/-!
# Buffer size and position

Every step of the serialization reserves `k` bytes and writes `m` of them, where `m = k` except for varints, which
ask for their maximal size. A relation between size and position before and after that holds of such steps and is
transitive holds of every call.
-/

namespace Zpp
open Spec

/-- A relation between (size, position) before and after that every step of a serialization respects. -/
structure Track (g : Growth) (R : Nat → Nat → Nat → Nat → Prop) : Prop where
  refl : ∀ l p, R l p l p
  trans : ∀ {l p l1 p1 l2 p2}, p ≤ p1 → p1 ≤ p2 → l ≤ l1 → l1 ≤ l2 → R l p l1 p1 → R l1 p1 l2 p2 → R l p l2 p2
  fits : ∀ {l p m}, p + m ≤ l → R l p l (p + m)
  grows : ∀ {l p k m}, g.resizable = true → p ≤ l → l < p + k →
    m = k ∨ (1 ≤ m ∧ m ≤ k ∧ k ≤ 10) → R l p (newSize g l k) (p + m)

/-- The step keeps to the relation. -/
def Near (R : Nat → Nat → Nat → Nat → Prop) (m : OutM) : Prop :=
  ∀ st, Valid st → R st.data.length st.pos (m st).2.data.length (m st).2.pos

section
variable {g : Growth} {R : Nat → Nat → Nat → Nat → Prop}

theorem Near.skip (hR : Track g R) : Near R OutM.skip := fun _ _ => hR.refl _ _
theorem Near.fail (hR : Track g R) (s : Status) : Near R (OutM.fail s) := fun _ _ => hR.refl _ _

theorem Near.andThen (hg : GrowthOk g) (hR : Track g R) {a b : OutM} (sa : SafeOut g a) (sb : SafeOut g b)
    (ha : Near R a) (hb : Near R b) : Near R (a.andThen b) := by
  intro st hv
  have h1 := ha st hv
  have s1 := sa st hv
  unfold OutM.andThen
  split
  · rename_i st' he
    rw [he] at h1 s1
    have hv' := s1.valid hg hv
    have s2 := sb st' hv'
    exact hR.trans s1.mono s2.mono s1.len_ge s2.len_ge h1 (hb st' hv')
  · exact h1

theorem claim_near (hg : GrowthOk g) (n : Nat) {st : OutSt} (hv : Valid st) :
    ((claim g n st).1 ≠ .ok ∧ (claim g n st).2 = st) ∨
    (claim g n st = (.ok, st) ∧ st.pos + n ≤ st.data.length) ∨
    ((claim g n st).1 = .ok ∧ (claim g n st).2.pos = st.pos ∧ st.data.length < st.pos + n ∧ g.resizable = true ∧
      (claim g n st).2.data.length = newSize g st.data.length n) := by
  have hp := hv.pos_le
  unfold claim
  split
  · exact Or.inl ⟨by simp, rfl⟩
  · split
    · rename_i h1 h2
      rcases enlargeFor_spec g (hg h2) n st hv (by omega) with ⟨h, e⟩ | ⟨h, ⟨e, _⟩ | ⟨e, _⟩ | ⟨e, h1, h2, h3⟩⟩ <;> rw [e]
      · exact Or.inr (Or.inl ⟨rfl, by omega⟩)
      · exact Or.inl ⟨by simp, rfl⟩
      · exact Or.inl ⟨by simp, rfl⟩
      · refine Or.inr (Or.inr ⟨rfl, rfl, by omega, by assumption, ?_⟩)
        simp; omega
    · have hs : subSz st.data.length st.pos = st.data.length - st.pos := subSz_of_le hp
      split
      · exact Or.inl ⟨by simp, rfl⟩
      · exact Or.inr (Or.inl ⟨rfl, by omega⟩)

theorem claimWrite_near (hg : GrowthOk g) (hR : Track g R) {n : Nat} {m : OutM}
    (hm : ∀ st, Valid st → st.pos + n ≤ st.data.length →
      (m st).2.data.length = st.data.length ∧ (m st).2.pos = st.pos + n) :
    Near R ((claim g n).andThen m) := by
  intro st hv
  have hp := hv.pos_le
  obtain ⟨c1, c2, c3⟩ := claim_safe hg n st hv
  unfold OutM.andThen
  rcases claim_near hg n hv with ⟨h1, h2⟩ | ⟨h1, h2⟩ | ⟨h1, h2, h3, h4, h5⟩
  · split
    · rename_i st' he
      exact absurd (congrArg Prod.fst he) h1
    · rw [h2]; exact hR.refl _ _
  · rw [h1]
    obtain ⟨e1, e2⟩ := hm st hv h2
    simp only [e1, e2]
    exact hR.fits h2
  · split
    · rename_i st' he
      rw [he] at c1 c2 c3 h2 h5
      have hv' := c1.valid hg hv
      have h6 := c3 rfl
      simp only at h2 h5 h6
      obtain ⟨e1, e2⟩ := hm st' hv' (by omega)
      rw [e1, e2, h2, h5]
      exact hR.grows h4 hp h3 (Or.inl rfl)
    · rename_i hr
      exact absurd (Prod.ext h1 rfl : claim g n st = (.ok, (claim g n st).2)) (hr _)

theorem put_near (hg : GrowthOk g) (hR : Track g R) (bs : List UInt8) : Near R (put g bs) := by
  refine claimWrite_near hg hR ?_
  intro st hv h
  rw [memcpyAt_eq h]
  simp; omega

theorem encRep_near (hg : GrowthOk g) (hR : Track g R) (r) : Near R (encRep g r) := by
  cases r
  · exact Near.fail hR _
  · show Near R (putBytes g _)
    unfold putBytes; split
    · exact Near.skip hR
    · exact put_near hg hR _

theorem encBitset_near (hg : GrowthOk g) (hR : Track g R) (n : Nat) (bits : List Bool) : Near R (encBitset g n bits) := by
  unfold encBitset
  split
  · rename_i hn
    refine claimWrite_near hg hR ?_
    intro st hv h
    rw [if_pos h]
    obtain ⟨r, e, hl⟩ := orBits_isSome bits 0 ((st.data.drop st.pos).take (bitsetBytes n))
      (by simp [bitsetBytes] at h ⊢; omega)
    rw [e]
    simp only
    have hlr : r.length = bitsetBytes n := by rw [hl]; simp; omega
    rw [memcpyAt_eq (by omega)]
    simp; omega
  · exact Near.fail hR _

theorem putVarint_near (hg : GrowthOk g) (hR : Track g R) {n value : Nat} (hn : n ≤ 8) (hn0 : 0 < n)
    (hval : value < 2 ^ (8 * n)) : Near R (putVarint g n value) := by
  intro st hv
  have hp := hv.pos_le
  have hmax : varintMaxSize n ≤ 10 := by unfold varintMaxSize; omega
  have hpos := varintBytes_length_pos value
  have hle := varintBytes_length_le_max n value hval
  have wr : ∀ st' : OutSt, st'.pos + (varintBytes value).length ≤ st'.data.length →
      (memcpyAt (varintBytes value) st').2.data.length = st'.data.length ∧
      (memcpyAt (varintBytes value) st').2.pos = st'.pos + (varintBytes value).length := by
    intro st' h
    rw [memcpyAt_eq h]
    simp; omega
  unfold putVarint
  split
  · rename_i hr
    rcases enlargeFor_spec g (hg hr) (varintMaxSize n) st hv (by omega) with
      ⟨h, e⟩ | ⟨h, ⟨e, _⟩ | ⟨e, _⟩ | ⟨e, h1, h2, h3⟩⟩ <;> rw [OutM.andThen, e] <;> simp only
    · obtain ⟨e1, e2⟩ := wr st (by omega)
      rw [e1, e2]
      exact hR.fits (by omega)
    · exact hR.refl _ _
    · exact hR.refl _ _
    · obtain ⟨e1, e2⟩ := wr ⟨st.data ++ List.replicate (newSize g st.data.length (varintMaxSize n) - st.data.length) 0, st.pos⟩
        (by simp; omega)
      rw [e1, e2]
      have : (st.data ++ List.replicate (newSize g st.data.length (varintMaxSize n) - st.data.length) (0 : UInt8)).length =
          newSize g st.data.length (varintMaxSize n) := by simp; omega
      simp only [this]
      exact hR.grows hr hp (by omega) (Or.inr ⟨hpos, hle, hmax⟩)
  · have hsz := varintSize_eq_length n value hn0 hval
    rw [if_neg (by omega)]
    split
    · exact hR.refl _ _
    · obtain ⟨e1, e2⟩ := wr st (by omega)
      rw [e1, e2]
      exact hR.fits (by omega)

end

section
variable {c : Cfg} {R : Nat → Nat → Nat → Nat → Prop}

theorem encHdr_near (hg : GrowthOk c.g) (hR : Track c.g R) (sz : SizeTy) (n : Nat) : Near R (encHdr c sz n) := by
  cases sz with
  | fixed k => exact put_near hg hR _
  | varint => exact putVarint_near hg hR (by omega) (by omega) (Nat.mod_lt _ (by omega))
  | none => exact Near.skip hR

theorem encAll_near {g : Growth} (hg : GrowthOk g) (hR : Track g R) {rec : Val → OutM} (s : ∀ v, SafeOut g (rec v))
    (h : ∀ v, Near R (rec v)) : ∀ vs, Near R (encAll rec vs)
  | [] => Near.skip hR
  | v :: vs => Near.andThen hg hR (s v) (encAll_safe hg s vs) (h v) (encAll_near hg hR s h vs)

theorem encFields_near {g : Growth} (hg : GrowthOk g) (hR : Track g R) {rec : Ty → Val → OutM} (s : ∀ t v, SafeOut g (rec t v))
    (h : ∀ t v, Near R (rec t v)) : ∀ ts vs, Near R (encFields rec ts vs)
  | [], [] => Near.skip hR
  | [], _ :: _ => Near.fail hR _
  | _ :: _, [] => Near.fail hR _
  | t :: ts, v :: vs => Near.andThen hg hR (s t v) (encFields_safe hg s ts vs) (h t v) (encFields_near hg hR s h ts vs)

theorem encVarintVal_near (hg : GrowthOk c.g) (hR : Track c.g R) (n : Nat) (zz : Bool) (v : Val) :
    Near R (encVarintVal c n zz v) := by
  unfold encVarintVal
  split
  · rename_i x
    split
    · rename_i h
      exact putVarint_near hg hR h.2.1 h.1 (varintLoad_lt n zz x h.1 h.2.2)
    · exact Near.fail hR _
  · exact Near.fail hR _

theorem encTag_near (hg : GrowthOk c.g) (hR : Track c.g R) (maps num i wt) : Near R (encTag c maps num i wt) := by
  unfold encTag
  split <;> exact putVarint_near hg hR (by omega) (by omega) (Nat.mod_lt _ (by omega))

theorem moveAhead_near {g : Growth} (hg : GrowthOk g) (hR : Track g R) (p : Nat) {st : OutSt} (hv : Valid st)
    (hk : p + 1 ≤ st.pos) :
    R st.data.length st.pos (moveAhead g p st).2.data.length (moveAhead g p st).2.pos ∧
    st.pos ≤ (moveAhead g p st).2.pos ∧ st.data.length ≤ (moveAhead g p st).2.data.length := by
  have hp := hv.pos_le
  unfold moveAhead
  simp only
  split
  · exact ⟨hR.refl _ _, Nat.le_refl _, Nat.le_refl _⟩
  · generalize varintSize 8 (subSz (subSz st.pos p) 1) - 1 = A
    obtain ⟨c1, c2, c3⟩ := claim_safe hg A st hv
    have l : ∀ st' : OutSt, st.pos + A ≤ st'.data.length →
        (st'.data.take (p + 1 + A) ++ (st'.data.take st.pos).drop (p + 1) ++ st'.data.drop (st.pos + A)).length =
          st'.data.length := by
      intro st' h
      simp only [List.length_append, List.length_take, List.length_drop]
      omega
    rcases claim_near hg A hv with ⟨h1, h2⟩ | ⟨h1, h2⟩ | ⟨h1, h2, h3, h4, h5⟩
    · split
      · rename_i st' he
        exact absurd (congrArg Prod.fst he) h1
      · rw [h2]; exact ⟨hR.refl _ _, Nat.le_refl _, Nat.le_refl _⟩
    · rw [h1]
      simp only
      rw [if_pos ⟨h2, hk⟩]
      simp only [l st h2]
      exact ⟨hR.fits h2, by omega, Nat.le_refl _⟩
    · have h6 := c1.len_ge
      split
      · rename_i st' he
        rw [he] at c2 c3 h2 h5 h6
        have h7 := c3 rfl
        simp only at h2 h5 h6 h7
        rw [if_pos ⟨by omega, hk⟩]
        simp only [l st' (by omega), h5]
        exact ⟨hR.grows h4 hp h3 (Or.inl rfl), by omega, by omega⟩
      · rename_i hr
        exact absurd (Prod.ext h1 rfl : claim g A st = (.ok, (claim g A st).2)) (hr _)

theorem patchSize_len (c : Cfg) (sz : SizeTy) (p n : Nat) (st : OutSt) :
    (patchSize c sz p n st).2.data.length = st.data.length ∧ (patchSize c sz p n st).2.pos = st.pos := by
  have w : ∀ bs : List UInt8, (match memcpyAt bs { st with pos := p } with
      | (.ok, st') => ((.ok, { st' with pos := st.pos }) : Status × OutSt)
      | (s, _) => (s, st)).2.data.length = st.data.length ∧ (match memcpyAt bs { st with pos := p } with
      | (.ok, st') => ((.ok, { st' with pos := st.pos }) : Status × OutSt)
      | (s, _) => (s, st)).2.pos = st.pos := by
    intro bs
    by_cases h : p + bs.length ≤ st.data.length
    · rw [memcpyAt_eq h]
      simp; omega
    · unfold memcpyAt
      rw [if_neg h]
      simp
  unfold patchSize
  simp only
  cases sz with
  | none => simp
  | fixed k => exact w _
  | varint =>
    simp only
    split
    · simp
    · exact w _

theorem encByProtocol_near (hg : GrowthOk c.g) (hR : Track c.g R) (sz : SizeTy) {body : OutM}
    (hb : SafeOut c.g body) (nb : Near R body) : Near R (encByProtocol c sz body) := by
  intro st hv
  have hh := encHdr_safe hg sz 0
  have h1 := hh.andThen hg hb st hv
  have n1 := Near.andThen hg hR hh hb (encHdr_near hg hR sz 0) nb st hv
  have hpos : ∀ st1, (encHdr c sz 0).andThen body st = (.ok, st1) →
      st.pos + hdrLen sz ≤ st1.pos := by
    intro st1 he
    have h2 := hh st hv
    unfold OutM.andThen at he
    split at he
    · rename_i st2 he2
      rw [he2] at h2
      have := encHdr_pos hg he2 hv
      have h3 := (hb st2 (h2.valid hg hv)).mono
      rw [he] at h3
      simp only at h3
      omega
    · rename_i r hr; exact absurd he (hr _)
  unfold encByProtocol
  cases sz with
  | none => exact nb st hv
  | fixed k =>
    simp only
    rw [OutM.andThen]
    split
    · rename_i st1 he
      rw [he] at n1
      obtain ⟨e1, e2⟩ := patchSize_len c (.fixed k) st.pos (subSz (subSz st1.pos st.pos) k) st1
      rw [e1, e2]
      exact n1
    · exact n1
  | varint =>
    simp only
    rw [OutM.andThen]
    split
    · rename_i st1 he
      rw [he] at h1 n1
      have hp := hpos st1 he
      simp only [hdrLen] at hp
      have hv1 := h1.valid hg hv
      obtain ⟨m, mm, ml⟩ := moveAhead_near hg hR st.pos hv1 hp
      simp only at m mm ml n1
      have key := hR.trans h1.mono mm h1.len_ge ml n1 m
      rw [OutM.andThen]
      split
      · rename_i st2 he2
        rw [he2] at key
        obtain ⟨e1, e2⟩ := patchSize_len c .varint st.pos (subSz (subSz st1.pos st.pos) 1) st2
        rw [e1, e2]
        exact key
      · exact key
    · exact n1

theorem pbEncField_near (hg : GrowthOk c.g) (hR : Track c.g R) {rec : Ty → Val → OutM}
    (s : ∀ t v, SafeOut c.g (rec t v)) (h : ∀ t v, Near R (rec t v)) (maps num i t v) :
    Near R (pbEncField c rec maps num i t v) := by
  have hf : Near R (OutM.fail .illFormed) := Near.fail hR _
  have ps : ∀ x, SafeOut c.g (putVarint c.g 8 (x % 2 ^ 64)) := fun x =>
    putVarint_safe hg (by omega) (by omega) (Nat.mod_lt _ (by omega))
  have hp : ∀ x, Near R (putVarint c.g 8 (x % 2 ^ 64)) := fun x =>
    putVarint_near hg hR (by omega) (by omega) (Nat.mod_lt _ (by omega))
  have ts := fun wt => encTag_safe hg maps num i wt
  have tn := fun wt => encTag_near hg hR maps num i wt
  unfold pbEncField
  split
  · exact Near.skip hR
  · exact Near.andThen hg hR (ts _) (encVarintVal_safe hg _ _ _) (tn _) (encVarintVal_near hg hR _ _ _)
  · exact Near.andThen hg hR (ts _) (s _ _) (tn _) (h _ _)
  · split
    · exact encAll_near hg hR (fun e => (ts _).andThen hg (s _ _))
        (fun e => Near.andThen hg hR (ts _) (s _ _) (tn _) (h _ _)) _
    · exact hf
  · split
    · split
      · exact Near.skip hR
      · refine Near.andThen hg hR ((ts _).andThen hg (ps _)) ?_ (Near.andThen hg hR (ts _) (ps _) (tn _) (hp _)) ?_
        · split
          · exact s _ _
          · exact encAll_safe hg (s _) _
        · split
          · exact h _ _
          · exact encAll_near hg hR (s _) (h _) _
    · exact hf
  · split
    · split
      · exact Near.skip hR
      · exact Near.andThen hg hR ((ts _).andThen hg (ps _)) (encAll_safe hg (encVarintVal_safe hg _ _) _)
          (Near.andThen hg hR (ts _) (ps _) (tn _) (hp _))
          (encAll_near hg hR (encVarintVal_safe hg _ _) (encVarintVal_near hg hR _ _) _)
    · exact hf
  · split
    · split
      · exact Near.skip hR
      · exact Near.andThen hg hR ((ts _).andThen hg (ps _)) (encAll_safe hg (encVarintVal_safe hg _ _) _)
          (Near.andThen hg hR (ts _) (ps _) (tn _) (hp _))
          (encAll_near hg hR (encVarintVal_safe hg _ _) (encVarintVal_near hg hR _ _) _)
    · exact hf
  · split
    · exact encAll_near hg hR (fun e => (encTag_safe hg _ _ _ _).andThen hg (s _ _))
        (fun e => Near.andThen hg hR (encTag_safe hg _ _ _ _) (s _ _) (encTag_near hg hR _ _ _ _) (h _ _)) _
    · exact hf

theorem pbEncFields_near (hg : GrowthOk c.g) (hR : Track c.g R) {rec : Ty → Val → OutM}
    (s : ∀ t v, SafeOut c.g (rec t v)) (h : ∀ t v, Near R (rec t v)) (maps) :
    ∀ nums i ts vs, Near R (pbEncFields c rec maps i nums ts vs) := by
  have hf : Near R (OutM.fail .illFormed) := Near.fail hR _
  intro nums
  induction nums with
  | nil =>
    intro i ts vs
    cases ts <;> cases vs
    · exact Near.skip hR
    all_goals exact hf
  | cons n ns ih =>
    intro i ts vs
    cases ts <;> cases vs
    case cons.cons t ts v vs =>
      exact Near.andThen hg hR (pbEncField_safe hg s _ _ _ _ _) (pbEncFields_safe hg s _ _ _ _ _)
        (pbEncField_near hg hR s h _ _ _ _ _) (ih _ _ _)
    all_goals exact hf

theorem encode_near (d : Nat) : ∀ (c : Cfg), GrowthOk c.g → Track c.g R → ∀ t v, Near R (encode d c t v) := by
  induction d with
  | zero => intro c _ hR t v; exact Near.fail hR _
  | succ d ih =>
    intro c hg hR t v
    have hf : Near R (OutM.fail .illFormed) := Near.fail hR _
    have hs := encode_safe d c hg
    have hr := ih c hg hR
    have pt : ∀ bs, Near R (put c.g bs) := fun bs => put_near hg hR bs
    unfold encode
    cases t with
    | scalar k n => cases v <;> first | exact hf | exact pt _
    | bool => cases v <;> first | exact hf | exact pt _
    | varint n zz => exact encVarintVal_near hg hR _ _ _
    | empty => exact Near.skip hR
    | struct ok fs =>
      cases v <;> first | exact hf | skip
      simp only
      split
      · exact encRep_near hg hR _
      · exact encFields_near hg hR hs hr _ _
    | array n t' =>
      cases v <;> first | exact hf | skip
      simp only
      split
      · exact hf
      · split
        · exact encRep_near hg hR _
        · exact encAll_near hg hR (hs _) (hr _) _
    | seq k sz t' =>
      cases v <;> first | exact hf | skip
      simp only
      refine Near.andThen hg hR (encHdr_safe hg _ _) ?_ (encHdr_near hg hR _ _) ?_
      · split
        · exact encRep_safe hg _
        · exact encAll_safe hg (hs _) _
      · split
        · exact encRep_near hg hR _
        · exact encAll_near hg hR (hs _) (hr _) _
    | assoc multi hashed sz key mapped =>
      cases v <;> first | exact hf | skip
      simp only
      refine Near.andThen hg hR (encHdr_safe hg _ _) (encAll_safe hg ?_ _) (encHdr_near hg hR _ _)
        (encAll_near hg hR ?_ ?_ _)
      · intro e
        split
        · exact hs _ _
        · split
          · exact encFields_safe hg hs _ _
          · exact SafeOut.fail _ fun _ => trivial
      · intro e
        split
        · exact hs _ _
        · split
          · exact encFields_safe hg hs _ _
          · exact SafeOut.fail _ fun _ => trivial
      · intro e
        split
        · exact hr _ _
        · split
          · exact encFields_near hg hR hs hr _ _
          · exact hf
    | optional dc t' =>
      cases v <;> first | exact hf | exact pt _ |
        exact Near.andThen hg hR (put_safe hg _) (hs _ _) (pt _) (hr _ _)
    | optPtr t' =>
      cases v <;> first | exact hf | exact pt _ |
        exact Near.andThen hg hR (put_safe hg _) (hs _ _) (pt _) (hr _ _)
    | uptr t' =>
      cases v <;> first | exact Near.fail hR _ | exact hr _ _
    | variant idTy ids dcs alts =>
      cases v <;> first | exact Near.fail hR _ | skip
      simp only [encVariant]
      split
      · exact Near.andThen hg hR (hs _ _) (hs _ _) (hr _ _) (hr _ _)
      · exact hf
    | bitset n => cases v <;> first | exact hf | exact encBitset_near hg hR _ _
    | msg sz ok maps nums fs =>
      cases v <;> first | exact hf | skip
      simp only
      have hg' : GrowthOk (pbOutCfg c).g := by rw [pbOutCfg_g]; exact hg
      have hR' : Track (pbOutCfg c).g R := by rw [pbOutCfg_g]; exact hR
      have h1 := pbEncFields_safe hg' (encode_safe d (pbOutCfg c) hg') maps
      rw [pbOutCfg_g] at h1
      exact encByProtocol_near hg hR _ (h1 _ _ _ _)
        (pbEncFields_near hg' hR' (encode_safe d (pbOutCfg c) hg') (ih (pbOutCfg c) hg' hR') maps _ _ _ _)
    | ref i => exact hr _ _

theorem encMany_near (d : Nat) (c : Cfg) (hg : GrowthOk c.g) (hR : Track c.g R) :
    ∀ items : List (Ty × Val), Near R (encMany d c items)
  | [] => Near.skip hR
  | (t, v) :: rest => Near.andThen hg hR (encode_safe d c hg t v) (encMany_safe d c hg rest)
      (encode_near d c hg hR t v) (encMany_near d c hg hR rest)

end

/-! ## Three such relations -/

/-- If the buffer has grown, the position is at most eight bytes before the old end. -/
theorem track_window (g : Growth) : Track g fun l _ l' p' => l' = l ∨ l ≤ p' + 8 := by
  refine ⟨fun _ _ => Or.inl rfl, ?_, fun _ => Or.inl rfl, ?_⟩
  · intros; omega
  · intros; omega

/-- With `exact_enlarger` at most eighteen bytes behind the position are unused, unless more were before. -/
theorem track_unused {g : Growth} (hg : ExactGrowth g) : Track g fun l p l' p' => l' ≤ p' + max (l - p) 18 := by
  refine ⟨?_, ?_, ?_, ?_⟩
  · intros; omega
  · intros; omega
  · intros; omega
  · intro l p k m _ hp h1 h2
    have : newSize g l k = l + k := by simp [newSize, hg.mul, hg.div]
    rw [this]
    omega

/-- The buffer stays below a multiple of the data. -/
theorem track_linear {g : Growth} : Track g fun l _ l' p' => l' ≤ max l (2 * (p' + 9) * g.mul / g.div) := by
  have mono : ∀ {a b : Nat}, a ≤ b → 2 * (a + 9) * g.mul / g.div ≤ 2 * (b + 9) * g.mul / g.div := fun h =>
    Nat.div_le_div_right (Nat.mul_le_mul_right _ (by omega))
  refine ⟨?_, ?_, ?_, ?_⟩
  · intros; omega
  · intro l p l1 p1 l2 p2 _ hp _ _ h1 h2
    have := mono hp
    omega
  · intros; omega
  · intro l p k m _ hp h1 h2
    have : newSize g l k ≤ 2 * (p + m + 9) * g.mul / g.div :=
      Nat.div_le_div_right (Nat.mul_le_mul_right _ (by omega))
    omega

/-- Fitting never leaves a longer buffer. -/
theorem outCall_len_le {d : Nat} {c : Cfg} (hg : GrowthOk c.g) (noFit : Bool) (items : List (Ty × Val)) {st : OutSt}
    (hv : Valid st) : (outCall d c noFit items st).2.data.length ≤ (encMany d c items st).2.data.length := by
  have hin := (encMany_safe d c hg items st hv).inb
  unfold outCall fitCall
  split
  · generalize encMany d c items st = r at *
    obtain ⟨s, st'⟩ := r
    simp only at hin
    have : ∀ s : Status, (if st.data.length ≤ st'.pos then
          if st'.data.length < st'.pos ∧ c.g.maxMem < st'.pos then ((.badAlloc, st') : Status × OutSt)
          else (s, { st' with data := resizeBytes st'.data st'.pos }) else (s, st')).2.data.length ≤ st'.data.length := by
      intro s
      rw [if_neg (by omega : ¬ (st'.data.length < st'.pos ∧ c.g.maxMem < st'.pos))]
      split
      · simp [resizeBytes]; omega
      · exact Nat.le_refl _
    cases s <;> first | exact Nat.le_refl _ | exact this _
  · exact Nat.le_refl _

end Zpp
