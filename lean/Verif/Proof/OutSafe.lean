import Verif.Proof.OutBase
/-! # Every output operation is safe (all types, all objects) -/

namespace Zpp
open Spec

theorem put_pos {g : Growth} {bs : List UInt8} {st st' : OutSt} (h : put g bs st = (.ok, st'))
    (hg : GrowthOk g) (hv : Valid st) : st'.pos = st.pos + bs.length := by
  obtain ⟨_, h2, _⟩ := claim_safe hg bs.length st hv
  unfold put OutM.andThen at h
  split at h
  · rename_i st1 he
    rw [he] at h2
    unfold memcpyAt at h
    split at h
    · cases h; simp only at h2; simp [h2]
    · cases h
  · rename_i r hr; exact absurd h (hr _)

theorem putVarint_pos {g : Growth} {n v : Nat} {st st' : OutSt} (h : putVarint g n v st = (.ok, st'))
    (hg : GrowthOk g) (hn : n < 2 ^ 60) (hv : Valid st) : st'.pos = st.pos + (varintBytes v).length := by
  unfold putVarint at h
  have key : ∀ s1 : OutSt, memcpyAt (varintBytes v) s1 = (.ok, st') →
      st'.pos = s1.pos + (varintBytes v).length := by
    intro s1 h
    unfold memcpyAt at h
    split at h
    · cases h; rfl
    · cases h
  split at h
  · rename_i hr
    obtain ⟨_, h2, _⟩ := enlargeFor_safe hg hr (varintMaxSize n) (by unfold varintMaxSize; omega) st hv
    unfold OutM.andThen at h
    split at h
    · rename_i st1 he
      rw [he] at h2
      rw [key _ h]; simp only at h2; rw [h2]
    · rename_i r hr; exact absurd h (hr _)
  · split at h
    · cases h
    · split at h
      · cases h
      · exact key _ h

/-- Change bytes between the start and a new position. -/
theorem SafeStep.rewrite {g : Growth} {st0 : OutSt} {s s2 : Status} {st1 : OutSt} {data2 : List UInt8}
    {pos2 : Nat} (h : SafeStep g st0 (s, st1)) (hs : OutCode g pos2 s2)
    (hl : data2.length = st1.data.length) (ht : data2.take st0.pos = st1.data.take st0.pos)
    (hd : data2.drop pos2 = st1.data.drop pos2) (hp : st1.pos ≤ pos2) (hb : pos2 ≤ data2.length) :
    SafeStep g st0 (s2, ⟨data2, pos2⟩) := by
  refine ⟨hs, Nat.le_trans h.mono hp, hb, ?_, ?_, ?_, ?_, ?_⟩
  · rw [ht]; exact h.keep
  · simp only [hl]; exact h.len_ge
  · simp only [hl]; exact h.len_bd
  · intro hf; simp only [hl]; exact h.fixed hf
  · simp only [hl, hd]
    have := congrArg (List.drop (pos2 - st1.pos)) h.tail
    simp only [List.drop_drop] at this
    rw [show st1.pos + (pos2 - st1.pos) = pos2 by omega] at this
    exact this

theorem patch_safe {g : Growth} {c : Cfg} {sz : SizeTy} {st0 st1 : OutSt} {n k : Nat}
    (h : SafeStep g st0 (.ok, st1)) (hk : st0.pos + k ≤ st1.pos)
    (hsz : match sz with
      | .fixed k' => k' = k
      | .varint => n < 2 ^ 64 ∧ n ≤ st1.pos ∧ (varintBytes n).length ≤ k
      | .none => True) :
    SafeStep g st0 (patchSize c sz st0.pos n st1) := by
  have write : ∀ bs : List UInt8, bs.length ≤ k →
      SafeStep g st0 (match memcpyAt bs { st1 with pos := st0.pos } with
        | (.ok, st') => (.ok, { st' with pos := st1.pos })
        | (s, _) => (s, st1)) := by
    intro bs hbs
    have hin := h.inb
    simp only at hin
    have : st0.pos + bs.length ≤ st1.data.length := by omega
    rw [memcpyAt_eq (by simpa using this)]
    simp only
    refine h.rewrite trivial ?_ ?_ ?_ (Nat.le_refl _) ?_
    · simp; omega
    · rw [List.append_assoc, List.take_append_of_le_length (by simp; omega), List.take_take, Nat.min_self]
    · rw [List.drop_append, List.drop_eq_nil_of_le (by simp; omega), List.nil_append, List.drop_drop]
      congr 1
      simp; omega
    · simp; omega
  unfold patchSize
  cases sz with
  | fixed k' =>
    subst hsz
    exact write _ (by simp)
  | varint =>
    simp only at hsz ⊢
    split
    · rename_i hgt
      refine h.rewrite (Or.inr ?_) rfl rfl rfl (Nat.le_refl _) h.inb
      rw [varintSize_eq_length 8 n (by omega) (by omega)] at hgt
      have : ¬ (varintBytes n).length ≤ 8 := by omega
      rw [varintBytes_length_le_iff n 8 (by omega)] at this
      omega
    · exact write _ hsz.2.2
  | none => exact h

theorem moveAhead_safe {g : Growth} (hg : GrowthOk g) {st0 st1 : OutSt} (hv : Valid st0)
    (h : SafeStep g st0 (.ok, st1)) (hk : st0.pos + 1 ≤ st1.pos) :
    SafeStep g st0 (moveAhead g st0.pos st1) ∧
    (∀ st2, moveAhead g st0.pos st1 = (.ok, st2) →
      st2.pos = st1.pos + (varintSize 8 (st1.pos - st0.pos - 1) - 1) ∧
      st1.data.length ≤ st2.data.length) := by
  have hv1 := h.valid hg hv
  unfold moveAhead
  simp only
  rw [subSz_of_le (by omega : st0.pos ≤ st1.pos), subSz_of_le (by omega)]
  split
  · rename_i h0
    refine ⟨h, ?_⟩
    rintro st2 ⟨⟩
    simp [h0]
  · rename_i h0
    generalize hA : varintSize 8 (st1.pos - st0.pos - 1) - 1 = A at *
    obtain ⟨c1, c2, c3⟩ := claim_safe hg A st1 hv1
    split
    · rename_i st2 he
      rw [he] at c1 c2 c3
      have c3 := c3 rfl
      have c4 := c1.len_ge
      simp only at c2 c3 c4
      rw [if_pos ⟨by omega, by omega⟩]
      have hpl := hv1.pos_le
      simp only at hpl
      have hbl : (((st2.data.take st1.pos).drop (st0.pos + 1))).length = st1.pos - (st0.pos + 1) := by
        simp; omega
      have hl : (st2.data.take (st0.pos + 1 + A) ++ (st2.data.take st1.pos).drop (st0.pos + 1) ++
          st2.data.drop (st1.pos + A)).length = st2.data.length := by
        simp only [List.length_append, hbl, List.length_take, List.length_drop]; omega
      refine ⟨(h.trans c1).rewrite trivial hl ?_ ?_ (by omega) (by rw [hl]; exact c3), ?_⟩
      · rw [List.append_assoc, List.take_append_of_le_length (by simp; omega), List.take_take]
        congr 1; omega
      · have : (st2.data.take (st0.pos + 1 + A) ++ (st2.data.take st1.pos).drop (st0.pos + 1)).length =
            st1.pos + A := by
          simp only [List.length_append, hbl, List.length_take]; omega
        rw [List.drop_append, this, List.drop_eq_nil_of_le (by omega)]
        simp
      · rintro st3 ⟨⟩
        refine ⟨rfl, ?_⟩
        simp only [hl]; exact c4
    · rename_i r hr
      refine ⟨h.trans c1, ?_⟩
      rintro st2 he2
      exact absurd he2 (hr _)

theorem encHdr_safe {c : Cfg} (hg : GrowthOk c.g) (sz : SizeTy) (n : Nat) : SafeOut c.g (encHdr c sz n) := by
  cases sz with
  | fixed k => exact put_safe hg _
  | varint =>
    exact putVarint_safe hg (by omega) (by omega) (Nat.mod_lt _ (by omega))
  | none => exact SafeOut.skip _

/-- Length of the placeholder size field. -/
def hdrLen : SizeTy → Nat
  | .fixed k => k
  | .varint => 1
  | .none => 0

theorem encHdr_pos {c : Cfg} (hg : GrowthOk c.g) {sz : SizeTy} {st st' : OutSt}
    (h : encHdr c sz 0 st = (.ok, st')) (hv : Valid st) :
    st'.pos = st.pos + hdrLen sz := by
  cases sz with
  | fixed k =>
    have := put_pos h hg hv
    rw [this]; simp only [ioBytes, hdrLen]; split <;> simp
  | varint =>
    have := putVarint_pos h hg (by omega) hv
    rw [this, Nat.zero_mod, varintBytes_small (by omega)]; rfl
  | none =>
    cases h; rfl

theorem encByProtocol_safe {c : Cfg} (hg : GrowthOk c.g) (sz : SizeTy) {body : OutM}
    (hb : SafeOut c.g body) : SafeOut c.g (encByProtocol c sz body) := by
  intro st hv
  have hh := encHdr_safe hg sz 0
  have h1 := hh.andThen hg hb st hv
  have hpos : ∀ st1, (encHdr c sz 0).andThen body st = (.ok, st1) →
      st.pos + hdrLen sz ≤ st1.pos := by
    intro st1 he
    have h2 := hh st hv
    unfold OutM.andThen at he
    split at he
    · rename_i st2 he2
      rw [he2] at h2
      have := encHdr_pos hg he2 hv
      have h3 := (hb st2 (h2.valid hg hv)).mono
      rw [he] at h3
      simp only at h3
      omega
    · rename_i r hr; exact absurd he (hr _)
  unfold encByProtocol
  cases sz with
  | none => exact hb st hv
  | fixed k =>
    simp only
    rw [OutM.andThen]
    split
    · rename_i st1 he
      rw [he] at h1
      have hp := hpos st1 he
      simp only [hdrLen] at hp
      rw [subSz_of_le (by omega : st.pos ≤ st1.pos), subSz_of_le (by omega)]
      exact patch_safe h1 hp rfl
    · exact h1
  | varint =>
    simp only
    rw [OutM.andThen]
    split
    · rename_i st1 he
      rw [he] at h1
      have hp := hpos st1 he
      simp only [hdrLen] at hp
      rw [subSz_of_le (by omega : st.pos ≤ st1.pos), subSz_of_le (by omega)]
      obtain ⟨m1, m2⟩ := moveAhead_safe hg hv h1 hp
      rw [OutM.andThen]
      split
      · rename_i st2 he2
        rw [he2] at m1
        obtain ⟨p2, p3⟩ := m2 st2 he2
        have hin := h1.inb
        have hlt := (h1.valid hg hv).len_lt
        simp only at hin hlt
        have e1 := varintSize_eq_length 8 (st1.pos - st.pos - 1) (by omega) (by omega)
        have e2 := varintBytes_length_pos (st1.pos - st.pos - 1)
        refine patch_safe (k := (varintBytes (st1.pos - st.pos - 1)).length) m1 ?_ ⟨?_, ?_, Nat.le_refl _⟩
        · omega
        · omega
        · omega
      · exact m1
    · exact h1

theorem orBits_isSome : ∀ (bits : List Bool) (i : Nat) (bs : List UInt8), i + bits.length ≤ 8 * bs.length →
    ∃ r, orBits bits i bs = some r ∧ r.length = bs.length := by
  intro bits
  induction bits with
  | nil => intro i bs _; exact ⟨bs, rfl, rfl⟩
  | cons b rest ih =>
    intro i bs h
    simp only [List.length_cons] at h
    have hi : i / 8 < bs.length := by omega
    simp only [orBits, List.getElem?_eq_getElem hi]
    obtain ⟨r, hr, hl⟩ := ih (i + 1) (bs.set (i / 8)
      (UInt8.ofNat (bs[i / 8].toNat ||| (b.toNat <<< (i &&& 7))))) (by simp; omega)
    exact ⟨r, hr, by simpa using hl⟩

theorem encBitset_safe {g : Growth} (hg : GrowthOk g) (n : Nat) (bits : List Bool) :
    SafeOut g (encBitset g n bits) := by
  unfold encBitset
  split
  · rename_i hn
    apply claim_then hg
    intro st hv hle
    rw [if_pos hle]
    have hl : ((st.data.drop st.pos).take (bitsetBytes n)).length = bitsetBytes n := by simp; omega
    obtain ⟨r, hr, hrl⟩ := orBits_isSome bits 0 ((st.data.drop st.pos).take (bitsetBytes n)) (by
      rw [hl, hn]; unfold bitsetBytes; omega)
    rw [hr]
    simp only
    apply memcpyAt_safe
    rw [hrl, hl]; exact hle
  · exact SafeOut.fail g fun _ => trivial

theorem encAll_safe {g : Growth} (hg : GrowthOk g) {rec : Val → OutM} (h : ∀ v, SafeOut g (rec v)) :
    ∀ vs, SafeOut g (encAll rec vs)
  | [] => SafeOut.skip g
  | v :: vs => (h v).andThen hg (encAll_safe hg h vs)

theorem encFields_safe {g : Growth} (hg : GrowthOk g) {rec : Ty → Val → OutM}
    (h : ∀ t v, SafeOut g (rec t v)) : ∀ ts vs, SafeOut g (encFields rec ts vs)
  | [], [] => SafeOut.skip g
  | t :: ts, v :: vs => (h t v).andThen hg (encFields_safe hg h ts vs)
  | [], _ :: _ => SafeOut.fail g fun _ => trivial
  | _ :: _, [] => SafeOut.fail g fun _ => trivial

theorem encVarintVal_safe {c : Cfg} (hg : GrowthOk c.g) (n : Nat) (zz : Bool) (v : Val) :
    SafeOut c.g (encVarintVal c n zz v) := by
  unfold encVarintVal
  split
  · rename_i x
    split
    · rename_i h
      exact putVarint_safe hg h.1 (by omega) (varintLoad_lt n zz x h.1 h.2.2)
    · exact SafeOut.fail _ fun _ => trivial
  · exact SafeOut.fail _ fun _ => trivial

theorem encTag_safe {c : Cfg} (hg : GrowthOk c.g) (maps num i wt) : SafeOut c.g (encTag c maps num i wt) := by
  unfold encTag
  split
  · exact putVarint_safe hg (by omega) (by omega) (Nat.mod_lt _ (by omega))
  · exact putVarint_safe hg (by omega) (by omega) (Nat.mod_lt _ (by omega))

theorem encRep_safe {g : Growth} (hg : GrowthOk g) (r) : SafeOut g (encRep g r) := by
  unfold encRep
  split
  · exact putBytes_safe hg _
  · exact SafeOut.fail _ fun _ => trivial

theorem pbEncField_safe {c : Cfg} (hg : GrowthOk c.g) {rec : Ty → Val → OutM}
    (h : ∀ t v, SafeOut c.g (rec t v)) (maps num i t v) : SafeOut c.g (pbEncField c rec maps num i t v) := by
  have hf : SafeOut c.g (OutM.fail .illFormed) := SafeOut.fail _ fun _ => trivial
  have hp : ∀ x, SafeOut c.g (putVarint c.g 8 (x % 2 ^ 64)) := fun x =>
    putVarint_safe hg (by omega) (by omega) (Nat.mod_lt _ (by omega))
  unfold pbEncField
  split
  · exact SafeOut.skip _
  · exact (encTag_safe hg _ _ _ _).andThen hg (encVarintVal_safe hg _ _ _)
  · exact (encTag_safe hg _ _ _ _).andThen hg (h _ _)
  · split
    · exact encAll_safe hg (fun e => (encTag_safe hg _ _ _ _).andThen hg (h _ _)) _
    · exact hf
  · split
    · split
      · exact SafeOut.skip _
      · refine ((encTag_safe hg _ _ _ _).andThen hg (hp _)).andThen hg ?_
        split
        · exact h _ _
        · exact encAll_safe hg (h _) _
    · exact hf
  · split
    · split
      · exact SafeOut.skip _
      · exact ((encTag_safe hg _ _ _ _).andThen hg (hp _)).andThen hg
          (encAll_safe hg (encVarintVal_safe hg _ _) _)
    · exact hf
  · split
    · split
      · exact SafeOut.skip _
      · exact ((encTag_safe hg _ _ _ _).andThen hg (hp _)).andThen hg
          (encAll_safe hg (encVarintVal_safe hg _ _) _)
    · exact hf
  · split
    · exact encAll_safe hg (fun e => (encTag_safe hg _ _ _ _).andThen hg (h _ _)) _
    · exact hf

theorem pbEncFields_safe {c : Cfg} (hg : GrowthOk c.g) {rec : Ty → Val → OutM}
    (h : ∀ t v, SafeOut c.g (rec t v)) (maps) :
    ∀ nums i ts vs, SafeOut c.g (pbEncFields c rec maps i nums ts vs) := by
  have hf : SafeOut c.g (OutM.fail .illFormed) := SafeOut.fail _ fun _ => trivial
  intro nums
  induction nums with
  | nil =>
    intro i ts vs
    cases ts <;> cases vs
    · exact SafeOut.skip _
    all_goals exact hf
  | cons n ns ih =>
    intro i ts vs
    cases ts <;> cases vs
    case cons.cons t ts v vs => exact (pbEncField_safe hg h _ _ _ _ _).andThen hg (ih _ _ _)
    all_goals exact hf

theorem pbOutCfg_g (c : Cfg) : (pbOutCfg c).g = c.g := by
  unfold pbOutCfg; split <;> rfl

/-- Every serialization of every object is safe. -/
theorem encode_safe (d : Nat) : ∀ (c : Cfg), GrowthOk c.g → ∀ t v, SafeOut c.g (encode d c t v) := by
  induction d with
  | zero => intro c _ t v; exact SafeOut.fail _ fun _ => trivial
  | succ d ih =>
    intro c hg t v
    have hf : SafeOut c.g (OutM.fail .illFormed) := SafeOut.fail _ fun _ => trivial
    have hr := ih c hg
    unfold encode
    cases t with
    | scalar k n => cases v <;> first | exact hf | exact put_safe hg _
    | bool => cases v <;> first | exact hf | exact put_safe hg _
    | varint n zz => exact encVarintVal_safe hg _ _ _
    | empty => exact SafeOut.skip _
    | struct ok fs =>
      cases v <;> first | exact hf | skip
      simp only
      split
      · exact encRep_safe hg _
      · exact encFields_safe hg hr _ _
    | array n t' =>
      cases v <;> first | exact hf | skip
      simp only
      split
      · exact hf
      · split
        · exact encRep_safe hg _
        · exact encAll_safe hg (hr _) _
    | seq k sz t' =>
      cases v <;> first | exact hf | skip
      simp only
      refine (encHdr_safe hg _ _).andThen hg ?_
      split
      · exact encRep_safe hg _
      · exact encAll_safe hg (hr _) _
    | assoc multi hashed sz key mapped =>
      cases v <;> first | exact hf | skip
      simp only
      refine (encHdr_safe hg _ _).andThen hg (encAll_safe hg ?_ _)
      intro e
      split
      · exact hr _ _
      · split
        · exact encFields_safe hg hr _ _
        · exact hf
    | optional dc t' =>
      cases v <;> first | exact hf | exact put_safe hg _ | exact (put_safe hg _).andThen hg (hr _ _)
    | optPtr t' =>
      cases v <;> first | exact hf | exact put_safe hg _ | exact (put_safe hg _).andThen hg (hr _ _)
    | uptr t' =>
      cases v <;> first | exact hf | exact SafeOut.fail _ (fun _ => trivial) | exact hr _ _
    | variant idTy ids dcs alts =>
      cases v <;> first | exact hf | exact SafeOut.fail _ (fun _ => trivial) | skip
      simp only [encVariant]
      split
      · exact (hr _ _).andThen hg (hr _ _)
      · exact hf
    | bitset n => cases v <;> first | exact hf | exact encBitset_safe hg _ _
    | msg sz ok maps nums fs =>
      cases v <;> first | exact hf | skip
      simp only
      apply encByProtocol_safe hg
      have hg' : GrowthOk (pbOutCfg c).g := by rw [pbOutCfg_g]; exact hg
      have := pbEncFields_safe hg' (ih (pbOutCfg c) hg') maps
      rw [pbOutCfg_g] at this
      exact this _ _ _ _
    | ref i => exact hr _ _

theorem encMany_safe (d : Nat) (c : Cfg) (hg : GrowthOk c.g) :
    ∀ items, SafeOut c.g (encMany d c items)
  | [] => SafeOut.skip _
  | (t, v) :: rest => (encode_safe d c hg t v).andThen hg (encMany_safe d c hg rest)

end Zpp
