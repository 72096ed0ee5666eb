import Verif.Spec.OutSame
import Verif.Proof.OutSafe
/-! # Options that do not belong to the format do not change what is written -/

namespace Zpp
open Spec

variable {k : Nat}

/-- No room, or an access outside the buffer. -/
def Stuck (s : Status) : Prop := NoRoom s ∨ s = .ub

/-- The two outcomes are the same, or one of them is for want of room. -/
def SameRes (k : Nat) (r r' : Status × OutSt) : Prop :=
  Stuck r.1 ∨ Stuck r'.1 ∨ (r.1 = r'.1 ∧ (r.1 = .ok → SameBehind k r.2 r'.2))

/-- The two operations do the same. -/
structure SameM (k : Nat) (a b : OutM) : Prop where
  run : ∀ s t, SameBehind k s t → SameRes k (a s) (b t)

theorem Stuck.ne_ok {s : Status} (h : Stuck s) : s ≠ .ok := by
  rcases h with (h | h | h) | h <;> simp [h]

theorem SameM.skip : SameM k OutM.skip OutM.skip :=
  ⟨fun _ _ h => .inr (.inr ⟨rfl, fun _ => h⟩)⟩

theorem SameM.fail (s : Status) : SameM k (OutM.fail s) (OutM.fail s) :=
  ⟨fun _ _ h => .inr (.inr ⟨rfl, fun _ => h⟩)⟩

theorem SameM.andThen {a b a' b' : OutM} (ha : SameM k a a') (hb : SameM k b b') : SameM k (a.andThen b) (a'.andThen b') := by
  refine ⟨fun s t h => ?_⟩
  rcases ha.run s t h with h1 | h1 | ⟨h1, h2⟩
  · rw [OutM.andThen_ne h1.ne_ok]
    exact .inl h1
  · rw [OutM.andThen_ne h1.ne_ok]
    exact .inr (.inl h1)
  · by_cases ho : (a s).1 = .ok
    · have e1 : a s = (.ok, (a s).2) := Prod.ext ho rfl
      have e2 : a' t = (.ok, (a' t).2) := Prod.ext (h1 ▸ ho) rfl
      rw [OutM.andThen_ok e1, OutM.andThen_ok e2]
      exact hb.run _ _ (h2 ho)
    · rw [OutM.andThen_ne ho, OutM.andThen_ne (h1 ▸ ho)]
      exact .inr (.inr ⟨h1, h2⟩)

theorem SameM.ite {p : Prop} [Decidable p] {a b a' b' : OutM} (ha : SameM k a a') (hb : SameM k b b') :
    SameM k (if p then a else b) (if p then a' else b') := by
  split
  · exact ha
  · exact hb

theorem subSz_add_left (k a b : Nat) : subSz (k + a) (k + b) = subSz a b := by
  unfold subSz
  split <;> split <;> omega

/-! ## Bytes up to zeros behind the end -/

theorem getD_append_zeros (xs : List UInt8) (k i : Nat) : (xs ++ List.replicate k (0 : UInt8))[i]?.getD 0 = xs[i]?.getD 0 := by
  rw [List.getElem?_append]
  split
  · rfl
  · rename_i h
    rw [List.getElem?_replicate, List.getElem?_eq_none (by omega)]
    split <;> rfl

theorem getD_splice (xs bs : List UInt8) (p i : Nat) (h : p + bs.length ≤ xs.length) :
    (xs.take p ++ bs ++ xs.drop (p + bs.length))[i]?.getD 0 =
      if i < p then xs[i]?.getD 0 else if i < p + bs.length then bs[i - p]?.getD 0 else xs[i]?.getD 0 := by
  have hl : (xs.take p).length = p := by rw [List.length_take]; omega
  rw [List.append_assoc, List.getElem?_append, hl]
  split
  · rw [List.getElem?_take, if_pos (by assumption)]
  · rw [List.getElem?_append]
    split
    · rw [if_pos (by omega)]
    · rw [if_neg (by omega), List.getElem?_drop]
      congr 2
      omega

/-- An operation that only makes the buffer longer. -/
structure Longer (s s' : OutSt) : Prop where
  valid : Valid s'
  pos : s'.pos = s.pos
  bytes : ∀ i : Nat, s'.data[i]?.getD 0 = s.data[i]?.getD 0

theorem Longer.refl {s : OutSt} (h : Valid s) : Longer s s := ⟨h, rfl, fun _ => rfl⟩

theorem Longer.same {s t s' t' : OutSt} (h : SameBehind k s t) (hs : Longer s s') (ht : Longer t t') : SameBehind k s' t' :=
  ⟨hs.valid, ht.valid, by rw [hs.pos, ht.pos, h.pos], fun i => by rw [hs.bytes, ht.bytes, h.bytes]⟩

theorem enlargeFor_longer {g : Growth} (hg : GrowthOk g) (hr : g.resizable = true) {n : Nat} (hn : n < 2 ^ 63) {st : OutSt} (hv : Valid st) :
    Stuck (enlargeFor g n st).1 ∨ ∃ st', enlargeFor g n st = (.ok, st') ∧ Longer st st' := by
  have hsafe := (enlargeFor_safe hg hr n hn st hv).1.valid hg hv
  rcases enlargeFor_spec g (hg hr) n st hv hn with ⟨h, e⟩ | ⟨h, ⟨e, _⟩ | ⟨e, _⟩ | ⟨e, h1, h2, h3⟩⟩ <;> rw [e] at hsafe ⊢
  · exact .inr ⟨st, rfl, .refl hv⟩
  · exact .inl (.inl (.inr (.inl rfl)))
  · exact .inl (.inl (.inr (.inr rfl)))
  · exact .inr ⟨_, rfl, hsafe, rfl, fun i => getD_append_zeros ..⟩

theorem claim_longer {g : Growth} (hg : GrowthOk g) {n : Nat} (hn : n < 2 ^ 63) {st : OutSt} (hv : Valid st) :
    Stuck (claim g n st).1 ∨ ∃ st', claim g n st = (.ok, st') ∧ Longer st st' := by
  unfold claim
  rw [if_neg (by omega)]
  split
  · exact enlargeFor_longer hg (by assumption) hn hv
  · split
    · exact .inl (.inl (.inl rfl))
    · exact .inr ⟨st, rfl, .refl hv⟩

theorem claim_same {g g' : Growth} (hg : GrowthOk g) (hg' : GrowthOk g') (n : Nat) : SameM k (claim g n) (claim g' n) := by
  refine ⟨fun s t h => ?_⟩
  by_cases hn : 2 ^ 63 ≤ n
  · simp only [claim, if_pos hn]
    exact .inr (.inr ⟨rfl, fun _ => h⟩)
  · rcases claim_longer hg (Nat.lt_of_not_le hn) h.left with h1 | ⟨s', e1, h1⟩
    · exact .inl h1
    · rcases claim_longer hg' (Nat.lt_of_not_le hn) h.right with h2 | ⟨t', e2, h2⟩
      · exact .inr (.inl h2)
      · rw [e1, e2]
        exact .inr (.inr ⟨rfl, fun _ => Longer.same h h1 h2⟩)

theorem Spec.SameBehind.memcpy {s t : OutSt} (h : SameBehind k s t) {p : Nat} {bs : List UInt8} (hs : k + p + bs.length ≤ s.data.length)
    (ht : p + bs.length ≤ t.data.length) {q : Nat} (hqs : k + q ≤ s.data.length) (hqt : q ≤ t.data.length) :
    SameBehind k ⟨s.data.take (k + p) ++ bs ++ s.data.drop (k + p + bs.length), k + q⟩ ⟨t.data.take p ++ bs ++ t.data.drop (p + bs.length), q⟩ := by
  have l : ∀ (p : Nat) (xs : List UInt8), p + bs.length ≤ xs.length → (xs.take p ++ bs ++ xs.drop (p + bs.length)).length = xs.length := by
    intro p xs hx
    simp only [List.length_append, List.length_take, List.length_drop]
    omega
  have h1 := h.left.len_lt
  have h2 := h.right.len_lt
  refine ⟨⟨?_, ?_⟩, ⟨?_, ?_⟩, rfl, fun i => ?_⟩
  · simp only [l _ _ hs]; exact hqs
  · simp only [l _ _ hs]; exact h1
  · simp only [l _ _ ht]; exact hqt
  · simp only [l _ _ ht]; exact h2
  · simp only [getD_splice _ _ _ _ hs, getD_splice _ _ _ _ ht, h.bytes]
    have e1 : k + i < k + p ↔ i < p := by omega
    have e2 : k + i < k + p + bs.length ↔ i < p + bs.length := by omega
    have e3 : k + i - (k + p) = i - p := by omega
    simp only [e1, e2, e3]

theorem memcpyAt_same (bs : List UInt8) : SameM k (memcpyAt bs) (memcpyAt bs) := by
  refine ⟨fun s t h => ?_⟩
  by_cases hs : s.pos + bs.length ≤ s.data.length
  · by_cases ht : t.pos + bs.length ≤ t.data.length
    · rw [memcpyAt_eq hs, memcpyAt_eq ht]
      refine .inr (.inr ⟨rfl, fun _ => ?_⟩)
      rw [h.pos] at hs ⊢
      simp only
      have := h.memcpy (q := t.pos + bs.length) hs ht (by omega) ht
      rw [← Nat.add_assoc] at this
      exact this
    · simp only [memcpyAt, if_neg ht]
      exact .inr (.inl (.inr rfl))
  · simp only [memcpyAt, if_neg hs]
    exact .inl (.inr rfl)

theorem put_same {g g' : Growth} (hg : GrowthOk g) (hg' : GrowthOk g') (bs : List UInt8) : SameM k (put g bs) (put g' bs) :=
  (claim_same hg hg' _).andThen (memcpyAt_same bs)

theorem putBytes_same {g g' : Growth} (hg : GrowthOk g) (hg' : GrowthOk g') (bs : List UInt8) : SameM k (putBytes g bs) (putBytes g' bs) :=
  SameM.ite SameM.skip (put_same hg hg' bs)

theorem putVarint_longer {g : Growth} (hg : GrowthOk g) {n value : Nat} (hn : n ≤ 8) {st : OutSt} (hv : Valid st) :
    Stuck (putVarint g n value st).1 ∨ ∃ st', putVarint g n value st = memcpyAt (varintBytes value) st' ∧ Longer st st' := by
  unfold putVarint
  split
  · rename_i hr
    rcases enlargeFor_longer hg hr (n := varintMaxSize n) (by unfold varintMaxSize; omega) hv with h | ⟨st', e, h⟩
    · rw [OutM.andThen_ne h.ne_ok]
      exact .inl h
    · rw [OutM.andThen_ok e]
      exact .inr ⟨st', rfl, h⟩
  · split
    · exact .inl (.inr rfl)
    · split
      · exact .inl (.inl (.inl rfl))
      · exact .inr ⟨st, rfl, .refl hv⟩

theorem putVarint_same {g g' : Growth} (hg : GrowthOk g) (hg' : GrowthOk g') {n : Nat} (hn : n ≤ 8) (value : Nat) :
    SameM k (putVarint g n value) (putVarint g' n value) := by
  refine ⟨fun s t h => ?_⟩
  rcases putVarint_longer (value := value) hg hn h.left with h1 | ⟨s', e1, h1⟩
  · exact .inl h1
  · rcases putVarint_longer (value := value) hg' hn h.right with h2 | ⟨t', e2, h2⟩
    · exact .inr (.inl h2)
    · rw [e1, e2]
      exact (memcpyAt_same _).run _ _ (Longer.same h h1 h2)

variable {c : Cfg} {g' : Growth}

theorem encVarintVal_same (hg : GrowthOk c.g) (hg' : GrowthOk g') (n : Nat) (zz : Bool) (v : Val) :
    SameM k (encVarintVal c n zz v) (encVarintVal { c with g := g' } n zz v) := by
  cases v
  case num x =>
    simp only [encVarintVal]
    split
    · rename_i h
      exact putVarint_same hg hg' h.2.1 _
    · exact SameM.fail _
  all_goals exact SameM.fail _

theorem encHdr_same (hg : GrowthOk c.g) (hg' : GrowthOk g') (sz : SizeTy) (n : Nat) :
    SameM k (encHdr c sz n) (encHdr { c with g := g' } sz n) := by
  cases sz
  · exact put_same hg hg' _
  · exact putVarint_same hg hg' (Nat.le_refl _) _
  · exact SameM.skip

theorem encAll_same {rec rec' : Val → OutM} (h : ∀ v, SameM k (rec v) (rec' v)) : ∀ vs, SameM k (encAll rec vs) (encAll rec' vs)
  | [] => SameM.skip
  | v :: vs => (h v).andThen (encAll_same h vs)

theorem encFields_same {rec rec' : Ty → Val → OutM} (h : ∀ t v, SameM k (rec t v) (rec' t v)) :
    ∀ ts vs, SameM k (encFields rec ts vs) (encFields rec' ts vs)
  | [], [] => SameM.skip
  | t :: ts, v :: vs => (h t v).andThen (encFields_same h ts vs)
  | [], _ :: _ => SameM.fail _
  | _ :: _, [] => SameM.fail _

theorem encRep_same {g g' : Growth} (hg : GrowthOk g) (hg' : GrowthOk g') (r : Option (List UInt8)) : SameM k (encRep g r) (encRep g' r) := by
  cases r
  · exact SameM.fail _
  · exact putBytes_same hg hg' _

theorem slice_same {s t : OutSt} (h : SameBehind k s t) {p n : Nat} (hs : k + p + n ≤ s.data.length) (ht : p + n ≤ t.data.length) :
    (s.data.drop (k + p)).take n = (t.data.drop p).take n := by
  apply List.ext_getElem?
  intro i
  have hb := h.bytes (p + i)
  rw [← Nat.add_assoc] at hb
  rw [List.getElem?_take, List.getElem?_take]
  split
  · rename_i hi
    rw [List.getElem?_drop, List.getElem?_drop]
    rw [List.getElem?_eq_getElem (by omega), List.getElem?_eq_getElem (by omega), Option.getD_some, Option.getD_some] at hb
    rw [List.getElem?_eq_getElem (by omega), List.getElem?_eq_getElem (by omega), hb]
  · rfl

theorem encBitset_same {g g' : Growth} (hg : GrowthOk g) (hg' : GrowthOk g') (n : Nat) (bits : List Bool) :
    SameM k (encBitset g n bits) (encBitset g' n bits) := by
  refine SameM.ite ((claim_same hg hg' _).andThen ?_) (SameM.fail _)
  refine ⟨fun s t h => ?_⟩
  by_cases hs : s.pos + bitsetBytes n ≤ s.data.length
  · by_cases ht : t.pos + bitsetBytes n ≤ t.data.length
    · simp only [if_pos hs, if_pos ht]
      rw [h.pos] at hs ⊢
      rw [slice_same h hs ht]
      split
      · exact (memcpyAt_same _).run _ _ h
      · exact .inl (.inr rfl)
    · simp only [if_neg ht]
      exact .inr (.inl (.inr rfl))
  · simp only [if_neg hs]
    exact .inl (.inr rfl)

theorem encVariant_same {rec rec' : Ty → Val → OutM} (h : ∀ t v, SameM k (rec t v) (rec' t v)) (idTy : Ty) (ids : List Val)
    (alts : List Ty) (v : Val) : SameM k (encVariant rec idTy ids alts v) (encVariant rec' idTy ids alts v) := by
  cases v
  case alt i v =>
    simp only [encVariant]
    split
    · exact (h ..).andThen (h ..)
    · exact SameM.fail _
  all_goals exact SameM.fail _

theorem encOptional_same {g g' : Growth} (hg : GrowthOk g) (hg' : GrowthOk g') {rec rec' : Val → OutM} (h : ∀ v, SameM k (rec v) (rec' v))
    (v : Val) : SameM k (encOptional g rec v) (encOptional g' rec' v) := by
  cases v
  case none => exact put_same hg hg' _
  case some v => exact (put_same hg hg' _).andThen (h v)
  all_goals exact SameM.fail _

theorem encUptr_same {rec rec' : Val → OutM} (h : ∀ v, SameM k (rec v) (rec' v)) (v : Val) : SameM k (encUptr rec v) (encUptr rec' v) := by
  cases v
  case some v => exact h v
  all_goals exact SameM.fail _

theorem patchSize_same (sz : SizeTy) (sizePos n : Nat) : SameM k (patchSize c sz (k + sizePos) n) (patchSize { c with g := g' } sz sizePos n) := by
  have write : ∀ (bs : List UInt8) (s t : OutSt), SameBehind k s t → SameRes k
      (match memcpyAt bs { s with pos := k + sizePos } with
        | (.ok, st') => (.ok, { st' with pos := s.pos })
        | (e, _) => (e, s))
      (match memcpyAt bs { t with pos := sizePos } with
        | (.ok, st') => (.ok, { st' with pos := t.pos })
        | (e, _) => (e, t)) := by
    intro bs s t h
    have hs := h.left.pos_le
    have ht := h.right.pos_le
    by_cases h1 : k + sizePos + bs.length ≤ s.data.length
    · by_cases h2 : sizePos + bs.length ≤ t.data.length
      · rw [memcpyAt_eq (by simpa using h1), memcpyAt_eq (by simpa using h2)]
        refine .inr (.inr ⟨rfl, fun _ => ?_⟩)
        simp only
        rw [h.pos] at hs ⊢
        exact h.memcpy h1 h2 hs ht
      · simp only [memcpyAt, if_neg h2]
        exact .inr (.inl (.inr rfl))
    · simp only [memcpyAt, if_neg h1]
      exact .inl (.inr rfl)
  refine ⟨fun s t h => ?_⟩
  cases sz
  case fixed w => exact write _ s t h
  case varint =>
    simp only [patchSize]
    split
    · exact .inl (.inl (.inl rfl))
    · exact write _ s t h
  case none => exact .inr (.inr ⟨rfl, fun _ => h⟩)

theorem moveAhead_same {g g' : Growth} (hg : GrowthOk g) (hg' : GrowthOk g') (sizePos : Nat) :
    SameM k (moveAhead g (k + sizePos)) (moveAhead g' sizePos) := by
  refine ⟨fun s t h => ?_⟩
  simp only [moveAhead, h.pos, subSz_add_left]
  generalize varintSize 8 (subSz (subSz t.pos sizePos) 1) - 1 = ahead
  by_cases ha : ahead = 0
  · simp only [ha, if_true]
    exact .inr (.inr ⟨rfl, fun _ => h⟩)
  · simp only [if_neg ha]
    rcases (claim_same hg hg' ahead).run s t h with h1 | h1 | ⟨h1, h2⟩
    · have := h1.ne_ok
      generalize claim g ahead s = r at h1 this
      obtain ⟨e, st⟩ := r
      cases e
      · exact absurd rfl this
      all_goals exact .inl h1
    · have := h1.ne_ok
      generalize claim g' ahead t = r at h1 this
      obtain ⟨e, st⟩ := r
      cases e
      · exact absurd rfl this
      all_goals exact .inr (.inl h1)
    · have hp : (claim g ahead s).2.pos = s.pos := (claim_safe hg ahead s h.left).2.1
      generalize claim g ahead s = r at h1 h2 hp
      generalize claim g' ahead t = r' at h1 h2
      obtain ⟨e, st⟩ := r
      obtain ⟨e', st'⟩ := r'
      simp only at h1 h2 hp
      subst h1
      cases e
      case ok =>
        have hst := h2 rfl
        by_cases c1 : k + t.pos + ahead ≤ st.data.length ∧ k + sizePos + 1 ≤ k + t.pos
        · by_cases c2 : t.pos + ahead ≤ st'.data.length ∧ sizePos + 1 ≤ t.pos
          · simp only [if_pos c1, if_pos c2]
            refine .inr (.inr ⟨rfl, fun _ => ?_⟩)
            have hbody : ∀ (q p : Nat) (xs : List UInt8), (xs.take q).drop (p + 1) = (xs.drop (p + 1)).take (q - (p + 1)) := by
              intro q p xs
              rw [List.drop_take]
            have e := slice_same hst (p := sizePos + 1) (n := t.pos - (sizePos + 1)) (by omega) (by omega)
            rw [← Nat.add_assoc] at e
            have en : k + t.pos - (k + sizePos + 1) = t.pos - (sizePos + 1) := by omega
            simp only [hbody, en]
            rw [e]
            have hbl : ((st'.data.drop (sizePos + 1)).take (t.pos - (sizePos + 1))).length = t.pos - (sizePos + 1) := by
              rw [List.length_take, List.length_drop]
              omega
            generalize (st'.data.drop (sizePos + 1)).take (t.pos - (sizePos + 1)) = body at hbl
            have hq : t.pos + ahead = (sizePos + 1 + ahead) + body.length := by omega
            have hq' : k + t.pos + ahead = (k + (sizePos + 1 + ahead)) + body.length := by omega
            have hq2 : k + sizePos + 1 + ahead = k + (sizePos + 1 + ahead) := by omega
            rw [hq2, hq, hq']
            have := hst.memcpy (p := sizePos + 1 + ahead) (bs := body) (q := sizePos + 1 + ahead + body.length) (by omega) (by omega) (by omega) (by omega)
            rw [← Nat.add_assoc k (sizePos + 1 + ahead) body.length] at this
            exact this
          · simp only [if_neg c2]
            exact .inr (.inl (.inr rfl))
        · simp only [if_neg c1]
          exact .inl (.inr rfl)
      all_goals exact .inr (.inr ⟨rfl, nofun⟩)

/-- Operations that depend on the position where they start and the position where the first of them ends. -/
theorem SameM.andThenAt {a a' : OutM} {b b' : Nat → Nat → OutM} (ha : SameM k a a') (hb : ∀ p q, SameM k (b (k + p) (k + q)) (b' p q)) :
    SameM k (fun st => (a.andThen fun st' => b st.pos st'.pos st') st) (fun st => (a'.andThen fun st' => b' st.pos st'.pos st') st) := by
  refine ⟨fun s t h => ?_⟩
  have h' : SameM k (fun st' => b s.pos st'.pos st') (fun st' => b' t.pos st'.pos st') := by
    refine ⟨fun s' t' h' => ?_⟩
    rw [h.pos, h'.pos]
    exact (hb _ _).run _ _ h'
  exact (ha.andThen h').run s t h

theorem encByProtocol_same (hg : GrowthOk c.g) (hg' : GrowthOk g') (sz : SizeTy) {body body' : OutM} (hb : SameM k body body') :
    SameM k (encByProtocol c sz body) (encByProtocol { c with g := g' } sz body') := by
  have hdr : SameM k ((encHdr c sz 0).andThen body) ((encHdr { c with g := g' } sz 0).andThen body') := (encHdr_same hg hg' sz 0).andThen hb
  cases sz
  case none => exact hb
  case fixed w =>
    refine hdr.andThenAt (b := fun p q => patchSize c (.fixed w) p (subSz (subSz q p) w))
      (b' := fun p q => patchSize { c with g := g' } (.fixed w) p (subSz (subSz q p) w)) fun p q => ?_
    rw [subSz_add_left]
    exact patchSize_same ..
  case varint =>
    refine hdr.andThenAt (b := fun p q => (moveAhead c.g p).andThen (patchSize c .varint p (subSz (subSz q p) 1)))
      (b' := fun p q => (moveAhead g' p).andThen (patchSize { c with g := g' } .varint p (subSz (subSz q p) 1)))
      fun p q => ?_
    rw [subSz_add_left]
    exact (moveAhead_same hg hg' _).andThen (patchSize_same ..)

theorem encTag_same (hg : GrowthOk c.g) (hg' : GrowthOk g') (maps : List (Nat × Nat)) (num : Option Nat) (i wt : Nat) :
    SameM k (encTag c maps num i wt) (encTag { c with g := g' } maps num i wt) :=
  SameM.ite (putVarint_same hg hg' (by decide) _) (putVarint_same hg hg' (by decide) _)

theorem pbEncField_same (hg : GrowthOk c.g) (hg' : GrowthOk g') {rec rec' : Ty → Val → OutM} (h : ∀ t v, SameM k (rec t v) (rec' t v))
    (maps : List (Nat × Nat)) (num : Option Nat) (i : Nat) (t : Ty) (v : Val) :
    SameM k (pbEncField c rec maps num i t v) (pbEncField { c with g := g' } rec' maps num i t v) := by
  unfold pbEncField
  have tag := fun num wt => encTag_same (k := k) hg hg' maps num i wt
  split
  · exact SameM.skip
  · exact (tag ..).andThen (encVarintVal_same hg hg' ..)
  · exact (tag ..).andThen (h ..)
  · split
    · exact encAll_same (fun e => (tag ..).andThen (h ..)) _
    · exact SameM.fail _
  · split
    · refine SameM.ite SameM.skip (((tag ..).andThen (putVarint_same hg hg' (by decide) _)).andThen ?_)
      split
      · exact h ..
      · exact encAll_same (fun v => h _ v) _
    · exact SameM.fail _
  · split
    · exact SameM.ite SameM.skip (((tag ..).andThen (putVarint_same hg hg' (by decide) _)).andThen
        (encAll_same (fun v => encVarintVal_same hg hg' ..) _))
    · exact SameM.fail _
  · split
    · exact SameM.ite SameM.skip (((tag ..).andThen (putVarint_same hg hg' (by decide) _)).andThen
        (encAll_same (fun v => encVarintVal_same hg hg' ..) _))
    · exact SameM.fail _
  · split
    · exact encAll_same (fun e => (tag ..).andThen (h ..)) _
    · exact SameM.fail _

theorem pbEncFields_same (hg : GrowthOk c.g) (hg' : GrowthOk g') {rec rec' : Ty → Val → OutM} (h : ∀ t v, SameM k (rec t v) (rec' t v))
    (maps : List (Nat × Nat)) : ∀ (i : Nat) (nums : List (Option Nat)) (ts : List Ty) (vs : List Val),
    SameM k (pbEncFields c rec maps i nums ts vs) (pbEncFields { c with g := g' } rec' maps i nums ts vs) := by
  intro i nums
  induction nums generalizing i with
  | nil =>
    intro ts vs
    cases ts <;> cases vs <;> first | exact SameM.skip | exact SameM.fail _
  | cons num nums ih =>
    intro ts vs
    cases ts <;> cases vs <;> first
      | exact (pbEncField_same hg hg' h maps num i _ _).andThen (ih (i + 1) _ _)
      | exact SameM.fail _

theorem encode_same {g' : Growth} (hg' : GrowthOk g') :
    ∀ (d : Nat) (c : Cfg), GrowthOk c.g → ∀ (t : Ty) (v : Val), SameM k (encode d c t v) (encode d { c with g := g' } t v) := by
  intro d
  induction d with
  | zero => intro c hg t v; exact SameM.fail _
  | succ d ih =>
    intro c hg t v
    have ihc := ih c hg
    cases t with
    | scalar _ n =>
      cases v
      case num x => exact put_same hg hg' _
      all_goals exact SameM.fail _
    | bool =>
      cases v
      case num x => exact put_same hg hg' _
      all_goals exact SameM.fail _
    | varint n zz => exact encVarintVal_same hg hg' ..
    | empty => exact SameM.skip
    | struct ok fs =>
      cases v
      case list vs => exact SameM.ite (encRep_same hg hg' _) (encFields_same ihc ..)
      all_goals exact SameM.fail _
    | array n t' =>
      cases v
      case list vs =>
        exact SameM.ite (SameM.fail _) (SameM.ite (encRep_same hg hg' _) (encAll_same (ihc t') _))
      all_goals exact SameM.fail _
    | seq k sz t' =>
      cases v
      case list vs =>
        exact (encHdr_same hg hg' ..).andThen (SameM.ite (encRep_same hg hg' _) (encAll_same (ihc t') _))
      all_goals exact SameM.fail _
    | assoc _ _ sz key mapped =>
      cases v
      case list vs =>
        refine (encHdr_same hg hg' ..).andThen (encAll_same (fun e => ?_) _)
        cases mapped with
        | none => exact ihc ..
        | some m =>
          cases e
          case list es => exact encFields_same ihc ..
          all_goals exact SameM.fail _
      all_goals exact SameM.fail _
    | optional _ t' => exact encOptional_same hg hg' (ihc t') v
    | optPtr t' => exact encOptional_same hg hg' (ihc t') v
    | uptr t' => exact encUptr_same (ihc t') v
    | variant idTy ids _ alts => exact encVariant_same ihc ..
    | bitset n =>
      cases v
      case bits bs => exact encBitset_same hg hg' n bs
      all_goals exact SameM.fail _
    | msg sz _ maps nums fs =>
      cases v
      case list vs =>
        have hg1 : GrowthOk (pbOutCfg c).g := by rw [pbOutCfg_g]; exact hg
        have e : pbOutCfg { c with g := g' } = { pbOutCfg c with g := g' } := by
          unfold pbOutCfg
          split <;> rfl
        have h := pbEncFields_same (g' := g') hg1 hg' (ih (pbOutCfg c) hg1) maps 0 nums fs vs
        rw [← e] at h
        exact encByProtocol_same hg hg' _ h
      all_goals exact SameM.fail _
    | ref i => exact ihc ..

theorem encMany_same {g' : Growth} (d : Nat) (c : Cfg) (hg : GrowthOk c.g) (hg' : GrowthOk g') :
    ∀ items, SameM k (encMany d c items) (encMany d { c with g := g' } items)
  | [] => SameM.skip
  | (t, v) :: rest => (encode_same hg' d c hg t v).andThen (encMany_same d c hg hg' rest)

/-- Fitting only cuts zeros. -/
theorem fitCall_longer (c : Cfg) (hg : GrowthOk c.g) (noFit : Bool) (m : OutM) {st : OutSt} (hv : Valid st)
    (hs : SafeStep c.g st (.ok, (m st).2)) :
    Stuck (fitCall c noFit m st).1 ∨ ((fitCall c noFit m st).1 = (m st).1 ∧ Longer (m st).2 (fitCall c noFit m st).2) := by
  have hv' := hs.valid hg hv
  unfold fitCall
  split
  · generalize m st = r at hs hv'
    obtain ⟨s, st'⟩ := r
    have hin := hs.inb
    have ht := hs.tail
    have hge := hs.len_ge
    simp only at hin ht hge hv'
    by_cases hb : s = .badAlloc
    · subst hb
      exact .inl (.inl (.inr (.inr rfl)))
    · suffices fin : Stuck (if st.data.length ≤ st'.pos then
            if st'.data.length < st'.pos ∧ c.g.maxMem < st'.pos then (Status.badAlloc, st')
            else (s, { st' with data := resizeBytes st'.data st'.pos })
          else (s, st')).1 ∨
          ((if st.data.length ≤ st'.pos then
            if st'.data.length < st'.pos ∧ c.g.maxMem < st'.pos then (Status.badAlloc, st')
            else (s, { st' with data := resizeBytes st'.data st'.pos })
          else (s, st')).1 = s ∧
          Longer st' (if st.data.length ≤ st'.pos then
            if st'.data.length < st'.pos ∧ c.g.maxMem < st'.pos then (Status.badAlloc, st')
            else (s, { st' with data := resizeBytes st'.data st'.pos })
          else (s, st')).2) by
        cases s <;> first | exact absurd rfl hb | exact fin
      split
      · rename_i hfin
        rw [if_neg (by omega)]
        refine .inr ⟨rfl, ⟨?_, ?_⟩, rfl, fun i => ?_⟩
        · simp only [resizeBytes, List.length_append, List.length_take, List.length_replicate]; omega
        · have := hv'.len_lt
          simp only [resizeBytes, List.length_append, List.length_take, List.length_replicate]; omega
        · simp only [resizeBytes]
          rw [getD_append_zeros]
          rw [List.getElem?_take]
          split
          · rfl
          · rename_i hi
            have e := congrArg (fun l => l[i - st'.pos]?.getD 0) ht
            simp only [List.getElem?_drop] at e
            rw [show st'.pos + (i - st'.pos) = i by omega, getD_append_zeros, List.getElem?_eq_none (l := st.data) (by omega)] at e
            rw [e]
      · exact .inr ⟨rfl, .refl hv'⟩
  · exact .inr ⟨rfl, .refl hv'⟩

theorem fitCall_same {c : Cfg} {g' : Growth} (noFit noFit' : Bool) (hg : GrowthOk c.g) (hg' : GrowthOk g') {m m' : OutM} (h : SameM k m m')
    (hs : ∀ s, Valid s → SafeStep c.g s (.ok, (m s).2)) (hs' : ∀ s, Valid s → SafeStep g' s (.ok, (m' s).2)) :
    SameM k (fitCall c noFit m) (fitCall { c with g := g' } noFit' m') := by
  refine ⟨fun s t hst => ?_⟩
  have l1 := fitCall_longer c hg noFit m hst.left (hs s hst.left)
  have l2 := fitCall_longer { c with g := g' } hg' noFit' m' hst.right (hs' t hst.right)
  rcases h.run s t hst with h1 | h1 | ⟨h1, h2⟩
  · rcases l1 with h3 | ⟨h3, -⟩
    · exact .inl h3
    · exact .inl (h3 ▸ h1)
  · rcases l2 with h3 | ⟨h3, -⟩
    · exact .inr (.inl h3)
    · exact .inr (.inl (h3 ▸ h1))
  · rcases l1 with h3 | ⟨h3, h4⟩
    · exact .inl h3
    · rcases l2 with h5 | ⟨h5, h6⟩
      · exact .inr (.inl h5)
      · exact .inr (.inr ⟨by rw [h3, h5, h1], fun ho => Longer.same (h2 (h3 ▸ ho)) h4 h6⟩)

theorem SafeStep.state {g : Growth} {st : OutSt} {r : Status × OutSt} (h : SafeStep g st r) : SafeStep g st (.ok, r.2) :=
  { h with code := trivial }

theorem outCall_same {g' : Growth} (d : Nat) (c : Cfg) (noFit noFit' : Bool) (hg : GrowthOk c.g) (hg' : GrowthOk g') (items : List (Ty × Val)) :
    SameM k (outCall d c noFit items) (outCall d { c with g := g' } noFit' items) :=
  fitCall_same noFit noFit' hg hg' (encMany_same d c hg hg' items) (fun s hs => (encMany_safe d c hg items s hs).state)
    (fun s hs => (encMany_safe d { c with g := g' } hg' items s hs).state)

theorem Spec.SameOut.behind {a b : OutSt} (h : SameOut a b) : SameBehind 0 a b :=
  ⟨h.left, h.right, by rw [h.pos, Nat.zero_add], fun i => by rw [Nat.zero_add]; exact h.bytes i⟩

theorem Spec.SameBehind.out {a b : OutSt} (h : SameBehind 0 a b) : SameOut a b :=
  ⟨h.left, h.right, by rw [h.pos, Nat.zero_add], fun i => by have := h.bytes i; rwa [Nat.zero_add] at this⟩

end Zpp
