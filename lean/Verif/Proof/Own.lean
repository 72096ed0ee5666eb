import Verif.Spec.Own
import Verif.Proof.Located
import Verif.Proof.OutCall
/-!
# Writing views of the archive's own buffer
-/

namespace Zpp
open Zpp.Spec

variable {O : Prop}

/-- The bytes of `D` in front of `p0` are there and, if there may be views of the buffer (`O`), those from `P` on. -/
structure Kept (O : Prop) (D : List UInt8) (p0 P : Nat) (data : List UInt8) : Prop where
  front : data.take p0 = D.take p0
  back : O → ∀ i, P ≤ i → i < D.length → data[i]? = D[i]?

/-- `a` does what `e` does, as long as the bytes of `D` in front of `p0` and from `P` on are there, `e` does not go beyond `P`, and
(if there may be views of the buffer, `O`) the buffer has at most `L` bytes. -/
structure Agrees (O : Prop) (g : Growth) (D : List UInt8) (p0 P L : Nat) (a e : OutM) : Prop where
  safe : SafeOut g e
  same : ∀ st, Valid st → p0 ≤ st.pos → Kept O D p0 P st.data → (O → (e st).2.data.length ≤ L ∧ (e st).2.pos ≤ P) →
    a st = e st

theorem Kept.step {g : Growth} {D : List UInt8} {p0 P : Nat} {st : OutSt} {r : Status × OutSt} (s : SafeStep g st r) (hp : p0 ≤ st.pos)
    (h : Kept O D p0 P st.data) (hP : O → r.2.pos ≤ P) : Kept O D p0 P r.2.data := by
  refine ⟨?_, fun ho i hi hl => ?_⟩
  · have hk := congrArg (List.take p0) s.keep
    rwa [List.take_take, List.take_take, Nat.min_eq_left hp, h.front] at hk
  · have hb := h.back ho i hi hl
    have ht := congrArg (fun l => l[i - r.2.pos]?) s.tail
    have hri : r.2.pos ≤ i := Nat.le_trans (hP ho) hi
    simp only [List.getElem?_drop, Nat.add_sub_cancel' hri] at ht
    have hlt : i < st.data.length := by
      apply Classical.byContradiction
      intro hn
      rw [List.getElem?_eq_none (by omega), List.getElem?_eq_getElem hl] at hb
      cases hb
    rw [ht, List.getElem?_append_left hlt, hb]

theorem Agrees.refl {g : Growth} {D : List UInt8} {p0 P L : Nat} {e : OutM} (h : SafeOut g e) : Agrees O g D p0 P L e e := ⟨h, fun _ _ _ _ _ => rfl⟩

theorem Agrees.andThen {g : Growth} (hg : GrowthOk g) {D : List UInt8} {p0 P L : Nat} {a1 e1 a2 e2 : OutM} (h1 : Agrees O g D p0 P L a1 e1)
    (h2 : Agrees O g D p0 P L a2 e2) : Agrees O g D p0 P L (a1.andThen a2) (e1.andThen e2) := by
  refine ⟨h1.safe.andThen hg h2.safe, fun st hv hp hd hL => ?_⟩
  have s1 := h1.safe st hv
  have hv1 := s1.valid hg hv
  have e1' := h1.same st hv hp hd
  unfold OutM.andThen at hL ⊢
  generalize e1 st = r at s1 hv1 e1' hL
  obtain ⟨s, st1⟩ := r
  cases s
  case ok =>
    have s2 := h2.safe st1 hv1
    have hl1 : O → st1.data.length ≤ L ∧ st1.pos ≤ P := by
      intro ho
      have hL := hL ho
      have b := s2.len_ge
      have b' := s2.mono
      dsimp only at b hL
      omega
    rw [e1' hl1]
    exact h2.same st1 hv1 (Nat.le_trans hp s1.mono) (hd.step s1 hp fun ho => (hl1 ho).2) hL
  all_goals rw [e1' hL]

/-- The places show bytes that are in their buffers; those of the archive's own buffer `b`, which has `n` bytes, are in front of `p0`
or at or behind `P`. -/
def Fine (O : Prop) (m : Memory) (b p0 P n : Nat) (pl : Place) : Prop := (O ∧ (Behind b p0 pl ∨ Ahead b P n pl)) ∨ Elsewhere m b pl

def Stable (O : Prop) (m : Memory) (b p0 P n : Nat) (ps : List Place) : Prop := ∀ pl ∈ ps, Fine O m b p0 P n pl

theorem Stable.sub {m : Memory} {b p0 P n : Nat} {ps qs : List Place} (h : Stable O m b p0 P n ps) (hs : ∀ pl ∈ qs, pl ∈ ps) : Stable O m b p0 P n qs :=
  fun pl hp => h pl (hs pl hp)

theorem bytes_with {m : Memory} {b p0 P : Nat} {D data : List UInt8} {pl : Place} (hd : Kept O D p0 P data)
    (h : Fine O m b p0 P D.length pl) :
    (m.with b data).bytes pl = (m.with b D).bytes pl := by
  simp only [Memory.bytes, Memory.with]
  rcases h with ⟨_, ⟨hb, h⟩ | ⟨hb, h, h'⟩⟩ | ⟨hb, h⟩
  · rw [if_pos hb, if_pos hb]
    have e : ∀ l : List UInt8, (l.drop pl.off).take pl.len = ((l.take p0).drop pl.off).take pl.len := by
      intro l
      rw [List.drop_take, List.take_take, Nat.min_eq_left (by omega)]
    rw [e data, e D, hd.front]
  · next ho =>
    rw [if_pos hb, if_pos hb]
    apply List.ext_getElem?
    intro i
    rw [List.getElem?_take, List.getElem?_take, List.getElem?_drop, List.getElem?_drop]
    split
    · exact hd.back ho _ (by omega) (by omega)
    · rfl
  · rw [if_neg hb, if_neg hb]

theorem bytes_with_length {m : Memory} {b p0 P : Nat} {D : List UInt8} {pl : Place} (hD : p0 ≤ D.length)
    (h : Fine O m b p0 P D.length pl) : ((m.with b D).bytes pl).length = pl.len := by
  simp only [Memory.bytes, Memory.with]
  rcases h with ⟨_, ⟨hb, h⟩ | ⟨hb, _, h⟩⟩ | ⟨hb, h⟩
  · rw [if_pos hb]; simp; omega
  · rw [if_pos hb]; simp; omega
  · rw [if_neg hb]; simp; omega

theorem agrees_whole {d : Nat} {c : Cfg} (hg : GrowthOk c.g) {m : Memory} {b p0 P L : Nat} {D : List UInt8} {t : Ty} {v : LVal}
    (h : Stable O m b p0 P D.length (placesOf v)) :
    Agrees O c.g D p0 P L (encWhole d c m b t v) (encode d c t (v.look (m.with b D))) := by
  refine ⟨encode_safe d c hg t _, fun st hv hp hd hL => ?_⟩
  unfold encWhole
  rw [look_congr v fun pl hm => bytes_with hd (h pl hm)]

theorem agrees_all {g : Growth} (hg : GrowthOk g) {D : List UInt8} {p0 P L : Nat} {rec : LVal → OutM} {rec' : Val → OutM} {m' : Memory} :
    ∀ vs : List LVal, (∀ v ∈ vs, Agrees O g D p0 P L (rec v) (rec' (v.look m'))) →
    Agrees O g D p0 P L (encAllL rec vs) (encAll rec' (LVal.lookAll m' vs))
  | [], _ => .refl (SafeOut.skip g)
  | v :: vs, h => (h v (by simp)).andThen hg (agrees_all hg vs fun v hv => h v (by simp [hv]))

theorem agrees_fields {g : Growth} (hg : GrowthOk g) {D : List UInt8} {p0 P L : Nat} {rec : Ty → LVal → OutM} {rec' : Ty → Val → OutM}
    {m' : Memory} : ∀ (ts : List Ty) (vs : List LVal), (∀ t, ∀ v ∈ vs, Agrees O g D p0 P L (rec t v) (rec' t (v.look m'))) →
    Agrees O g D p0 P L (encFieldsL rec ts vs) (encFields rec' ts (LVal.lookAll m' vs))
  | [], [], _ => .refl (SafeOut.skip g)
  | t :: ts, v :: vs, h => (h t v (by simp)).andThen hg (agrees_fields hg ts vs fun t v hv => h t v (by simp [hv]))
  | [], v :: vs, _ => .refl (SafeOut.fail g fun _ => trivial)
  | t :: ts, [], _ => .refl (SafeOut.fail g fun _ => trivial)

theorem lookAll_length (m : Memory) (vs : List LVal) : (LVal.lookAll m vs).length = vs.length := by
  induction vs with
  | nil => rfl
  | cons v vs ih => simp [LVal.lookAll, ih]

theorem repAll_view (e : Endian) {t : Ty} (h : isViewElem t = true) (bs : List UInt8) :
    repAll e t (bs.map fun b => Val.num b.toNat) = some bs := by
  have hr : ∀ x : UInt8, rep e t (.num x.toNat) = some [x] := by
    intro x
    have hx : x.toNat < 256 ^ 1 := x.toNat_lt
    have hb : hostBytes e 1 x.toNat = [x] := by cases e <;> simp [hostBytes, leBytes]
    unfold isViewElem at h
    split at h
    · simp only [rep, if_pos hx, hb]
    · simp only [rep, if_pos hx, hb]
    · cases h
  induction bs with
  | nil => simp [repAll]
  | cons x xs ih => simp only [List.map_cons, repAll, hr, ih, List.singleton_append]

theorem agrees_view {c : Cfg} (hg : GrowthOk c.g) {m : Memory} {b p0 P L : Nat} {D : List UInt8} {pl : Place} (hD : p0 ≤ D.length) (hL : p0 ≤ L)
    (h : Fine O m b p0 P D.length pl) :
    Agrees O c.g D p0 P L (putView c.g m b L pl) (putBytes c.g ((m.with b D).bytes pl)) := by
  have hlen := bytes_with_length hD h
  unfold putView putBytes
  rw [hlen]
  split
  · exact .refl (SafeOut.skip _)
  · have hs := put_safe hg ((m.with b D).bytes pl)
    unfold put at hs ⊢
    rw [hlen] at hs ⊢
    refine ⟨hs, fun st hv hp hd hfin => ?_⟩
    have s1 := claim_safe hg pl.len st hv
    obtain ⟨s1, hpos, hroom⟩ := s1
    unfold OutM.andThen at hfin ⊢
    generalize claim c.g pl.len st = r at s1 hpos hroom hfin
    obtain ⟨s, st1⟩ := r
    cases s
    case ok =>
      dsimp only at hfin hpos hroom ⊢
      have hl1 : O → st1.data.length ≤ L ∧ st1.pos + pl.len ≤ P := by
        intro ho
        have hfin := hfin ho
        have hr := hroom rfl
        rw [memcpyAt_eq (by rw [hlen, hpos]; exact hr)] at hfin
        simp only [List.length_append, List.length_take, List.length_drop, hlen] at hfin
        omega
      have hk : Kept O D p0 P st1.data := hd.step s1 hp fun ho => by have := hl1 ho; simp only; omega
      have hsrc : viewSource m b L pl st1 = some ((m.with b D).bytes pl) := by
        rw [← bytes_with hk h]
        unfold viewSource
        simp only [Memory.bytes, Memory.with]
        rcases h with ⟨ho, ⟨hb, h⟩ | ⟨hb, h, h'⟩⟩ | ⟨hb, h⟩
        · have hin : st1.pos ≤ st1.data.length := s1.inb
          rw [if_pos hb, if_pos hb, if_pos ⟨(hl1 ho).1, by omega, .inl (by omega)⟩]
        · have hl := hl1 ho
          have hle : D.length ≤ st1.data.length ∨ pl.len = 0 := by
            rcases Nat.eq_zero_or_pos pl.len with h0 | h0
            · exact .inr h0
            · left
              have hb := hk.back ho (D.length - 1) (by omega) (by omega)
              rw [List.getElem?_eq_getElem (by omega : D.length - 1 < D.length)] at hb
              have := (List.getElem?_eq_some_iff.mp hb).1
              omega
          rw [if_pos hb, if_pos hb, if_pos ⟨hl.1, by rcases hle with h0 | h0 <;> omega, .inr (by omega)⟩]
        · rw [if_neg hb, if_neg hb, if_pos h]
      rw [hsrc]
    all_goals rfl

theorem asBytes_viewElem {c : Cfg} {t : Ty} (h : isViewElem t = true) : asBytes c t = true := by
  unfold isViewElem at h
  split at h <;> first | rfl | cases h

theorem asBytes_pair {c : Cfg} {ts : List Ty} : asBytes c (.struct false ts) = false := by
  simp [asBytes, Ty.endianIndep, Ty.byteSer]

theorem stable_mem {m : Memory} {b p0 P n : Nat} {vs : List LVal} (h : Stable O m b p0 P n (placesAll vs)) : ∀ v ∈ vs, Stable O m b p0 P n (placesOf v) :=
  fun _ hv => h.sub fun _ hp => mem_placesAll.mpr ⟨_, hv, hp⟩

/-- Writing objects with stable views is writing what they look like. -/
theorem agrees_encode {m : Memory} {b p0 P L : Nat} {D : List UInt8} (hD : p0 ≤ D.length) (hL : p0 ≤ L) : ∀ (d : Nat) (c : Cfg) (t : Ty)
    (v : LVal), GrowthOk c.g → Stable O m b p0 P D.length (placesOf v) →
    Agrees O c.g D p0 P L (encodeL d c m b L t v) (encode d c t (v.look (m.with b D))) := by
  intro d
  induction d with
  | zero => intro c t v hg h; exact .refl (SafeOut.fail _ fun _ => trivial)
  | succ d ih =>
    intro c t v hg h
    have hwhole : Agrees O c.g D p0 P L (encWhole (d + 1) c m b t v) (encode (d + 1) c t (v.look (m.with b D))) := agrees_whole hg h
    have hrec : ∀ t v, Stable O m b p0 P D.length (placesOf v) → Agrees O c.g D p0 P L (encodeL d c m b L t v) (encode d c t (v.look (m.with b D))) :=
      fun t v h => ih c t v hg h
    have hall : ∀ t vs, Stable O m b p0 P D.length (placesAll vs) →
        Agrees O c.g D p0 P L (encAllL (encodeL d c m b L t) vs) (encAll (encode d c t) (LVal.lookAll (m.with b D) vs)) :=
      fun t vs h => agrees_all hg vs fun v hv => hrec t v (stable_mem h v hv)
    have hfields : ∀ ts vs, Stable O m b p0 P D.length (placesAll vs) →
        Agrees O c.g D p0 P L (encFieldsL (encodeL d c m b L) ts vs) (encFields (encode d c) ts (LVal.lookAll (m.with b D) vs)) :=
      fun ts vs h => agrees_fields hg ts vs fun t v hv => hrec t v (stable_mem h v hv)
    cases t with
    | scalar k n => exact hwhole
    | bool => exact hwhole
    | varint n zz => exact hwhole
    | empty => exact hwhole
    | bitset n => exact hwhole
    | msg sz ok maps nums fs => exact hwhole
    | ref i =>
      simp only [encodeL, encode]
      exact hrec _ _ h
    | struct ok fs =>
      cases v
      case list vs =>
        simp only [encodeL]
        split
        · exact hwhole
        · next hb =>
          simp only [encode, LVal.look, if_neg hb]
          exact hfields fs vs h
      all_goals exact hwhole
    | array n t =>
      cases v
      case list vs =>
        simp only [encodeL]
        split
        · next hn =>
          simp only [encode, LVal.look, lookAll_length, if_pos hn]
          exact .refl (SafeOut.fail _ fun _ => trivial)
        · next hn =>
          split
          · exact hwhole
          · next hb =>
            simp only [encode, LVal.look, lookAll_length, if_neg hn, if_neg hb]
            exact hall t vs h
      all_goals exact hwhole
    | seq k sz t =>
      cases v
      case list vs =>
        simp only [encodeL]
        split
        · exact hwhole
        · next hb =>
          simp only [encode, LVal.look, lookAll_length, if_neg hb]
          exact (Agrees.refl (encHdr_safe hg _ _)).andThen hg (hall t vs h)
      case view pl =>
        simp only [encodeL]
        split
        · next hk =>
          have h' := h pl (by simp [placesOf])
          have hlen := bytes_with_length hD h'
          have hc : k ≠ .list ∧ asBytes c t = true := ⟨by rw [hk.1]; simp, asBytes_viewElem hk.2⟩
          simp only [encode, LVal.look, List.length_map, hlen, if_pos hc, repAll_view c.host hk.2, encRep]
          exact (Agrees.refl (encHdr_safe hg _ _)).andThen hg (agrees_view hg hD hL h')
        · exact hwhole
      all_goals exact hwhole
    | assoc mu ha sz key mp =>
      cases v
      case list vs =>
        simp only [encodeL, encode, LVal.look, lookAll_length]
        refine (Agrees.refl (encHdr_safe hg _ _)).andThen hg (agrees_all hg vs fun v hv => ?_)
        have hs := stable_mem h v hv
        cases mp with
        | none => exact hrec key v hs
        | some t =>
          have hw : Agrees O c.g D p0 P L (encWhole (d + 1) c m b (.struct false [key, t]) v)
              (encode (d + 1) c (.struct false [key, t]) (v.look (m.with b D))) := agrees_whole hg hs
          simp only [encode, asBytes_pair] at hw
          cases v
          case list es => exact hfields [key, t] es hs
          all_goals exact hw
      all_goals exact hwhole
    | optional dc t =>
      cases v
      case some w =>
        simp only [encodeL, encode, LVal.look, encOptional]
        exact (Agrees.refl (put_safe hg _)).andThen hg (hrec t w h)
      all_goals exact hwhole
    | optPtr t =>
      cases v
      case some w =>
        simp only [encodeL, encode, LVal.look, encOptional]
        exact (Agrees.refl (put_safe hg _)).andThen hg (hrec t w h)
      all_goals exact hwhole
    | uptr t =>
      cases v
      case some w =>
        simp only [encodeL, encode, LVal.look, encUptr]
        exact hrec t w h
      all_goals exact hwhole
    | variant idTy ids dcs alts =>
      cases v
      case alt i w =>
        simp only [encodeL, encode, LVal.look, encVariant]
        cases ids[i]? with
        | none => exact .refl (SafeOut.fail _ fun _ => trivial)
        | some id =>
          cases alts[i]? with
          | none => exact .refl (SafeOut.fail _ fun _ => trivial)
          | some t => exact (Agrees.refl (encode_safe d c hg _ _)).andThen hg (hrec t w h)
      all_goals exact hwhole

theorem agrees_many {m : Memory} {b p0 P L : Nat} {D : List UInt8} (hD : p0 ≤ D.length) (hL : p0 ≤ L) {d : Nat} {c : Cfg}
    (hg : GrowthOk c.g) : ∀ items : List (Ty × LVal), Stable O m b p0 P D.length (placesAll (items.map Prod.snd)) →
    Agrees O c.g D p0 P L (encManyL d c m b L items) (encMany d c (items.map fun x => (x.1, x.2.look (m.with b D))))
  | [], _ => .refl (SafeOut.skip _)
  | (t, v) :: rest, h => (agrees_encode hD hL d c t v hg (h.sub fun _ hp => List.mem_append_left _ hp)).andThen hg
      (agrees_many hD hL hg rest (h.sub fun _ hp => List.mem_append_right _ hp))

end Zpp
