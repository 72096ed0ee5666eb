import Verif.Proof.Reread
import Verif.Proof.Bits
import Verif.Proof.InLocal
/-! # What a successful read of arbitrary bytes yields: all types -/

namespace Zpp
open Spec

mutual
/-- Nothing limits plain objects. -/
theorem loadable_plain {c : Cfg} : ∀ (t : Ty) (v : Val), plain t = true → Loadable c t v
  | .scalar _ _, v, _ => by cases v <;> simp only [Loadable]
  | .bool, v, _ => by cases v <;> simp only [Loadable]
  | .struct ok fs, v, h => by
    cases v <;> simp only [Loadable]
    exact loadable_plainF fs _ (by simpa [plain] using h)
  | .array n t, v, h => by
    cases v <;> simp only [Loadable]
    rename_i vs
    have key := fun v => loadable_plain (c := c) t v (by simpa [plain] using h)
    induction vs with
    | nil => trivial
    | cons v vs ih => exact ⟨key v, ih⟩
  | .varint _ _, _, h | .empty, _, h | .seq _ _ _, _, h | .assoc _ _ _ _ _, _, h | .optional _ _, _, h | .optPtr _, _, h
  | .uptr _, _, h | .variant _ _ _ _, _, h | .bitset _, _, h | .msg _ _ _ _ _, _, h | .ref _, _, h => by simp [plain] at h
theorem loadable_plainF {c : Cfg} : ∀ (ts : List Ty) (vs : List Val), plain.plainAll ts = true → LoadableF c ts vs
  | [], vs, _ => by cases vs <;> simp only [LoadableF]
  | t :: ts, [], _ => by simp only [LoadableF]
  | t :: ts, v :: vs, h => by
    simp only [plain.plainAll, Bool.and_eq_true] at h
    exact ⟨loadable_plain t v h.1, loadable_plainF ts vs h.2⟩
end

theorem asBytes_order {c : Cfg} {t : Ty} (h : asBytes c t = true) : (fmtOf c).order = c.host ∨ t.endianIndep = true := by
  simp only [asBytes, Bool.or_eq_true, Bool.and_eq_true, Bool.not_eq_true'] at h
  rcases h with h | h
  · exact Or.inr h
  · left; simp [fmtOf, h.1]

theorem slice_take {data : List UInt8} {p q n : Nat} (h : p + n ≤ q) : (slice data p q).take n = slice data p (p + n) := by
  unfold slice
  rw [List.take_take]
  congr 1
  omega

theorem slice_drop {data : List UInt8} {p q n : Nat} : (slice data p q).drop n = slice data (p + n) q := by
  unfold slice
  rw [List.drop_take, List.drop_drop]
  congr 1
  omega

theorem block_again {c : Cfg} {data : List UInt8} {t : Ty} (ha : AbiOk c.sizeof) (hb : t.byteSer c.sizeof = true)
    (ho : (fmtOf c).order = c.host ∨ t.endianIndep = true) (hpl : plain t = true) (hg : Good c t = true) : ∀ n p q, q = p + n * c.sizeof t → q ≤ data.length →
    RrEs c data t p q (unrepAll c.host c.sizeof t n (slice data p q)) ∧
      (unrepAll c.host c.sizeof t n (slice data p q)).length = n := by
  intro n
  induction n with
  | zero =>
    intro p q hq hl
    simp only [Nat.zero_mul, Nat.add_zero] at hq
    subst hq
    exact ⟨.nil hl, rfl⟩
  | succ n ih =>
    intro p q hq hl
    rw [Nat.succ_mul] at hq
    have h1 := ih (p + c.sizeof t) q (by omega) hl
    simp only [unrepAll, chunks] at h1 ⊢
    rw [slice_take (by omega), slice_drop]
    refine ⟨.cons ?_ h1.1, by simp [h1.2]⟩
    obtain ⟨k1, k2⟩ := unrep_wire ha (fmtOf c) c.host c.env t (slice data p (p + c.sizeof t)) hpl hg hb ho
      (by rw [slice_length (by omega)]; omega)
    refine ⟨by omega, by omega, fun bs h => ?_, fun h => ⟨_, k2 h⟩, loadable_plain t _ hpl⟩
    have := k1 bs h
    subst this
    exact ⟨by rw [slice_length (by omega)]; omega, fun _ => rfl⟩

theorem decRep_again {c : Cfg} {data : List UInt8} {t : Ty} (ha : AbiOk c.sizeof) (hb : asBytes c t = true) (hcp : copyOk c t = true)
    (hg : Good c t = true) {n p q : Nat} {olds vs : List Val} (hl : olds.length = n) (hp : p ≤ data.length)
    (h : decRep c t n olds data p = ⟨.ok, vs, q⟩) : RrEs c data t p q vs ∧ vs.length = n := by
  unfold decRep at h
  have hpos := ha.pos t
  split at h
  · rename_i hz
    cases h
    have hn : n = 0 := by
      rcases Nat.mul_eq_zero.mp hz with h | h
      · exact h
      · omega
    subst hn
    cases olds with
    | nil => exact ⟨.nil hp, rfl⟩
    | cons => simp at hl
  · split at h
    · rename_i bs p' hgb
      cases h
      obtain ⟨h1, h2, h3, _⟩ := getBytes_slice hp hgb
      rw [h3]
      exact block_again ha (asBytes_byteSer hb) (asBytes_order hb) (plain_of_copyOk hb hcp) hg n p _ h1 h2
    · cases h; simp_all

/-! ## Associative containers -/

theorem wireAll_perm {f : Fmt} {t : Ty} {vs ws : List Val} (h : vs.Perm ws) : ∀ bs, wireAll f t vs = some bs →
    ∃ bs', wireAll f t ws = some bs' ∧ bs'.length = bs.length := by
  induction h with
  | nil => intro bs h; exact ⟨bs, h, rfl⟩
  | cons x _ ih =>
    intro bs h
    simp only [wireAll, cat_eq_some] at h
    obtain ⟨a, b, ha, hb, rfl⟩ := h
    obtain ⟨b', h1, h2⟩ := ih b hb
    exact ⟨a ++ b', by simp [wireAll, ha, h1, cat], by simp [h2]⟩
  | swap x y l =>
    intro bs h
    simp only [wireAll, cat_eq_some] at h
    obtain ⟨a, b, ha, ⟨a', b', ha', hb', rfl⟩, rfl⟩ := h
    exact ⟨a' ++ (a ++ b'), by simp [wireAll, ha, ha', hb', cat], by simp; omega⟩
  | trans _ _ ih1 ih2 =>
    intro bs h
    obtain ⟨b1, h1, e1⟩ := ih1 bs h
    obtain ⟨b2, h2, e2⟩ := ih2 b1 h1
    exact ⟨b2, h2, by omega⟩

theorem BoolsL_iff {env : Nat → Ty} {t : Ty} {vs : List Val} : BoolsL env t vs ↔ ∀ v ∈ vs, Bools env t v := by
  induction vs with
  | nil => simp [BoolsL]
  | cons v vs ih => simp [BoolsL, ih]

theorem LoadableL_iff {c : Cfg} {t : Ty} {vs : List Val} : LoadableL c t vs ↔ ∀ v ∈ vs, Loadable c t v := by
  induction vs with
  | nil => simp [LoadableL]
  | cons v vs ih => simp [LoadableL, ih]

/-- `RrEs` up to the order of the elements, for the elements of sets and maps. -/
structure RrAs (c : Cfg) (t : Ty) (p q : Nat) (vs : List Val) : Prop where
  mono : p ≤ q
  short : ∀ bs, wireAll (fmtOf c) t vs = some bs → bs.length + p ≤ q
  again : BoolsL c.env t vs → ∃ bs, wireAll (fmtOf c) t vs = some bs
  load : LoadableL c t vs

theorem RrAs.perm {c : Cfg} {t : Ty} {p q : Nat} {vs ws : List Val} (h : RrAs c t p q vs) (hp : vs.Perm ws) : RrAs c t p q ws := by
  refine ⟨h.mono, fun bs hw => ?_, fun hb => ?_, ?_⟩
  · obtain ⟨b, h1, h2⟩ := wireAll_perm hp.symm bs hw
    have := h.short b h1
    omega
  · rw [BoolsL_iff] at hb
    obtain ⟨b, h1⟩ := h.again (BoolsL_iff.mpr fun v hv => hb v (hp.mem_iff.mp hv))
    obtain ⟨b', h2, _⟩ := wireAll_perm hp b h1
    exact ⟨b', h2⟩
  · have := LoadableL_iff.mp h.load
    exact LoadableL_iff.mpr fun v hv => this v (hp.mem_iff.mpr hv)

theorem RrAs.snoc {c : Cfg} {data : List UInt8} {t : Ty} {p q r : Nat} {v : Val} {vs : List Val} (h1 : RrAs c t p q vs)
    (h2 : Rr c data t q r v) : RrAs c t p r (v :: vs) := by
  have := h1.mono
  have := h2.mono
  refine ⟨by omega, fun bs h => ?_, fun h => ?_, ⟨h2.load, h1.load⟩⟩
  · simp only [wireAll, cat_eq_some] at h
    obtain ⟨a, b, ha, hb, rfl⟩ := h
    have l1 := (h2.short a ha).1
    have l2 := h1.short b hb
    simp; omega
  · simp only [BoolsL] at h
    obtain ⟨a, ha⟩ := h2.again h.1
    obtain ⟨b, hb⟩ := h1.again h.2
    exact ⟨a ++ b, by simp [wireAll, ha, hb, cat]⟩

theorem assocInsert_cases {lt : Val → Val → Bool} {multi hashed isMap : Bool} (e : Val) (vs : List Val) :
    assocInsert lt multi hashed isMap e vs = vs ∨ (e :: vs).Perm (assocInsert lt multi hashed isMap e vs) := by
  unfold assocInsert
  split
  · split
    · right; exact (List.perm_append_comm (l₁ := vs) (l₂ := [e])).symm
    · left; rfl
  · split
    · right; exact (insertSorted_perm e vs).symm
    · left; rfl

theorem decAssoc_again {c : Cfg} {data : List UInt8} {t : Ty} {elem : Nat → Res} {lt : Val → Val → Bool} {multi hashed isMap : Bool}
    (hlt : WeakOrder lt) {p0 : Nat}
    (h : ∀ p v q, p ≤ data.length → elem p = ⟨.ok, v, q⟩ → Rr c data t p q v) : ∀ n acc p vs q, p ≤ data.length →
    RrAs c t p0 p acc → OrderedK lt multi hashed isMap acc →
    decAssoc elem (assocInsert lt multi hashed isMap) n acc p = ⟨.ok, vs, q⟩ →
    RrAs c t p0 q vs ∧ OrderedK lt multi hashed isMap vs ∧ vs.length ≤ acc.length + n ∧ q ≤ data.length := by
  intro n
  induction n with
  | zero => intro acc p vs q hp h1 h2 he; cases he; exact ⟨h1, h2, Nat.le_refl _, hp⟩
  | succ n ih =>
    intro acc p vs q hp h1 h2 he
    unfold decAssoc at he
    have h3 := h p
    generalize elem p = r at h3 he
    obtain ⟨s, v, q1⟩ := r
    cases s <;> first | (cases he; done) | skip
    have h3 := h3 v q1 hp rfl
    simp only at he
    have hs := h1.snoc h3
    have hi : RrAs c t p0 q1 (assocInsert lt multi hashed isMap v acc) ∧
        (assocInsert lt multi hashed isMap v acc).length ≤ acc.length + 1 := by
      rcases assocInsert_cases (lt := lt) (multi := multi) (hashed := hashed) (isMap := isMap) v acc with e | e
      · rw [e]
        have := h3.mono
        have := h1.mono
        exact ⟨⟨by omega, fun bs hb => by have := h1.short bs hb; omega, h1.again, h1.load⟩, by omega⟩
      · exact ⟨hs.perm e, by rw [← e.length_eq]; simp⟩
    obtain ⟨a1, a2, a3, a4⟩ := ih _ q1 vs q h3.inb hi.1 (assocInsert_ordered hlt h2) he
    exact ⟨a1, a2, by omega, a4⟩

/-! ## Bitsets -/

theorem bitsByte : ∀ b : Fin 256, UInt8.ofNat (((List.range 8).map fun i =>
    (decide (((UInt8.ofNat b.val).toNat >>> (i &&& 7)) &&& 1 = 1)).toNat * 2 ^ i).sum) = UInt8.ofNat b.val := by decide +kernel

theorem packBits_readBits {n : Nat} {bs : List UInt8} (hn : n % 8 = 0) (hl : bs.length = (n + 7) / 8) : packBits n (readBits n bs) = bs := by
  apply List.ext_getElem
  · simp [hl]
  · intro j h1 h2
    simp only [packBits, List.getElem_map, List.getElem_range]
    have hj : 8 * j + 8 ≤ n := by
      simp at h1; omega
    have hb : ∀ i, i < 8 → (readBits n bs).getD (8 * j + i) false = decide ((bs[j].toNat >>> (i &&& 7)) &&& 1 = 1) := by
      intro i hi
      have hlt : 8 * j + i < n := by omega
      simp only [readBits, List.getD_eq_getElem?_getD, List.getElem?_map, List.getElem?_range hlt, Option.map_some, Option.getD_some]
      have e1 : (8 * j + i) / 8 = j := by omega
      have e2 : (8 * j + i) &&& 7 = i &&& 7 := by
        rw [show 7 = 2 ^ 3 - 1 from rfl, Nat.and_two_pow_sub_one_eq_mod, Nat.and_two_pow_sub_one_eq_mod]; omega
      rw [e1, e2, List.getElem?_eq_getElem h2]
      rfl
    have hm : (List.range 8).map (fun i => ((readBits n bs).getD (8 * j + i) false).toNat * 2 ^ i) =
        (List.range 8).map (fun i => (decide ((bs[j].toNat >>> (i &&& 7)) &&& 1 = 1)).toNat * 2 ^ i) := by
      apply List.map_congr_left
      intro i hi
      rw [hb i (by simpa using hi)]
    rw [hm]
    have := bitsByte ⟨bs[j].toNat, bs[j].toNat_lt⟩
    simpa using this

/-! ## Variant ids -/

theorem boolId_bools {env : Nat → Ty} {t : Ty} {v : Val} (ht : idTyOk t = true) (h : boolId t v) : Bools env t v := by
  cases t with
  | scalar k n => cases v <;> simp only [Bools]
  | bool => cases v <;> simp only [Bools, boolId] at h ⊢; exact h
  | varint n zz => cases v <;> simp only [Bools]
  | array n t =>
    cases v <;> simp only [Bools]
    rename_i vs
    rw [BoolsL_iff]
    intro v hv
    simp only [idTyOk, Bool.and_eq_true] at ht
    cases t with
    | scalar k n => cases v <;> simp only [Bools]
    | varint n zz => cases v <;> simp only [Bools]
    | bool =>
      simp only [boolId] at h
      rcases h v hv with h | h <;> (subst h; simp [Bools])
    | _ => simp [numTy] at ht
  | _ => simp [idTyOk, numTy] at ht

theorem wire_wireId {f : Fmt} {t : Ty} (ht : idTyOk t = true) {v : Val} {bs : List UInt8} (h : wire f t v = some bs) :
    wireId f t v = some bs := by
  cases t with
  | scalar k n => cases v <;> simp only [wire, wireNum] at h <;> first | cases h | skip; simpa only [wireId, wireNum] using h
  | bool => cases v <;> simp only [wire, wireNum] at h <;> first | cases h | skip; simpa only [wireId, wireNum] using h
  | varint n zz => cases v <;> simp only [wire, wireNum] at h <;> first | cases h | skip; simpa only [wireId, wireNum] using h
  | array n t =>
    cases v <;> simp only [wire, wireNum] at h <;> first | cases h | skip
    simp only [idTyOk, Bool.and_eq_true] at ht
    simp only [wireId]
    rw [wireNums_eq_wireAll _ _ ht.2]
    exact h
  | _ => simp [idTyOk, numTy] at ht

theorem findId_getElem {id : Val} : ∀ {ids : List Val} {k i : Nat}, findId id ids k = some i → k ≤ i ∧ ids[i - k]? = some id := by
  intro ids
  induction ids with
  | nil => intro k i h; cases h
  | cons x xs ih =>
    intro k i h
    unfold findId at h
    split at h
    · rename_i hx
      cases h
      subst hx
      simp
    · obtain ⟨h1, h2⟩ := ih h
      refine ⟨by omega, ?_⟩
      rw [show i - k = (i - (k + 1)) + 1 by omega]
      simpa using h2

theorem rigidL_mem {dsz : SizeTy} {ts : List Ty} (h : rigidL dsz ts = true) : ∀ t ∈ ts, rigid dsz t = true := by
  induction ts with
  | nil => intro t ht; cases ht
  | cons a as ih =>
    simp only [rigidL, Bool.and_eq_true] at h
    intro t ht
    rcases List.mem_cons.mp ht with rfl | ht
    · exact h.1
    · exact ih h.2 t ht

end Zpp
