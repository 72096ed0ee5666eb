import Verif.Spec.Supported
import Verif.Proof.Varint
import Verif.Model.Out
/-! # The specification of the wire format and the model's byte functions agree -/

namespace Zpp
open Spec

theorem cat_eq_some {a b : Option (List UInt8)} {r : List UInt8} :
    cat a b = some r ↔ ∃ x y, a = some x ∧ b = some y ∧ r = x ++ y := by
  cases a <;> cases b <;> simp [cat, eq_comm]

theorem digits_little (n x : Nat) : digits .little n x = leBytes n x := by
  simp only [digits]
  induction n generalizing x with
  | zero => rfl
  | succ n ih =>
    rw [List.range_succ_eq_map]
    simp only [List.map_cons, List.map_map, leBytes, Nat.pow_zero, Nat.div_one]
    congr 1
    rw [← ih (x / 256)]
    apply List.map_congr_left
    intro i _
    simp only [Function.comp]
    congr 1
    rw [Nat.pow_succ, Nat.mul_comm, ← Nat.div_div_eq_div_mul]

theorem digits_big (n x : Nat) : digits .big n x = (leBytes n x).reverse := by
  rw [← digits_little]; rfl

theorem digits_host (e : Endian) (n x : Nat) : digits e n x = hostBytes e n x := by
  cases e
  · exact digits_little n x
  · exact digits_big n x

@[simp] theorem digits_length (e : Endian) (n x : Nat) : (digits e n x).length = n := by
  rw [digits_host]; simp

theorem hostBytes_swap (e : Endian) (n x : Nat) : hostBytes e.swap n x = (hostBytes e n x).reverse := by
  cases e <;> simp [hostBytes, Endian.swap]

theorem ioBytes_eq (c : Cfg) (n x : Nat) : ioBytes c n x = digits (fmtOf c).order n x := by
  rw [digits_host]
  unfold ioBytes fmtOf
  cases c.aware <;> simp [hostBytes_swap]

theorem digits_one (e : Endian) (x : Nat) (h : x < 256) : digits e 1 x = [UInt8.ofNat x] := by
  rw [digits_host]
  cases e <;> simp [hostBytes, leBytes, Nat.mod_eq_of_lt h]

theorem lebGroups_eq (k v : Nat) (h : v < 128 ^ (k + 1)) : lebGroups (k + 1) v = varintBytes v := by
  induction k generalizing v with
  | zero =>
    have : v < 128 := by simpa using h
    rw [lebGroups, if_pos this, varintBytes_small this]
  | succ k ih =>
    rw [lebGroups]
    split
    · rename_i h1; rw [varintBytes_small h1]
    · rename_i h1
      rw [varintBytes_big (by omega), ih (v / 128)]
      · congr 1
        apply UInt8.toNat_inj.mp
        rw [varint_cont_byte, ofNat_toNat8 _ (by omega), Nat.add_comm]
      · rw [Nat.pow_succ] at h
        exact Nat.div_lt_of_lt_mul (by omega)

theorem leb_eq (v : Nat) (h : v < 2 ^ 64) : leb v = varintBytes v :=
  lebGroups_eq 9 v (by omega)

theorem varintValue_eq (n : Nat) (zz : Bool) (x : Nat) (hn : 0 < n) (hx : x < 2 ^ (8 * n)) :
    varintValue n zz x = varintLoad n zz x := by
  unfold varintValue varintLoad
  cases zz
  · rfl
  · simp only [if_true]; rw [zzEnc_eq (8 * n) x (by omega) hx]

theorem leb_varintValue (n : Nat) (zz : Bool) (x : Nat) (hn : IntWidth n) (hx : x < 2 ^ (8 * n)) :
    leb (varintValue n zz x) = varintBytes (varintLoad n zz x) := by
  have hn0 : 0 < n := by rcases hn with h | h | h | h <;> omega
  have hlt := varintLoad_lt n zz x hn0 hx
  rw [varintValue_eq n zz x hn0 hx, leb_eq]
  rcases hn with h | h | h | h <;> subst h <;> omega

theorem intWidth_iff {n : Nat} : intWidth n = true ↔ IntWidth n := by
  simp [intWidth, IntWidth, or_assoc]

theorem leb_length_pos (v : Nat) : 0 < (leb v).length := by
  unfold leb lebGroups
  split <;> simp

theorem leb_length_le (v : Nat) (h : v < 2 ^ 64) : (leb v).length ≤ 10 := by
  rw [leb_eq v h]
  exact varintBytes_length_le_max 8 v (by omega)

/-! ## Configurations -/

theorem pbCfg_idem (c : Cfg) : pbCfg (pbCfg c) = pbCfg c := rfl

theorem fmtOf_pbCfg (c : Cfg) : fmtOf (pbCfg c) = pbFmt c.env := by
  unfold fmtOf pbCfg pbFmt
  cases c.host <;> simp [Endian.swap]

theorem EnvGood.pb {c : Cfg} (h : EnvGood c) : EnvGood (pbCfg c) := by
  intro i
  exact ⟨(h i).2, (h i).2⟩

/-! ## Object representation -/

mutual
theorem rep_of_wire (f : Fmt) : ∀ (t : Ty) (v : Val) (bs : List UInt8), plain t = true →
    wire f t v = some bs → rep f.order t v = some bs
  | .scalar k n, v, bs, _, h => by
    cases v <;> simp [wire] at h
    simp only [wireNum] at h
    split at h
    · rename_i hx; cases h; simp [rep, hx, digits_host]
    · cases h
  | .bool, v, bs, _, h => by
    cases v <;> simp [wire] at h
    simp only [wireNum] at h
    split at h
    · rename_i x hx; cases h; simp [rep]; omega
    · cases h
  | .struct ok fs, v, bs, hp, h => by
    cases v <;> simp [wire, wireNum] at h
    simp only [rep]
    exact repFields_of_wire f fs _ bs (by simpa [plain] using hp) h
  | .array n t, v, bs, hp, h => by
    cases v <;> simp [wire, wireNum] at h
    rename_i vs
    simp only [rep, h.1, if_true]
    have hp' : plain t = true := by simpa [plain] using hp
    have h2 := h.2
    clear h hp
    induction vs generalizing bs with
    | nil => simpa [wireAll, repAll] using h2
    | cons v vs ih =>
      simp only [wireAll, cat_eq_some] at h2
      obtain ⟨x, y, hx, hy, rfl⟩ := h2
      have := rep_of_wire f t v x hp' hx
      simp [repAll, this, ih _ hy]
  | .varint _ _, _, _, hp, _ => by simp [plain] at hp
  | .empty, _, _, hp, _ => by simp [plain] at hp
  | .seq _ _ _, _, _, hp, _ => by simp [plain] at hp
  | .assoc _ _ _ _ _, _, _, hp, _ => by simp [plain] at hp
  | .optional _ _, _, _, hp, _ => by simp [plain] at hp
  | .optPtr _, _, _, hp, _ => by simp [plain] at hp
  | .uptr _, _, _, hp, _ => by simp [plain] at hp
  | .variant _ _ _ _, _, _, hp, _ => by simp [plain] at hp
  | .bitset _, _, _, hp, _ => by simp [plain] at hp
  | .msg _ _ _ _ _, _, _, hp, _ => by simp [plain] at hp
  | .ref _, _, _, hp, _ => by simp [plain] at hp
theorem repFields_of_wire (f : Fmt) : ∀ (ts : List Ty) (vs : List Val) (bs : List UInt8),
    plain.plainAll ts = true → wireFields f ts vs = some bs → repFields f.order ts vs = some bs
  | [], vs, bs, _, h => by
    cases vs <;> simp [wireFields] at h
    subst h; rfl
  | t :: ts, vs, bs, hp, h => by
    cases vs with
    | nil => simp [wireFields] at h
    | cons v vs =>
      simp only [wireFields, cat_eq_some] at h
      obtain ⟨x, y, hx, hy, rfl⟩ := h
      simp only [plain.plainAll, Bool.and_eq_true] at hp
      simp [repFields, rep_of_wire f t v x hp.1 hx, repFields_of_wire f ts vs y hp.2 hy]
end

theorem repAll_of_wire (f : Fmt) (t : Ty) (hp : plain t = true) : ∀ (vs : List Val) (bs : List UInt8),
    wireAll f t vs = some bs → repAll f.order t vs = some bs := by
  intro vs
  induction vs with
  | nil => intro bs h; simpa [wireAll, repAll] using h
  | cons v vs ih =>
    intro bs h
    simp only [wireAll, cat_eq_some] at h
    obtain ⟨x, y, hx, hy, rfl⟩ := h
    simp [repAll, rep_of_wire f t v x hp hx, ih _ hy]

/-- Byte types do not depend on the byte order. -/
theorem wire_endianIndep (f : Fmt) (e : Endian) : ∀ (t : Ty) (c : Cfg), t.endianIndep = true → Good c t = true →
    ∀ v, wire f t v = wire { f with order := e } t v
  | .scalar .byte n, c, _, hg, v => by
    simp only [Good, nodeOk, scalarOk, beq_iff_eq] at hg
    subst hg
    cases v <;> simp only [wire, wireNum]
    split
    · rename_i x hx; rw [digits_one _ _ (by simpa using hx), digits_one _ _ (by simpa using hx)]
    · rfl
  | .scalar .chr n, c, _, hg, v => by
    simp only [Good, nodeOk, scalarOk, beq_iff_eq] at hg
    subst hg
    cases v <;> simp only [wire, wireNum]
    split
    · rename_i x hx; rw [digits_one _ _ (by simpa using hx), digits_one _ _ (by simpa using hx)]
    · rfl
  | .array n t, c, hi, hg, v => by
    cases v <;> simp only [wire, wireNum]
    rename_i vs
    have hi' : t.endianIndep = true := by simpa [Ty.endianIndep] using hi
    have hg' : Good c t = true := by simp [Good] at hg; exact hg.2
    congr 1
    induction vs with
    | nil => rfl
    | cons v vs ih => simp only [wireAll]; rw [wire_endianIndep f e t c hi' hg' v, ih]
  | .scalar .int _, _, hi, _, _ => by simp [Ty.endianIndep] at hi
  | .scalar .enum _, _, hi, _, _ => by simp [Ty.endianIndep] at hi
  | .bool, _, hi, _, _ => by simp [Ty.endianIndep] at hi
  | .varint _ _, _, hi, _, _ => by simp [Ty.endianIndep] at hi
  | .empty, _, hi, _, _ => by simp [Ty.endianIndep] at hi
  | .struct _ _, _, hi, _, _ => by simp [Ty.endianIndep] at hi
  | .seq _ _ _, _, hi, _, _ => by simp [Ty.endianIndep] at hi
  | .assoc _ _ _ _ _, _, hi, _, _ => by simp [Ty.endianIndep] at hi
  | .optional _ _, _, hi, _, _ => by simp [Ty.endianIndep] at hi
  | .optPtr _, _, hi, _, _ => by simp [Ty.endianIndep] at hi
  | .uptr _, _, hi, _, _ => by simp [Ty.endianIndep] at hi
  | .variant _ _ _ _, _, hi, _, _ => by simp [Ty.endianIndep] at hi
  | .bitset _, _, hi, _, _ => by simp [Ty.endianIndep] at hi
  | .msg _ _ _ _ _, _, hi, _, _ => by simp [Ty.endianIndep] at hi
  | .ref _, _, hi, _, _ => by simp [Ty.endianIndep] at hi

/-- When the archive copies objects of a type as bytes, the copied bytes are the documented encoding. -/
@[simp] theorem insideMsg_eq (c : Cfg) : insideMsg c = pbCfg c := rfl

mutual
theorem oneBlock_of_byteSer (so : Ty → Nat) : ∀ t : Ty, t.byteSer so = true → oneBlock so t = true
  | .scalar _ _, _ => rfl
  | .bool, _ => rfl
  | .empty, _ => rfl
  | .array _ t, h => oneBlock_of_byteSer so t h
  | .struct ok fs, h => by
    simp only [Ty.byteSer, Bool.and_eq_true, Bool.not_eq_true'] at h
    obtain ⟨⟨⟨⟨h1, h2⟩, h3⟩, h4⟩, h5⟩ := h
    simp only [oneBlock, h1, h4, blocks_of_byteSerAll so fs h3 h5, Bool.true_and, Bool.and_true]
    cases fs <;> simp_all
  | .msg _ ok _ _ fs, h => by
    simp only [Ty.byteSer, Bool.and_eq_true, Bool.not_eq_true'] at h
    obtain ⟨⟨⟨⟨h1, h2⟩, h3⟩, h4⟩, h5⟩ := h
    simp only [oneBlock, h1, h4, blocks_of_byteSerAll so fs h3 h5, Bool.true_and, Bool.and_true]
    cases fs <;> simp_all
  | .varint _ _, h => by simp [Ty.byteSer] at h
  | .seq _ _ _, h => by simp [Ty.byteSer] at h
  | .assoc _ _ _ _ _, h => by simp [Ty.byteSer] at h
  | .optional _ _, h => by simp [Ty.byteSer] at h
  | .optPtr _, h => by simp [Ty.byteSer] at h
  | .uptr _, h => by simp [Ty.byteSer] at h
  | .variant _ _ _ _, h => by simp [Ty.byteSer] at h
  | .bitset _, h => by simp [Ty.byteSer] at h
  | .ref _, h => by simp [Ty.byteSer] at h
theorem blocks_of_byteSerAll (so : Ty → Nat) : ∀ fs : List Ty, Ty.byteSerAll so fs = true → fs.any Ty.isEmpty = false →
    blocks so fs = true
  | [], _, _ => rfl
  | t :: ts, h, he => by
    simp only [Ty.byteSerAll, Bool.and_eq_true] at h
    simp only [List.any_cons, Bool.or_eq_false_iff] at he
    simp only [blocks, oneBlock_of_byteSer so t h.1, blocks_of_byteSerAll so ts h.2 he.2]
    cases t <;> simp_all [Ty.isEmpty]
end

theorem plain_of_endianIndep : ∀ t : Ty, t.endianIndep = true → plain t = true
  | .scalar _ _, _ => rfl
  | .bool, h => rfl
  | .array _ t, h => plain_of_endianIndep t h
  | .struct _ _, h => by simp [Ty.endianIndep] at h
  | .empty, h => by simp [Ty.endianIndep] at h
  | .msg _ _ _ _ _, h => by simp [Ty.endianIndep] at h
  | .varint _ _, h => by simp [Ty.endianIndep] at h
  | .seq _ _ _, h => by simp [Ty.endianIndep] at h
  | .assoc _ _ _ _ _, h => by simp [Ty.endianIndep] at h
  | .optional _ _, h => by simp [Ty.endianIndep] at h
  | .optPtr _, h => by simp [Ty.endianIndep] at h
  | .uptr _, h => by simp [Ty.endianIndep] at h
  | .variant _ _ _ _, h => by simp [Ty.endianIndep] at h
  | .bitset _, h => by simp [Ty.endianIndep] at h
  | .ref _, h => by simp [Ty.endianIndep] at h

theorem plain_of_copyOk {c : Cfg} {t : Ty} (ha : asBytes c t = true) (hp : copyOk c t = true) : plain t = true := by
  simp only [asBytes, Bool.or_eq_true, Bool.and_eq_true, Bool.not_eq_true'] at ha
  rcases ha with ha | ⟨h1, h2⟩
  · exact plain_of_endianIndep t ha
  · simpa [copyOk, h1, oneBlock_of_byteSer c.sizeof t h2] using hp

theorem byteTy_facts {t : Ty} (h : byteTy t = true) : t.endianIndep = true ∧ numTy t = true := by
  cases t with
  | scalar k n => cases k <;> simp_all [byteTy, Ty.endianIndep, numTy, scalarOk]
  | _ => simp [byteTy] at h

theorem rep_of_asBytes {c : Cfg} {t : Ty} (ha : asBytes c t = true) (hp : copyOk c t = true)
    (hg : Good c t = true) {v : Val} {bs : List UInt8} (h : wire (fmtOf c) t v = some bs) :
    rep c.host t v = some bs := by
  have hpl : plain t = true := plain_of_copyOk ha hp
  by_cases hi : t.endianIndep = true
  · rw [wire_endianIndep (fmtOf c) c.host t c hi hg v] at h
    exact rep_of_wire _ t v bs hpl h
  · have : c.aware = false := by
      simp only [asBytes, Bool.or_eq_true, Bool.and_eq_true] at ha
      rcases ha with ha | ha
      · exact absurd ha hi
      · simpa using ha.1
    have ho : (fmtOf c).order = c.host := by simp [fmtOf, this]
    rw [← ho]
    exact rep_of_wire _ t v bs hpl h

theorem repAll_of_asBytes {c : Cfg} {t : Ty} (ha : asBytes c t = true) (hp : copyOk c t = true)
    (hg : Good c t = true) : ∀ (vs : List Val) (bs : List UInt8),
    wireAll (fmtOf c) t vs = some bs → repAll c.host t vs = some bs := by
  intro vs
  induction vs with
  | nil => intro bs h; simpa [wireAll, repAll] using h
  | cons v vs ih =>
    intro bs h
    simp only [wireAll, cat_eq_some] at h
    obtain ⟨x, y, hx, hy, rfl⟩ := h
    simp [repAll, rep_of_asBytes ha hp hg hx, ih _ hy]

end Zpp
