import Verif.Spec.Reread
import Verif.Proof.InRound
import Verif.Proof.InBytes
import Verif.Proof.InLeast
import Verif.Proof.Assoc
import Verif.Proof.Numbers
import Verif.Proof.OutWire
/-! # What a successful read of arbitrary bytes yields -/

namespace Zpp
open Spec

/-- The bytes from `p` to `q`. -/
def slice (data : List UInt8) (p q : Nat) : List UInt8 := (data.drop p).take (q - p)

theorem slice_length {data : List UInt8} {p q : Nat} (hq : q ≤ data.length) : (slice data p q).length = q - p := by
  simp [slice]; omega

theorem slice_append {data : List UInt8} {p q r : Nat} (h1 : p ≤ q) (h2 : q ≤ r) :
    slice data p q ++ slice data q r = slice data p r := by
  unfold slice
  have e : (data.drop p).take (r - p) = (data.drop p).take ((q - p) + (r - q)) := by congr 1; omega
  have e2 : data.drop q = (data.drop p).drop (q - p) := by rw [List.drop_drop]; congr 1; omega
  rw [e, List.take_add, e2]

theorem slice_self (data : List UInt8) (p : Nat) : slice data p p = [] := by simp [slice]

theorem getBytes_slice {data bs : List UInt8} {p n q : Nat} (hp : p ≤ data.length)
    (h : getBytes data p n = (.ok, bs, q)) : q = p + n ∧ q ≤ data.length ∧ bs = slice data p q ∧ bs.length = n := by
  have h2 := getBytes_takes (n := n) hp
  by_cases hf : p + n ≤ data.length
  · rw [h2.1 hf] at h
    cases h
    exact ⟨rfl, hf, by simp [slice], by simp; omega⟩
  · rw [h2.2 (by omega)] at h; cases h

theorem digits_ioNat (c : Cfg) (bs : List UInt8) : digits (fmtOf c).order bs.length (ioNat c bs) = bs := by
  rw [digits_host]
  unfold fmtOf ioNat
  cases c.aware
  · exact hostBytes_hostNat c.host bs
  · simp only [if_true]
    rw [hostBytes_swap, hostBytes_hostNat' _ _ _ (by simp)]
    simp

theorem ioNat_lt (c : Cfg) (bs : List UInt8) : ioNat c bs < 256 ^ bs.length := by
  unfold ioNat
  split
  · simpa using hostNat_lt c.host bs.reverse
  · exact hostNat_lt c.host bs

theorem getVarint_again {data : List UInt8} {p n q : Nat} (hn : IntWidth n) (zz : Bool) {old v : Val} (hp : p ≤ data.length)
    (h : getVarint n zz old data p = ⟨.ok, v, q⟩) : p ≤ q ∧ q ≤ data.length ∧
      ∃ x, v = .num x ∧ x < 2 ^ (8 * n) ∧ (varintBytes (varintLoad n zz x)).length + p ≤ q := by
  unfold getVarint at h
  rw [if_neg (by omega), readVarintRaw_eq_decode n hn, decodeVarint_spec n hn] at h
  cases hl : lebPrefix (data.drop p) with
  | none =>
    rw [hl] at h
    simp only at h
    exfalso
    revert h
    split <;> rename_i hx
    · split at hx <;> cases hx
    · intro h; cases h
    · intro h; cases h
  | some g =>
    rw [hl] at h
    simp only at h
    split at h
    case h_2 => cases h
    case h_3 => cases h
    rename_i x len hx
    split at hx
    case isFalse => cases hx
    rename_i hg
    cases hx
    cases h
    have hn0 : 0 < n := by rcases hn with h | h | h | h <;> omega
    have hlen := (lebPrefix_length hl)
    have hgt := lebPrefix_eq_take hl
    have hgl : g.length ≤ (data.drop p).length := by rw [hgt]; simp; omega
    simp only [List.length_drop] at hgl
    have hxlt : lebValue g % 2 ^ (8 * n) < 2 ^ (8 * n) := Nat.mod_lt _ (Nat.pow_pos (by decide))
    have hst : varintStore n zz (lebValue g % 2 ^ (8 * n)) < 2 ^ (8 * n) ∧
        varintLoad n zz (varintStore n zz (lebValue g % 2 ^ (8 * n))) = lebValue g % 2 ^ (8 * n) := by
      unfold varintStore varintLoad
      cases zz
      · exact ⟨hxlt, rfl⟩
      · exact ⟨zzDec_lt _ _ hxlt, zzEnc_zzDec _ _ (by omega) hxlt⟩
    refine ⟨by omega, by omega, _, rfl, hst.1, ?_⟩
    rw [hst.2]
    have hpos : 0 < g.length := by
      cases g with
      | nil => simp at hlen
      | cons => simp
    have := (varintBytes_length_le_iff (lebValue g % 2 ^ (8 * n)) g.length hpos).mpr
      (Nat.lt_of_le_of_lt (Nat.mod_le _ _) (lebValue_lt g))
    omega

theorem decHdr_again {c : Cfg} {sz : SizeTy} {data : List UInt8} {p n q : Nat} (hp : p ≤ data.length)
    (h : decHdr c sz data p = (.ok, n, q)) : p ≤ q ∧ q ≤ data.length ∧
      (∀ m, m ≤ n → ∃ pre, sizePrefix (fmtOf c) sz m = some pre ∧ pre.length + p ≤ q) ∧
      (sz ≠ .varint → sizePrefix (fmtOf c) sz n = some (slice data p q)) := by
  unfold decHdr at h
  cases sz with
  | fixed k =>
    simp only at h
    split at h
    case h_2 => cases h; simp_all
    rename_i bs q' hg
    cases h
    obtain ⟨h1, h2, h3, h4⟩ := getBytes_slice hp hg
    have hlt := ioNat_lt c bs
    rw [h4] at hlt
    refine ⟨by omega, h2, fun m hm => ?_, fun _ => ?_⟩
    · exact ⟨_, by simp only [sizePrefix]; rw [if_pos (by omega)], by simp; omega⟩
    · simp only [sizePrefix]
      rw [if_pos hlt, ← h3]
      have := digits_ioNat c bs
      rw [h4] at this
      rw [this]
  | varint =>
    simp only at h
    split at h
    case h_2 => cases h
    case h_3 => cases h; simp_all
    rename_i x q' hg
    cases h
    obtain ⟨h1, h2, x, hx, hlt, hl⟩ := getVarint_again intWidth8 false hp hg
    cases hx
    refine ⟨h1, h2, fun m hm => ?_, fun h => absurd rfl h⟩
    refine ⟨leb m, by simp only [sizePrefix]; rw [if_pos (by omega)], ?_⟩
    rw [leb_eq m (by omega)]
    simp only [varintLoad] at hl
    have hpos := varintBytes_length_pos n
    have h3 := (varintBytes_length_le_iff n _ hpos).mp (Nat.le_refl _)
    have h4 := (varintBytes_length_le_iff m _ hpos).mpr (Nat.lt_of_le_of_lt hm h3)
    simp at hl
    omega
  | none => cases h

/-- Rigid types only, also in the class definitions. -/
def RigidIn (c : Cfg) (r : Bool) : Prop := (∀ i, rigid c.dsz (c.env i) = true) ∧ r = true

/-- What is known about an object of type `t` read from `data` between `p` and `q`. -/
structure Rr (c : Cfg) (data : List UInt8) (t : Ty) (p q : Nat) (v : Val) : Prop where
  mono : p ≤ q
  inb : q ≤ data.length
  short : ∀ bs, wire (fmtOf c) t v = some bs → bs.length + p ≤ q ∧ (RigidIn c (rigid c.dsz t) → bs = slice data p q)
  again : Bools c.env t v → ∃ bs, wire (fmtOf c) t v = some bs
  load : Loadable c t v

/-- `Rr` for the elements of a container. -/
structure RrEs (c : Cfg) (data : List UInt8) (t : Ty) (p q : Nat) (vs : List Val) : Prop where
  mono : p ≤ q
  inb : q ≤ data.length
  short : ∀ bs, wireAll (fmtOf c) t vs = some bs → bs.length + p ≤ q ∧ (RigidIn c (rigid c.dsz t) → bs = slice data p q)
  again : BoolsL c.env t vs → ∃ bs, wireAll (fmtOf c) t vs = some bs
  load : LoadableL c t vs

/-- `Rr` for the members of a class. -/
structure RrFs (c : Cfg) (data : List UInt8) (ts : List Ty) (p q : Nat) (vs : List Val) : Prop where
  mono : p ≤ q
  inb : q ≤ data.length
  short : ∀ bs, wireFields (fmtOf c) ts vs = some bs → bs.length + p ≤ q ∧ (RigidIn c (rigidL c.dsz ts) → bs = slice data p q)
  again : BoolsF c.env ts vs → ∃ bs, wireFields (fmtOf c) ts vs = some bs
  load : LoadableF c ts vs

theorem RrEs.nil {c : Cfg} {data : List UInt8} {t : Ty} {p : Nat} (hp : p ≤ data.length) : RrEs c data t p p [] :=
  ⟨Nat.le_refl _, hp, fun bs h => by simp only [wireAll] at h; cases h; simp [slice_self], fun _ => ⟨[], rfl⟩, trivial⟩

theorem RrEs.cons {c : Cfg} {data : List UInt8} {t : Ty} {p q r : Nat} {v : Val} {vs : List Val} (h1 : Rr c data t p q v)
    (h2 : RrEs c data t q r vs) : RrEs c data t p r (v :: vs) := by
  have := h1.mono
  have := h2.mono
  refine ⟨by omega, h2.inb, fun bs h => ?_, fun h => ?_, ⟨h1.load, h2.load⟩⟩
  · simp only [wireAll, cat_eq_some] at h
    obtain ⟨a, b, ha, hb, rfl⟩ := h
    obtain ⟨l1, e1⟩ := h1.short a ha
    obtain ⟨l2, e2⟩ := h2.short b hb
    refine ⟨by simp; omega, fun hr => ?_⟩
    rw [e1 hr, e2 hr, slice_append h1.mono h2.mono]
  · simp only [BoolsL] at h
    obtain ⟨a, ha⟩ := h1.again h.1
    obtain ⟨b, hb⟩ := h2.again h.2
    exact ⟨a ++ b, by simp [wireAll, ha, hb, cat]⟩

theorem RrFs.nil {c : Cfg} {data : List UInt8} {p : Nat} (hp : p ≤ data.length) : RrFs c data [] p p [] :=
  ⟨Nat.le_refl _, hp, fun bs h => by simp only [wireFields] at h; cases h; simp [slice_self], fun _ => ⟨[], rfl⟩, trivial⟩

theorem RrFs.cons {c : Cfg} {data : List UInt8} {t : Ty} {ts : List Ty} {p q r : Nat} {v : Val} {vs : List Val}
    (h1 : Rr c data t p q v) (h2 : RrFs c data ts q r vs) : RrFs c data (t :: ts) p r (v :: vs) := by
  have := h1.mono
  have := h2.mono
  refine ⟨by omega, h2.inb, fun bs h => ?_, fun h => ?_, ⟨h1.load, h2.load⟩⟩
  · simp only [wireFields, cat_eq_some] at h
    obtain ⟨a, b, ha, hb, rfl⟩ := h
    obtain ⟨l1, e1⟩ := h1.short a ha
    obtain ⟨l2, e2⟩ := h2.short b hb
    refine ⟨by simp; omega, fun hr => ?_⟩
    simp only [RigidIn, rigidL, Bool.and_eq_true] at hr
    rw [e1 ⟨hr.1, hr.2.1⟩, e2 ⟨hr.1, hr.2.2⟩, slice_append h1.mono h2.mono]
  · simp only [BoolsF] at h
    obtain ⟨a, ha⟩ := h1.again h.1
    obtain ⟨b, hb⟩ := h2.again h.2
    exact ⟨a ++ b, by simp [wireFields, ha, hb, cat]⟩

theorem decAll_again {c : Cfg} {data : List UInt8} {t : Ty} {rec : Val → Nat → Res}
    (h : ∀ o p v q, p ≤ data.length → rec o p = ⟨.ok, v, q⟩ → Rr c data t p q v) : ∀ os p vs q, p ≤ data.length →
    decAll rec os p = ⟨.ok, vs, q⟩ → RrEs c data t p q vs ∧ vs.length = os.length := by
  intro os
  induction os with
  | nil => intro p vs q hp he; cases he; exact ⟨.nil hp, rfl⟩
  | cons o os ih =>
    intro p vs q hp he
    unfold decAll at he
    have h1 := h o p
    generalize rec o p = r at h1 he
    obtain ⟨s, v, q1⟩ := r
    cases s <;> first | (cases he; done) | skip
    have h1 := h1 v q1 hp rfl
    have h2 := ih q1
    simp only at he
    generalize decAll rec os q1 = r at h2 he
    obtain ⟨s, vs', q2⟩ := r
    cases he
    obtain ⟨h3, h4⟩ := h2 vs' _ h1.inb rfl
    exact ⟨.cons h1 h3, by simp [h4]⟩

theorem decFields_again {c : Cfg} {data : List UInt8} {rec : Ty → Val → Nat → Res} : ∀ ts os p vs q,
    (∀ t ∈ ts, ∀ o p v q, p ≤ data.length → rec t o p = ⟨.ok, v, q⟩ → Rr c data t p q v) → p ≤ data.length →
    decFields rec ts os p = ⟨.ok, vs, q⟩ → RrFs c data ts p q vs := by
  intro ts
  induction ts with
  | nil => intro os p vs q _ hp he; cases he; exact .nil hp
  | cons t ts ih =>
    intro os p vs q h hp he
    unfold decFields at he
    have h1 := h t (by simp) (os.headD .unit) p
    generalize rec t (os.headD .unit) p = r at h1 he
    obtain ⟨s, v, q1⟩ := r
    cases s <;> first | (cases he; done) | skip
    have h1 := h1 v q1 hp rfl
    have h2 := ih os.tail q1
    simp only at he
    generalize decFields rec ts os.tail q1 = r at h2 he
    obtain ⟨s, vs', q2⟩ := r
    cases he
    exact .cons h1 (h2 vs' _ (fun t' ht => h t' (by simp [ht])) h1.inb rfl)

theorem leNat_singleton (b : UInt8) : leNat [b] = b.toNat := by simp [leNat]

mutual
/-- An object found by copying a block of bytes is written as these bytes. -/
theorem unrep_wire {c : Cfg} (ha : AbiOk c.sizeof) (f : Fmt) (e : Endian) (env : Nat → Ty) : ∀ (t : Ty) (bs : List UInt8), plain t = true →
    Good c t = true → t.byteSer c.sizeof = true → (f.order = e ∨ t.endianIndep = true) → bs.length = c.sizeof t →
    (∀ b, wire f t (unrep e c.sizeof t bs) = some b → b = bs) ∧
    (Bools env t (unrep e c.sizeof t bs) → wire f t (unrep e c.sizeof t bs) = some bs)
  | .scalar k n, bs, _, hg, _, ho, hl => by
    have hs : scalarOk k n = true := by simpa [Good, nodeOk] using hg
    have hn : 0 < n := by cases k <;> simp [scalarOk] at hs <;> omega
    rw [ha.scalar k n hn] at hl
    have hlt := hostNat_lt e bs
    rw [hl] at hlt
    have hd : digits f.order n (hostNat e bs) = bs := by
      rw [digits_host]
      rcases ho with ho | ho
      · rw [ho]; exact hostBytes_hostNat' e n bs hl
      · have h1 : n = 1 := by
          cases k <;> simp [Ty.endianIndep, scalarOk] at ho hs <;> exact hs
        subst h1
        have := hostBytes_hostNat' e 1 bs hl
        rw [← this]
        rw [hostNat_hostBytes _ _ _ hlt]
        cases f.order <;> cases e <;> rfl
    simp only [unrep, wire, wireNum]
    rw [if_pos hlt, hd]
    exact ⟨fun b h => by cases h; rfl, fun _ => rfl⟩
  | .bool, bs, _, _, _, _, hl => by
    rw [ha.bool] at hl
    obtain ⟨b, rfl⟩ := List.length_eq_one_iff.mp hl
    simp only [unrep, wire, wireNum, leNat_singleton, Bools]
    refine ⟨fun x h => ?_, fun h => ?_⟩
    · split at h
      · cases h; simp
      · cases h
    · rw [if_pos h]; simp
  | .struct ok fs, bs, hp, hg, hb, ho, hl => by
    have ho : f.order = e := by simpa [Ty.endianIndep] using ho
    have hb' := oneBlock_of_byteSer c.sizeof _ hb
    simp only [oneBlock, Bool.and_eq_true, beq_iff_eq] at hb'
    simp only [Good, Bool.and_eq_true] at hg
    have hbs : Ty.byteSerAll c.sizeof fs = true := by
      simp only [Ty.byteSer, Bool.and_eq_true] at hb
      grind
    have := unrepFields_wire ha f e env fs bs hp hg.2 hbs ho (by rw [hl, ← hb'.2])
    simpa only [unrep, wire, Bools] using this
  | .array n t, bs, hp, hg, hb, ho, hl => by
    simp only [Good, nodeOk, Bool.and_eq_true, decide_eq_true_eq] at hg
    rw [ha.array n t hg.1.1] at hl
    have hcl : ∀ (g : List UInt8 → Val) sz n bs, (chunks g sz n bs).length = n := by
      intro g sz n
      induction n with
      | zero => intro bs; rfl
      | succ n ih => intro bs; simp [chunks, ih]
    have key := fun bs => unrep_wire ha f e env t bs (by simpa [plain] using hp) hg.2 (by simpa [Ty.byteSer] using hb)
      (ho.imp id (by simp [Ty.endianIndep]))
    simp only [unrep, wire, Bools]
    rw [if_pos (hcl _ _ _ _)]
    clear hcl hg hb hp ho
    induction n generalizing bs with
    | zero =>
      have : bs = [] := List.length_eq_zero_iff.mp (by simpa using hl)
      subst this
      simp [chunks, wireAll]
    | succ n ih =>
      rw [Nat.succ_mul] at hl
      obtain ⟨k1, k2⟩ := key (bs.take (c.sizeof t)) (by simp; omega)
      obtain ⟨i1, i2⟩ := ih (bs.drop (c.sizeof t)) (by simp; omega)
      simp only [chunks, wireAll, BoolsL]
      refine ⟨fun b h => ?_, fun h => ?_⟩
      · rw [cat_eq_some] at h
        obtain ⟨x, y, hx, hy, rfl⟩ := h
        rw [k1 x hx, i1 y hy, List.take_append_drop]
      · rw [k2 h.1, i2 h.2]
        simp [cat]
  | .varint _ _, _, h, _, _, _, _ | .empty, _, h, _, _, _, _ | .seq _ _ _, _, h, _, _, _, _ | .assoc _ _ _ _ _, _, h, _, _, _, _
  | .optional _ _, _, h, _, _, _, _ | .optPtr _, _, h, _, _, _, _ | .uptr _, _, h, _, _, _, _
  | .variant _ _ _ _, _, h, _, _, _, _ | .bitset _, _, h, _, _, _, _ | .msg _ _ _ _ _, _, h, _, _, _, _
  | .ref _, _, h, _, _, _, _ => by simp [plain] at h
theorem unrepFields_wire {c : Cfg} (ha : AbiOk c.sizeof) (f : Fmt) (e : Endian) (env : Nat → Ty) : ∀ (ts : List Ty) (bs : List UInt8),
    plain.plainAll ts = true → GoodL c ts = true → Ty.byteSerAll c.sizeof ts = true → f.order = e →
    bs.length = (ts.map c.sizeof).sum →
    (∀ b, wireFields f ts (unrepFields e c.sizeof ts bs) = some b → b = bs) ∧
    (BoolsF env ts (unrepFields e c.sizeof ts bs) → wireFields f ts (unrepFields e c.sizeof ts bs) = some bs)
  | [], bs, _, _, _, _, hl => by
    have : bs = [] := List.length_eq_zero_iff.mp (by simpa using hl)
    subst this
    simp [unrepFields, wireFields]
  | t :: ts, bs, hp, hg, hb, ho, hl => by
    simp only [plain.plainAll, Bool.and_eq_true] at hp
    simp only [GoodL, Bool.and_eq_true] at hg
    simp only [Ty.byteSerAll, Bool.and_eq_true] at hb
    simp only [List.map_cons, List.sum_cons] at hl
    obtain ⟨k1, k2⟩ := unrep_wire ha f e env t (bs.take (c.sizeof t)) hp.1 hg.1 hb.1 (Or.inl ho) (by simp; omega)
    obtain ⟨i1, i2⟩ := unrepFields_wire ha f e env ts (bs.drop (c.sizeof t)) hp.2 hg.2 hb.2 ho (by simp; omega)
    simp only [unrepFields, wireFields, BoolsF]
    refine ⟨fun b h => ?_, fun h => ?_⟩
    · rw [cat_eq_some] at h
      obtain ⟨x, y, hx, hy, rfl⟩ := h
      rw [k1 x hx, i1 y hy, List.take_append_drop]
    · rw [k2 h.1, i2 h.2]
      simp [cat]
end

end Zpp
