import Verif.Proof.InOld
import Verif.Proof.OutWire
/-! # Reading the documented encoding gives the object back: building blocks -/

namespace Zpp
open Spec

/-- At every position where the bytes `bs` stand, the reader returns `v` and stops behind them. -/
def Rd (data : List UInt8) (r : Nat → Res) (bs : List UInt8) (v : Val) : Prop :=
  ∀ p rest, p ≤ data.length → data.drop p = bs ++ rest → r p = ⟨.ok, v, p + bs.length⟩

/-- `Rd` for lists of objects. -/
def RdL (data : List UInt8) (r : Nat → ResL) (bs : List UInt8) (vs : List Val) : Prop :=
  ∀ p rest, p ≤ data.length → data.drop p = bs ++ rest → r p = ⟨.ok, vs, p + bs.length⟩

theorem drop_split {data a b : List UInt8} {p : Nat} (hp : p ≤ data.length) (h : data.drop p = a ++ b) :
    p + a.length ≤ data.length ∧ data.drop (p + a.length) = b := by
  have h1 := congrArg List.length h
  simp only [List.length_drop, List.length_append] at h1
  refine ⟨by omega, ?_⟩
  rw [← List.drop_drop, h]
  simp

theorem RdL.toRes {data : List UInt8} {r : Nat → ResL} {bs : List UInt8} {vs : List Val} (h : RdL data r bs vs) :
    Rd data (fun p => (r p).toRes) bs (.list vs) := by
  intro p rest hp hd
  simp only [h p rest hp hd, ResL.toRes]

theorem getBytes_rd {data bs rest : List UInt8} {p : Nat} (hp : p ≤ data.length) (h : data.drop p = bs ++ rest) :
    getBytes data p bs.length = (.ok, bs, p + bs.length) := by
  have h1 := drop_split hp h
  unfold getBytes
  rw [subSz_of_le hp, if_neg (by omega), if_pos h1.1, h]
  simp

theorem getVarint_rd {data rest : List UInt8} {p n : Nat} (hn : IntWidth n) (zz : Bool) {x : Nat} (hx : x < 2 ^ (8 * n)) (old : Val)
    (hp : p ≤ data.length) (h : data.drop p = leb (varintValue n zz x) ++ rest) :
    getVarint n zz old data p = ⟨.ok, .num x, p + (leb (varintValue n zz x)).length⟩ := by
  have h0 : 0 < n := by rcases hn with h | h | h | h <;> omega
  unfold getVarint
  rw [if_neg (by omega), h, leb_varintValue n zz x hn hx, readVarintRaw_varintBytes n _ hn (varintLoad_lt n zz x h0 hx)]
  simp only [varintStore_load n zz x h0 hx]

theorem ioNat_ioBytes (c : Cfg) (n x : Nat) (h : x < 256 ^ n) : ioNat c (ioBytes c n x) = x := by
  have : ∀ e, hostNat e (hostBytes e n x) = x := by
    intro e; cases e <;> simp [hostNat, hostBytes, leNat_leBytes n x h]
  unfold ioNat ioBytes
  split <;> simp [this]

theorem decHdr_rd {c : Cfg} {sz : SizeTy} {data pre rest : List UInt8} {p n : Nat} (hsz : sz ≠ .none)
    (hpre : sizePrefix (fmtOf c) sz n = some pre) (hp : p ≤ data.length) (h : data.drop p = pre ++ rest) :
    decHdr c sz data p = (.ok, n, p + pre.length) := by
  cases sz with
  | fixed k =>
    simp only [sizePrefix] at hpre
    split at hpre
    · next hn =>
      cases hpre
      have h1 := getBytes_rd hp h
      rw [digits_length] at h1
      simp only [decHdr, h1, digits_length]
      rw [← ioBytes_eq, ioNat_ioBytes c k n hn]
    · cases hpre
  | varint =>
    simp only [sizePrefix] at hpre
    split at hpre
    · next hn =>
      cases hpre
      have h1 := getVarint_rd (n := 8) intWidth8 false (x := n) (by simpa using hn) (.num 0) hp (by simpa [varintValue] using h)
      simp only [decHdr, h1, varintValue, Bool.false_eq_true, if_false]
    · cases hpre
  | none => exact absurd rfl hsz

theorem msgPrefix_size {f : Fmt} {sz : SizeTy} {n : Nat} {pre : List UInt8} (h : msgPrefix f sz n = some pre) :
    sizePrefix f sz n = some pre := by
  cases sz with
  | varint =>
    simp only [msgPrefix] at h
    split at h
    · next hn => cases h; simp only [sizePrefix]; rw [if_pos (by omega)]
    · cases h
  | _ => exact h

/-! ## Lists of objects -/

theorem decAll_rd {data : List UInt8} {rec : Val → Nat → Res} {w : Val → Option (List UInt8)}
    {W : List Val → Option (List UInt8)} (hnil : W [] = some []) (hcons : ∀ v vs, W (v :: vs) = cat (w v) (W vs)) :
    ∀ (vs olds : List Val) (bs : List UInt8), W vs = some bs → olds.length = vs.length →
      (∀ v ∈ vs, ∀ b, w v = some b → ∀ old, Rd data (rec old) b v) →
      RdL data (decAll rec olds) bs vs := by
  intro vs
  induction vs with
  | nil =>
    intro olds bs h hl _
    rw [hnil] at h; cases h
    have : olds = [] := List.eq_nil_of_length_eq_zero hl
    subst this
    intro p rest _ _
    rfl
  | cons v vs ih =>
    intro olds bs h hl hr
    rw [hcons, cat_eq_some] at h
    obtain ⟨x, y, hx, hy, rfl⟩ := h
    cases olds with
    | nil => simp at hl
    | cons o os =>
      intro p rest hp hd
      rw [List.append_assoc] at hd
      have h1 := hr v (by simp) x hx o p _ hp hd
      have hs := drop_split hp hd
      have h2 := ih os y hy (by simpa using hl) (fun v' h' => hr v' (by simp [h'])) _ rest hs.1 hs.2
      simp only [decAll, h1, h2, List.length_append, Nat.add_assoc]

theorem decFields_rd {c : Cfg} {data : List UInt8} {f : Fmt} {rec : Ty → Val → Nat → Res} :
    ∀ (ts : List Ty) (vs olds : List Val) (bs : List UInt8), wireFields f ts vs = some bs → LoadableF c ts vs →
      (∀ t ∈ ts, ∀ v ∈ vs, ∀ b, wire f t v = some b → Loadable c t v → ∀ old, Rd data (rec t old) b v) →
      RdL data (decFields rec ts olds) bs vs := by
  intro ts
  induction ts with
  | nil =>
    intro vs olds bs h _ _
    cases vs with
    | nil => simp only [wireFields, Option.some.injEq] at h; subst h; intro p rest _ _; rfl
    | cons v vs => simp [wireFields] at h
  | cons t ts ih =>
    intro vs olds bs h hld hr
    cases vs with
    | nil => simp [wireFields] at h
    | cons v vs =>
      simp only [wireFields, cat_eq_some] at h
      obtain ⟨x, y, hx, hy, rfl⟩ := h
      simp only [LoadableF] at hld
      intro p rest hp hd
      rw [List.append_assoc] at hd
      have h1 := hr t (by simp) v (by simp) x hx hld.1 (olds.headD .unit) p _ hp hd
      have hs := drop_split hp hd
      have h2 := ih vs olds.tail y hy hld.2 (fun t' ht v' hv => hr t' (by simp [ht]) v' (by simp [hv])) _ rest hs.1 hs.2
      simp only [decFields, h1, h2, List.length_append, Nat.add_assoc]

/-! ## Object representations -/

theorem chunks_rep {e : Endian} {so : Ty → Nat} {t : Ty} {u : List UInt8 → Val} {sz : Nat} :
    ∀ (vs : List Val) (bs : List UInt8), repAll e t vs = some bs →
    (∀ v ∈ vs, ∀ b, rep e t v = some b → b.length = sz ∧ u b = v) →
    bs.length = vs.length * sz ∧ chunks u sz vs.length bs = vs := by
  intro vs
  induction vs with
  | nil => intro bs h _; simp only [repAll, Option.some.injEq] at h; subst h; simp [chunks]
  | cons v vs ih =>
    intro bs h hr
    simp only [repAll] at h
    split at h
    · next a b ha hb =>
      cases h
      obtain ⟨h1, h2⟩ := hr v (by simp) a ha
      obtain ⟨h3, h4⟩ := ih b hb (fun v' hv => hr v' (by simp [hv]))
      refine ⟨by simp [h1, h3, Nat.add_mul, Nat.add_comm], ?_⟩
      simp only [List.length_cons, chunks]
      have e1 : (a ++ b).take sz = a := by rw [← h1]; simp
      have e2 : (a ++ b).drop sz = b := by rw [← h1]; simp
      rw [e1, e2, h2, h4]
    · cases h

mutual
theorem unrep_rep (e : Endian) {c : Cfg} (ha : AbiOk c.sizeof) : ∀ (t : Ty) (v : Val) (bs : List UInt8),
    t.byteSer c.sizeof = true → plain t = true → Good c t = true → rep e t v = some bs →
    bs.length = c.sizeof t ∧ unrep e c.sizeof t bs = v
  | .scalar k n, v, bs, _, _, hg, h => by
    cases v <;> simp only [rep] at h <;> try cases h
    split at h
    · next x hx =>
      cases h
      have hn : 0 < n := by
        simp only [Good, nodeOk] at hg
        cases k <;> simp [scalarOk] at hg <;> omega
      rw [ha.scalar k n hn]
      exact ⟨hostBytes_length _ _ _, by simp only [unrep]; rw [hostNat_hostBytes _ _ _ hx]⟩
    · cases h
  | .bool, v, bs, _, _, _, h => by
    cases v <;> simp only [rep] at h <;> try cases h
    split at h
    · next x hx =>
      cases h
      refine ⟨by rw [ha.bool]; rfl, ?_⟩
      simp only [unrep, leNat]
      rw [ofNat_toNat8 x hx]
      simp
    · cases h
  | .struct ok fs, v, bs, hb, hp, hg, h => by
    cases v <;> simp only [rep] at h <;> try cases h
    simp only [Ty.byteSer, Bool.and_eq_true, beq_iff_eq] at hb
    simp only [plain] at hp
    simp only [Good, Bool.and_eq_true] at hg
    have := unrepFields_rep e ha fs _ bs hb.1.1.2 hp hg.2 h
    exact ⟨by rw [← hb.1.2, this.1], by simp only [unrep]; rw [this.2]⟩
  | .array n t, v, bs, hb, hp, hg, h => by
    cases v <;> simp only [rep] at h <;> try cases h
    split at h
    · next vs hl =>
      simp only [Ty.byteSer] at hb
      simp only [plain] at hp
      simp only [Good, nodeOk, Bool.and_eq_true, decide_eq_true_eq] at hg
      have := chunks_rep (e := e) (so := c.sizeof) (t := t) (u := unrep e c.sizeof t) (sz := c.sizeof t) vs bs h
        (fun v _ b hb' => unrep_rep e ha t v b hb hp hg.2 hb')
      rw [ha.array n t hg.1.1, ← hl]
      exact ⟨this.1, by simp only [unrep]; rw [this.2]⟩
    · cases h
  | .varint _ _, _, _, _, hp, _, _ => by simp [plain] at hp
  | .empty, _, _, _, hp, _, _ => by simp [plain] at hp
  | .seq _ _ _, _, _, _, hp, _, _ => by simp [plain] at hp
  | .assoc _ _ _ _ _, _, _, _, hp, _, _ => by simp [plain] at hp
  | .optional _ _, _, _, _, hp, _, _ => by simp [plain] at hp
  | .optPtr _, _, _, _, hp, _, _ => by simp [plain] at hp
  | .uptr _, _, _, _, hp, _, _ => by simp [plain] at hp
  | .variant _ _ _ _, _, _, _, hp, _, _ => by simp [plain] at hp
  | .bitset _, _, _, _, hp, _, _ => by simp [plain] at hp
  | .msg _ _ _ _ _, _, _, _, hp, _, _ => by simp [plain] at hp
  | .ref _, _, _, _, hp, _, _ => by simp [plain] at hp
theorem unrepFields_rep (e : Endian) {c : Cfg} (ha : AbiOk c.sizeof) : ∀ (ts : List Ty) (vs : List Val) (bs : List UInt8),
    Ty.byteSerAll c.sizeof ts = true → plain.plainAll ts = true → GoodL c ts = true → repFields e ts vs = some bs →
    bs.length = (ts.map c.sizeof).sum ∧ unrepFields e c.sizeof ts bs = vs
  | [], vs, bs, _, _, _, h => by
    cases vs <;> simp [repFields] at h
    subst h; simp [unrepFields]
  | t :: ts, vs, bs, hb, hp, hg, h => by
    cases vs with
    | nil => simp [repFields] at h
    | cons v vs =>
      simp only [repFields] at h
      split at h
      · next a b h1 h2 =>
        cases h
        simp only [Ty.byteSerAll, Bool.and_eq_true] at hb
        simp only [plain.plainAll, Bool.and_eq_true] at hp
        simp only [GoodL, Bool.and_eq_true] at hg
        obtain ⟨l1, u1⟩ := unrep_rep e ha t v a hb.1 hp.1 hg.1 h1
        obtain ⟨l2, u2⟩ := unrepFields_rep e ha ts vs b hb.2 hp.2 hg.2 h2
        refine ⟨by simp [l1, l2], ?_⟩
        simp only [unrepFields]
        rw [← l1]
        simp [u1, u2]
      · cases h
end

theorem byteSer_of_endianIndep (so : Ty → Nat) : ∀ t : Ty, t.endianIndep = true → t.byteSer so = true
  | .scalar _ _, _ => rfl
  | .array _ t, h => byteSer_of_endianIndep so t h
  | .bool, _ => rfl
  | .varint _ _, h => by cases h
  | .empty, _ => rfl
  | .struct _ _, h => by cases h
  | .seq _ _ _, h => by cases h
  | .assoc _ _ _ _ _, h => by cases h
  | .optional _ _, h => by cases h
  | .optPtr _, h => by cases h
  | .uptr _, h => by cases h
  | .variant _ _ _ _, h => by cases h
  | .bitset _, h => by cases h
  | .msg _ _ _ _ _, h => by cases h
  | .ref _, h => by cases h

theorem asBytes_byteSer {c : Cfg} {t : Ty} (h : asBytes c t = true) : t.byteSer c.sizeof = true := by
  simp only [asBytes, Bool.or_eq_true, Bool.and_eq_true] at h
  rcases h with h | h
  · exact byteSer_of_endianIndep _ t h
  · exact h.2

/-- Byte copies restore the objects. -/
theorem decRep_rd {c : Cfg} {t : Ty} {data : List UInt8} (ha : AbiOk c.sizeof) (hb : asBytes c t = true) (hcp : copyOk c t = true)
    (hg : Good c t = true) {vs olds : List Val} {bs : List UInt8} (hw : wireAll (fmtOf c) t vs = some bs)
    (hl : olds.length = vs.length) : RdL data (decRep c t vs.length olds data) bs vs := by
  have hr := repAll_of_asBytes hb hcp hg vs bs hw
  have hpl : plain t = true := plain_of_copyOk hb hcp
  obtain ⟨h1, h2⟩ := chunks_rep (so := c.sizeof) (u := unrep c.host c.sizeof t) (sz := c.sizeof t) vs bs hr
    (fun v _ b hb' => unrep_rep c.host ha t v b (asBytes_byteSer hb) hpl hg hb')
  intro p rest hp hd
  have h3 := ha.pos t
  unfold decRep
  split
  · next hz =>
    have hv : vs = [] := by
      rcases Nat.mul_eq_zero.mp hz with h | h
      · exact List.eq_nil_of_length_eq_zero h
      · omega
    subst hv
    have : olds = [] := List.eq_nil_of_length_eq_zero hl
    subst this
    have : bs = [] := List.eq_nil_of_length_eq_zero (by simpa using h1)
    subst this
    rfl
  · rw [← h1, getBytes_rd hp hd]
    simp only [unrepAll, h2]

theorem wireAll_single {f : Fmt} {t : Ty} {v : Val} {bs : List UInt8} (h : wire f t v = some bs) :
    wireAll f t [v] = some bs := by
  simp [wireAll, h, cat]

/-! ## Associative containers -/

theorem assocKey_eq (isMap : Bool) (e : Val) :
    assocKey isMap e = if isMap then (match e with | .list (k :: _) => k | _ => .unit) else e := by
  unfold assocKey
  cases isMap
  · rfl
  · simp only [if_true]
    cases e with
    | list vs => cases vs <;> rfl
    | _ => rfl

theorem insertSorted_append (lt : Val → Val → Bool) (isMap : Bool) (e : Val) : ∀ (vs : List Val),
    (∀ x ∈ vs, lt (assocKey isMap e) (assocKey isMap x) = false) → insertSorted lt isMap e vs = vs ++ [e] := by
  intro vs
  induction vs with
  | nil => intro _; rfl
  | cons x xs ih =>
    intro h
    simp only [insertSorted, h x (by simp), Bool.false_eq_true, if_false, List.cons_append]
    rw [ih (fun y hy => h y (by simp [hy]))]

theorem ordered_keys {lt : Val → Val → Bool} {multi hashed isMap : Bool} {vs : List Val} (h : Ordered lt multi hashed isMap vs) :
    vs.Pairwise fun x y =>
      if hashed then multi = true ∨ assocKey isMap x ≠ assocKey isMap y
      else lt (assocKey isMap y) (assocKey isMap x) = false ∧ (multi = true ∨ lt (assocKey isMap x) (assocKey isMap y) = true) := by
  unfold Ordered at h
  refine h.imp ?_
  intro x y hxy
  rw [assocKey_eq, assocKey_eq]
  exact hxy

theorem assocInsert_append {lt : Val → Val → Bool} {multi hashed isMap : Bool} {e : Val} {vs ws : List Val}
    (h : Ordered lt multi hashed isMap (vs ++ e :: ws)) : assocInsert lt multi hashed isMap e vs = vs ++ [e] := by
  have h := ordered_keys h
  rw [List.pairwise_append] at h
  have h1 := fun x hx => h.2.2 x hx e (by simp)
  unfold assocInsert
  cases hashed
  · simp only [Bool.false_eq_true, if_false] at h1 ⊢
    rw [if_pos, insertSorted_append _ _ _ _ (fun x hx => (h1 x hx).1)]
    cases multi
    · simp only [Bool.false_or, List.all_eq_true]
      intro x hx
      have := (h1 x hx).2
      simp at this
      simp [this]
    · rfl
  · simp only [if_true] at h1 ⊢
    rw [if_pos]
    cases multi
    · simp only [Bool.false_or, List.all_eq_true, decide_eq_true_eq]
      intro x hx
      simpa using h1 x hx
    · rfl

theorem decAssoc_rd {data : List UInt8} {elem : Nat → Res} {lt : Val → Val → Bool} {multi hashed isMap : Bool}
    {w : Val → Option (List UInt8)} {W : List Val → Option (List UInt8)} (hnil : W [] = some [])
    (hcons : ∀ v vs, W (v :: vs) = cat (w v) (W vs)) :
    ∀ (vs acc : List Val) (bs : List UInt8), W vs = some bs → Ordered lt multi hashed isMap (acc ++ vs) →
      (∀ v ∈ vs, ∀ b, w v = some b → Rd data elem b v) →
      RdL data (decAssoc elem (assocInsert lt multi hashed isMap) vs.length acc) bs (acc ++ vs) := by
  intro vs
  induction vs with
  | nil =>
    intro acc bs h _ _
    rw [hnil] at h; cases h
    intro p rest _ _
    simp [decAssoc]
  | cons v vs ih =>
    intro acc bs h ho hr
    rw [hcons, cat_eq_some] at h
    obtain ⟨x, y, hx, hy, rfl⟩ := h
    intro p rest hp hd
    rw [List.append_assoc] at hd
    have h1 := hr v (by simp) x hx p _ hp hd
    have hs := drop_split hp hd
    have h2 := ih (acc ++ [v]) y hy (by simpa using ho) (fun v' h' => hr v' (by simp [h'])) _ rest hs.1 hs.2
    simp only [List.length_cons, decAssoc, h1, assocInsert_append ho, h2, List.length_append, Nat.add_assoc]
    simp

theorem findId_nodup {ids : List Val} (h : nodup ids = true) : ∀ {i : Nat} {id : Val} (k : Nat), ids[i]? = some id →
    findId id ids k = some (i + k) := by
  induction ids with
  | nil => intro i id k hi; simp at hi
  | cons x xs ih =>
    intro i id k hi
    simp only [nodup, Bool.and_eq_true, Bool.not_eq_true'] at h
    cases i with
    | zero => simp at hi; subst hi; simp [findId]
    | succ i =>
      simp only [List.getElem?_cons_succ] at hi
      have hne : x ≠ id := by
        intro he; subst he
        have := List.mem_of_getElem? hi
        simp [this] at h
      simp only [findId, if_neg hne, ih h.2 (k + 1) hi]
      congr 1; omega

theorem LoadableL_mem {c : Cfg} {t : Ty} {vs : List Val} (h : LoadableL c t vs) : ∀ v ∈ vs, Loadable c t v := by
  induction vs with
  | nil => intro v hv; cases hv
  | cons a as ih =>
    simp only [LoadableL] at h
    intro v hv
    rcases List.mem_cons.mp hv with e | e
    · subst e; exact h.1
    · exact ih h.2 v e

end Zpp
