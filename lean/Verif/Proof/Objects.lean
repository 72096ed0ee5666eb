import Verif.Spec.Objects
import Verif.Proof.InDepth
import Verif.Proof.Reread
import Verif.Proof.Assoc
/-! # Destinations are valid objects after every read -/

namespace Zpp
open Spec

variable {env : Nat → Ty} {lt : Ty → Val → Val → Bool}

theorem formedL_mem {ts : List Ty} (h : formedL ts = true) : ∀ t ∈ ts, formed t = true := by
  induction ts with
  | nil => intro t ht; cases ht
  | cons a as ih =>
    simp only [formedL, Bool.and_eq_true] at h
    intro t ht
    rcases List.mem_cons.1 ht with rfl | e
    · exact h.1
    · exact ih h.2 t e

theorem storedL_mem {ts : List Ty} {t : Ty} (h : t ∈ ts) {j : Nat} (hj : j ∈ stored t) : j ∈ storedL ts := by
  induction ts with
  | nil => cases h
  | cons a as ih =>
    simp only [storedL, List.mem_append]
    rcases List.mem_cons.1 h with e | e
    · subst e; exact .inl hj
    · exact .inr (ih e)

/-- A new object is valid. -/
theorem dflt_object {L S : Nat} {layer : Nat → Nat} {c : Cfg} (hS : ∀ i, height (c.env i) ≤ S) (hL : Layered c.env L layer)
    (hf : ∀ i, formed (c.env i) = true) : ∀ (d : Nat) (t : Ty) (m : Nat), formed t = true →
    (∀ j ∈ stored t, layer j < m) → height t + (S + 1) * m ≤ d → Object c.env c.keyLt t (dflt c d t) := by
  intro d
  induction d with
  | zero => intro t m _ _ hd; have := height_pos t; omega
  | succ d ih =>
    intro t m hft hs hd
    have hfields : ∀ ts : List Ty, (∀ t ∈ ts, formed t = true ∧ (∀ j ∈ stored t, layer j < m) ∧ height t + (S + 1) * m ≤ d) →
        Objects c.env c.keyLt ts (ts.map (dflt c d)) := by
      intro ts
      induction ts with
      | nil => intro _; exact .nil
      | cons t ts ih2 =>
        intro h
        obtain ⟨h1, h2, h3⟩ := h t (by simp)
        exact .cons (ih t m h1 h2 h3) (ih2 fun t ht => h t (by simp [ht]))
    have hlist : ∀ fs : List Ty, formedL fs = true → (∀ j ∈ storedL fs, layer j < m) → 1 + heightL fs + (S + 1) * m ≤ d + 1 →
        Objects c.env c.keyLt fs (fs.map (dflt c d)) := by
      intro fs h1 h2 h3
      refine hfields fs fun t ht => ⟨formedL_mem h1 t ht, fun j hj => h2 j (storedL_mem ht hj), ?_⟩
      have := height_mem ht
      omega
    cases t with
    | scalar k n => exact .scalar (Nat.pow_pos (by omega))
    | bool => exact .bool (by omega)
    | varint n zz => exact .varint (Nat.pow_pos (by omega))
    | empty => exact .empty
    | struct ok fs => exact .struct (hlist fs hft hs hd)
    | msg sz ok maps nums fs => exact .msg (hlist fs hft hs hd)
    | array n t' =>
      simp only [height] at hd
      refine .array (by simp) ?_
      intro v hv
      rw [(List.mem_replicate.mp hv).2]
      exact ih t' m hft hs (by omega)
    | seq k sz t' => exact .seq (by simp)
    | assoc mu ha sz key mp =>
      cases mp
      · exact .set (by simp) List.Pairwise.nil
      · exact .map (by simp) List.Pairwise.nil
    | optional dc t' => exact .nullopt
    | optPtr t' => exact .nullPtr
    | uptr t' => exact .nullOwner
    | variant idTy ids dcs alts =>
      cases alts with
      | nil => simp [formed] at hft
      | cons t' ts =>
        simp only [formed, formedL, Bool.and_eq_true] at hft
        simp only [height, heightL] at hd
        refine .variant (t := t') (by simp) (ih t' m hft.2.1 (fun j hj => hs j ?_) (by omega))
        simp [stored, storedL, hj]
    | bitset n => exact .bitset (by simp)
    | ref i =>
      have hi : layer i < m := hs i (by simp [stored])
      refine .ref (ih (c.env i) (layer i) (hf i) (hL.down i) ?_)
      have h1 := hS i
      have h2 : (S + 1) * (layer i + 1) ≤ (S + 1) * m := Nat.mul_le_mul_left _ hi
      rw [Nat.mul_add, Nat.mul_one] at h2
      simp only [height] at hd
      omega

/-- The list of an object with members. -/
theorem Spec.Object.ofStruct {ok : Bool} {fs : List Ty} {v : Val} (h : Object env lt (.struct ok fs) v) :
    Objects env lt fs v.elems := by
  cases h with
  | struct h => exact h

theorem Spec.Object.ofMsg {sz : Option SizeTy} {ok : Bool} {maps : List (Nat × Nat)} {nums : List (Option Nat)} {fs : List Ty} {v : Val}
    (h : Object env lt (.msg sz ok maps nums fs) v) : Objects env lt fs v.elems := by
  cases h with
  | msg h => exact h

theorem Spec.Object.ofSeq {k : SeqKind} {sz : Option SizeTy} {t : Ty} {v : Val} (h : Object env lt (.seq k sz t) v) :
    ∀ x ∈ v.elems, Object env lt t x := by
  cases h with
  | seq h => exact h

theorem Spec.Object.ofArray {n : Nat} {t : Ty} {v : Val} (h : Object env lt (.array n t) v) :
    v.elems.length = n ∧ ∀ x ∈ v.elems, Object env lt t x := by
  cases h with
  | array hl h => exact ⟨hl, h⟩

/-- Numbers of the same size have the same objects. -/
theorem Spec.Object.toVarint {k : SKind} {n : Nat} {zz : Bool} {v : Val} (h : Object env lt (.varint n zz) v) :
    Object env lt (.scalar k n) v := by
  cases h with
  | varint h => exact .scalar h

theorem Spec.Objects.mem {ts : List Ty} {vs : List Val} (h : Objects env lt ts vs) : ts.length = vs.length := by
  induction ts generalizing vs with
  | nil => cases h; rfl
  | cons t ts ih => cases h with | cons _ h => simp [ih h]

theorem Spec.Objects.headD {t : Ty} {ts : List Ty} {vs : List Val} (h : Objects env lt (t :: ts) vs) :
    Object env lt t (vs.headD .unit) ∧ Objects env lt ts vs.tail := by
  cases h with
  | cons h hs => exact ⟨h, hs⟩

theorem chunks_length (g : List UInt8 → Val) (sz n : Nat) (bs : List UInt8) : (chunks g sz n bs).length = n := by
  induction n generalizing bs with
  | zero => rfl
  | succ n ih => simp [chunks, ih]

theorem chunks_all {P : Val → Prop} (g : List UInt8 → Val) (sz : Nat) (h : ∀ bs, bs.length = sz → P (g bs)) :
    ∀ (n : Nat) (bs : List UInt8), bs.length = n * sz → ∀ v ∈ chunks g sz n bs, P v := by
  intro n
  induction n with
  | zero => intro bs _ v hv; simp [chunks] at hv
  | succ n ih =>
    intro bs hl v hv
    rw [Nat.succ_mul] at hl
    simp only [chunks, List.mem_cons] at hv
    rcases hv with rfl | hv
    · exact h _ (by simp; omega)
    · exact ih (bs.drop sz) (by simp; omega) v hv

mutual
/-- A block of bytes of the right size is a valid object. -/
theorem unrep_object {c : Cfg} (ha : AbiOk c.sizeof) (e : Endian) : ∀ (t : Ty) (bs : List UInt8), widthsOk t = true →
    t.byteSer c.sizeof = true → bs.length = c.sizeof t → Object env lt t (unrep e c.sizeof t bs)
  | .scalar k n, bs, hw, _, hl => by
    have hn : 0 < n := by simp [widthsOk] at hw; exact hw.1
    rw [ha.scalar k n hn] at hl
    have := hostNat_lt e bs
    rw [hl] at this
    exact .scalar this
  | .bool, bs, _, _, hl => by
    rw [ha.bool] at hl
    obtain ⟨b, rfl⟩ := List.length_eq_one_iff.mp hl
    refine .bool ?_
    rw [leNat_singleton]
    exact b.toNat_lt
  | .empty, _, _, _, _ => .empty
  | .struct ok fs, bs, hw, hb, hl => by
    have hb' := oneBlock_of_byteSer c.sizeof _ hb
    simp only [oneBlock, Bool.and_eq_true, beq_iff_eq] at hb'
    have hbs : Ty.byteSerAll c.sizeof fs = true := by
      simp only [Ty.byteSer, Bool.and_eq_true] at hb
      grind
    exact .struct (unrepFields_object ha e fs bs hw hbs (by rw [hl, ← hb'.2]))
  | .msg sz ok maps nums fs, bs, hw, hb, hl => by
    have hb' := oneBlock_of_byteSer c.sizeof _ hb
    simp only [oneBlock, Bool.and_eq_true, beq_iff_eq] at hb'
    have hbs : Ty.byteSerAll c.sizeof fs = true := by
      simp only [Ty.byteSer, Bool.and_eq_true] at hb
      grind
    exact .msg (unrepFields_object ha e fs bs hw hbs (by rw [hl, ← hb'.2]))
  | .array n t, bs, hw, hb, hl => by
    refine .array (chunks_length _ _ _ _) ?_
    cases n with
    | zero => intro v hv; simp [chunks] at hv
    | succ n =>
      rw [ha.array (n + 1) t (by omega)] at hl
      exact chunks_all _ _ (fun bs h => unrep_object ha e t bs hw hb h) (n + 1) bs hl
  | .varint _ _, _, _, h, _ | .seq _ _ _, _, _, h, _ | .assoc _ _ _ _ _, _, _, h, _
  | .optional _ _, _, _, h, _ | .optPtr _, _, _, h, _ | .uptr _, _, _, h, _
  | .variant _ _ _ _, _, _, h, _ | .bitset _, _, _, h, _ | .ref _, _, _, h, _ => by simp [Ty.byteSer] at h
theorem unrepFields_object {c : Cfg} (ha : AbiOk c.sizeof) (e : Endian) : ∀ (ts : List Ty) (bs : List UInt8),
    widthsOkL ts = true → Ty.byteSerAll c.sizeof ts = true → bs.length = (ts.map c.sizeof).sum →
    Objects env lt ts (unrepFields e c.sizeof ts bs)
  | [], _, _, _, _ => .nil
  | t :: ts, bs, hw, hb, hl => by
    simp only [widthsOkL, Bool.and_eq_true] at hw
    simp only [Ty.byteSerAll, Bool.and_eq_true] at hb
    simp only [List.map_cons, List.sum_cons] at hl
    exact .cons (unrep_object ha e t (bs.take (c.sizeof t)) hw.1 hb.1 (by simp; omega))
      (unrepFields_object ha e ts (bs.drop (c.sizeof t)) hw.2 hb.2 (by simp; omega))
end

theorem decRep_object {c : Cfg} (ha : AbiOk c.sizeof) {t : Ty} (hw : widthsOk t = true) (hb : asBytes c t = true) {n : Nat}
    {olds : List Val} {data : List UInt8} {p : Nat} (hp : p ≤ data.length) (hl : olds.length = n) (h : ∀ v ∈ olds, Object env lt t v) :
    (decRep c t n olds data p).vs.length = n ∧ ∀ v ∈ (decRep c t n olds data p).vs, Object env lt t v := by
  unfold decRep
  split
  · exact ⟨hl, h⟩
  · have h1 := fun bs q => getBytes_slice (data := data) (p := p) (n := n * c.sizeof t) (bs := bs) (q := q)
    generalize getBytes data p (n * c.sizeof t) = r at *
    obtain ⟨s, bs, q⟩ := r
    cases s
    · exact ⟨chunks_length _ _ _ _, chunks_all _ _ (fun bs h => unrep_object ha _ t bs hw (asBytes_byteSer hb) h) n bs
        (h1 _ _ hp rfl).2.2.2⟩
    all_goals exact ⟨hl, h⟩

/-- Numbers read are in range, whatever was there before. -/
theorem getVarint_object {data : List UInt8} {p n : Nat} (hn : IntWidth n) (zz : Bool) (old : Val) (hp : p ≤ data.length)
    (hok : (getVarint n zz old data p).s = .ok) : Object env lt (.varint n zz) (getVarint n zz old data p).v := by
  have h := getVarint_again (v := (getVarint n zz old data p).v) (q := (getVarint n zz old data p).p) hn zz (old := old) hp
    (by rw [← hok])
  obtain ⟨_, _, x, hx, hlt, _⟩ := h
  rw [hx]
  refine .varint ?_
  rwa [show (256 : Nat) = 2 ^ 8 from rfl, ← Nat.pow_mul]

theorem getVarint_keeps {data : List UInt8} {p n : Nat} (hn : IntWidth n) (zz : Bool) (old : Val) (hp : p ≤ data.length)
    (h : Object env lt (.varint n zz) old) : Object env lt (.varint n zz) (getVarint n zz old data p).v := by
  by_cases hok : (getVarint n zz old data p).s = .ok
  · exact getVarint_object hn zz old hp hok
  · have : (getVarint n zz old data p).v = old := by
      unfold getVarint at *
      split
      · rfl
      · split <;> simp_all
    rw [this]; exact h

theorem numDec_object {d : Nat} {c : Cfg} {t : Ty} {data : List UInt8} (hn : isPacked t = true) (v : Val) (p : Nat)
    (hw : widthsOk t = true) (hp : p ≤ data.length) (hok : (decode d c t v data p).s = .ok) :
    Object env lt t (decode d c t v data p).v := by
  cases d with
  | zero => cases hok
  | succ d =>
    cases t with
    | scalar k n =>
      simp only [decode] at hok ⊢
      have h := fun bs q => getBytes_slice (data := data) (p := p) (n := n) (bs := bs) (q := q)
      generalize getBytes data p n = r at *
      obtain ⟨s, bs, p'⟩ := r
      cases s <;> first | cases hok | skip
      have := ioNat_lt c bs
      rw [(h _ _ hp rfl).2.2.2] at this
      exact .scalar this
    | bool =>
      simp only [decode] at hok ⊢
      have h := fun bs q => getBytes_slice (data := data) (p := p) (n := 1) (bs := bs) (q := q)
      generalize getBytes data p 1 = r at *
      obtain ⟨s, bs, p'⟩ := r
      cases s <;> first | cases hok | skip
      obtain ⟨b, rfl⟩ := List.length_eq_one_iff.mp (h _ _ hp rfl).2.2.2
      refine .bool ?_
      rw [leNat_singleton]
      exact b.toNat_lt
    | varint n zz => exact getVarint_object (intWidth_iff.mp hw) zz v hp hok
    | _ => cases hn

/-! ## Combinators -/

/-- Moving forward inside the input. -/
def Fwd (len p p' : Nat) : Prop := p ≤ p' ∧ p' ≤ len

theorem decAll_object {P : Val → Prop} {len lo : Nat} {rec : Val → Nat → Res}
    (h : ∀ v q, lo ≤ q → q ≤ len → P v → P (rec v q).v) (hf : ∀ v q, q ≤ len → Fwd len q (rec v q).p) :
    ∀ vs p, lo ≤ p → p ≤ len → (∀ v ∈ vs, P v) →
      (decAll rec vs p).vs.length = vs.length ∧ ∀ v ∈ (decAll rec vs p).vs, P v := by
  intro vs
  induction vs with
  | nil => intro p _ _ _; simp [decAll]
  | cons v vs ih =>
    intro p hl hp hv
    unfold decAll
    have h1 := h v p hl hp (hv v (by simp))
    have h2 := hf v p hp
    generalize rec v p = r at *
    obtain ⟨s, v', p'⟩ := r
    have hvs : ∀ x ∈ vs, P x := fun x hx => hv x (by simp [hx])
    have hfail : (v' :: vs).length = (v :: vs).length ∧ ∀ x ∈ v' :: vs, P x := by
      refine ⟨rfl, fun x hx => ?_⟩
      rcases List.mem_cons.1 hx with rfl | hx
      · exact h1
      · exact hvs x hx
    cases s
    · have h3 := ih p' (Nat.le_trans hl h2.1) h2.2 hvs
      refine ⟨by simp [h3.1], fun x hx => ?_⟩
      rcases List.mem_cons.1 hx with rfl | hx
      · exact h1
      · exact h3.2 x hx
    all_goals exact hfail

theorem decFields_object {len lo m : Nat} {rec : Ty → Val → Nat → Res} {so : Ty → Nat} {dsz : SizeTy} {rank : Nat → Nat} :
    ∀ ts vs p,
    (∀ t ∈ ts, ∀ v q, lo ≤ q → q ≤ len → (lo < q ∨ ∀ j ∈ freeRefs so dsz t, rank j < m) → Object env lt t v →
      Object env lt t (rec t v q).v) →
    (∀ t ∈ ts, ∀ v q, q ≤ len → (rec t v q).s = .ok → q + leastBytes so dsz t ≤ (rec t v q).p) →
    (∀ t ∈ ts, ∀ v q, q ≤ len → Fwd len q (rec t v q).p) →
    lo ≤ p → p ≤ len → (lo < p ∨ ∀ j ∈ freeRefsL so dsz ts, rank j < m) →
    Objects env lt ts vs → Objects env lt ts (decFields rec ts vs p).vs := by
  intro ts
  induction ts with
  | nil => intro vs p _ _ _ _ _ _ _; exact .nil
  | cons t ts ih =>
    intro vs p h hle hfw hl hp hf hv
    obtain ⟨hv1, hv2⟩ := hv.headD
    unfold decFields
    have h1 := h t (by simp) (vs.headD .unit) p hl hp (hf.imp id fun hf j hj => hf j (by simp [freeRefsL, hj])) hv1
    have h2 := hle t (by simp) (vs.headD .unit) p hp
    have h3 := hfw t (by simp) (vs.headD .unit) p hp
    generalize rec t (vs.headD .unit) p = r at *
    obtain ⟨s, v', p'⟩ := r
    cases s
    · have h2 := h2 rfl
      have h4 := h3.1
      dsimp only at h2 h4
      refine .cons h1 (ih vs.tail p' (fun t' ht => h t' (by simp [ht])) (fun t' ht => hle t' (by simp [ht]))
        (fun t' ht => hfw t' (by simp [ht])) (by omega) h3.2 ?_ hv2)
      by_cases h0 : leastBytes so dsz t = 0
      · rcases hf with hf | hf
        · exact .inl (by omega)
        · exact .inr fun j hj => hf j (by simp [freeRefsL, h0, hj])
      · exact .inl (by omega)
    all_goals exact .cons h1 hv2

theorem decAssoc_object {P : Val → Prop} {Q : List Val → Prop} {len lo : Nat} {elem : Nat → Res} {ins : Val → List Val → List Val}
    (h : ∀ q, lo ≤ q → q ≤ len → P (elem q).v) (hf : ∀ q, q ≤ len → Fwd len q (elem q).p) (hi : ∀ v vs, P v → Q vs → Q (ins v vs)) :
    ∀ n vs p, lo ≤ p → p ≤ len → Q vs → Q (decAssoc elem ins n vs p).vs := by
  intro n
  induction n with
  | zero => intro vs p _ _ hq; exact hq
  | succ n ih =>
    intro vs p hl hp hq
    unfold decAssoc
    have h1 := h p hl hp
    have h2 := hf p hp
    generalize elem p = r at *
    obtain ⟨s, v', p'⟩ := r
    cases s
    · exact ih _ p' (Nat.le_trans hl h2.1) h2.2 (hi _ _ h1 hq)
    all_goals exact hq

theorem insertSorted_mem {f : Val → Val → Bool} {isMap : Bool} {e x : Val} : ∀ {vs : List Val}, x ∈ insertSorted f isMap e vs → x = e ∨ x ∈ vs := by
  intro vs
  induction vs with
  | nil => intro h; simpa [insertSorted] using h
  | cons a as ih =>
    intro h
    unfold insertSorted at h
    split at h
    · simpa using h
    · rcases List.mem_cons.1 h with rfl | h
      · simp
      · rcases ih h with h | h <;> simp [h]

theorem assocInsert_mem {f : Val → Val → Bool} {multi hashed isMap : Bool} {e x : Val} {vs : List Val}
    (h : x ∈ assocInsert f multi hashed isMap e vs) : x = e ∨ x ∈ vs := by
  unfold assocInsert at h
  repeat' split at h
  · simp at h; exact h.symm
  · exact .inr h
  · exact insertSorted_mem h
  · exact .inr h

/-- Insertion into a set or map keeps it valid. -/
theorem assocInsert_set {multi hashed : Bool} {sz : Option SizeTy} {key : Ty} {e : Val} {vs : List Val} (hlt : WeakOrder (lt key))
    (he : Object env lt key e) (h : Object env lt (.assoc multi hashed sz key none) (.list vs)) :
    Object env lt (.assoc multi hashed sz key none) (.list (assocInsert (lt key) multi hashed false e vs)) := by
  cases h with
  | set h ho =>
    refine .set (fun x hx => ?_) (orderedK_iff.mp (assocInsert_ordered hlt (orderedK_iff.mpr ho)))
    rcases assocInsert_mem hx with rfl | hx
    · exact he
    · exact h x hx

theorem assocInsert_map {multi hashed : Bool} {sz : Option SizeTy} {key m : Ty} {e : Val} {vs : List Val} (hlt : WeakOrder (lt key))
    (he : Object env lt (.struct false [key, m]) e) (h : Object env lt (.assoc multi hashed sz key (some m)) (.list vs)) :
    Object env lt (.assoc multi hashed sz key (some m)) (.list (assocInsert (lt key) multi hashed true e vs)) := by
  cases h with
  | map h ho =>
    refine .map (fun x hx => ?_) (orderedK_iff.mp (assocInsert_ordered hlt (orderedK_iff.mpr ho)))
    rcases assocInsert_mem hx with rfl | hx
    · exact he
    · exact h x hx

theorem resizeVals_all {P : Val → Prop} {vs : List Val} {n : Nat} {dv : Val} (h : ∀ v ∈ vs, P v) (hd : P dv) :
    ∀ v ∈ resizeVals vs n dv, P v := by
  intro v hv
  rcases List.mem_append.1 hv with hv | hv
  · exact h v (List.mem_of_mem_take hv)
  · rw [(List.mem_replicate.mp hv).2]; exact hd

theorem resizeVals_same {vs : List Val} {n : Nat} {dv : Val} (h : vs.length = n) : resizeVals vs n dv = vs := by
  subst h; simp [resizeVals]

theorem seqBody_object {c : Cfg} (ha : AbiOk c.sizeof) {k k' : SeqKind} {sz : Option SizeTy} {t : Ty} (hw : widthsOk t = true) {data : List UInt8}
    {rec : Val → Nat → Res} {lo : Nat}
    (h : ∀ v q, lo ≤ q → q ≤ data.length → Object env lt t v → Object env lt t (rec v q).v)
    (hf : ∀ v q, q ≤ data.length → Fwd data.length q (rec v q).p) (olds : List Val) (p : Nat) (hl : lo ≤ p) (hp : p ≤ data.length)
    (ho : ∀ v ∈ olds, Object env lt t v) : Object env lt (.seq k' sz t) (seqBody c k t rec olds data p).v := by
  unfold seqBody
  split
  · next hb => exact .seq (decRep_object ha hw hb.2 hp rfl ho).2
  · exact .seq (decAll_object h hf _ _ hl hp ho).2

theorem view_object {c : Cfg} (ha : AbiOk c.sizeof) {k : SeqKind} {sz : Option SizeTy} {t : Ty} (hw : widthsOk t = true) (hb : byteTy t = true)
    (bs : List UInt8) (n : Nat) (hn : bs.length = n) : Object env lt (.seq k sz t) (.list (unrepAll c.host c.sizeof t n bs)) := by
  refine .seq (chunks_all _ _ (fun bs h => unrep_object ha _ t bs hw ?_ h) n bs ?_)
  · cases t <;> first | rfl | cases hb
  · have : c.sizeof t = 1 := by
      cases t with
      | scalar k n =>
        cases k <;> simp [byteTy] at hb
        all_goals rw [ha.scalar _ _ (by omega), hb]
      | _ => cases hb
    rw [this, hn, Nat.mul_one]

theorem seqFill_object {c : Cfg} (ha : AbiOk c.sizeof) {k : SeqKind} {sz : Option SizeTy} {t : Ty} (hw : widthsOk t = true)
    (hfm : formed (.seq k sz t) = true) {data : List UInt8} {rec : Val → Nat → Res} {lo : Nat}
    (h : ∀ v q, lo ≤ q → q ≤ data.length → Object env lt t v → Object env lt t (rec v q).v)
    (hf : ∀ v q, q ≤ data.length → Fwd data.length q (rec v q).p) (dv old : Val) (n p : Nat) (hl : lo ≤ p) (hp : p ≤ data.length)
    (hdv : Object env lt t dv) (ho : Object env lt (.seq k sz t) old) :
    Object env lt (.seq k sz t) (seqFill c k t rec dv old data n p).v := by
  unfold seqFill
  split
  · simp only [formed, Bool.and_eq_true] at hfm
    split
    · exact ho
    · split
      · exact view_object ha hw (by simpa using hfm.1) _ _ (by simp; omega)
      · exact ho
  · split
    · exact ho
    · exact seqBody_object ha hw h hf _ _ hl hp fun v hv => ho.ofSeq v (List.mem_of_mem_take hv)
  · split
    · exact ho
    · split
      · exact ho
      · exact seqBody_object ha hw h hf _ _ hl hp (resizeVals_all ho.ofSeq hdv)

theorem seqUnsized_object {c : Cfg} (ha : AbiOk c.sizeof) {k : SeqKind} {sz : Option SizeTy} {t : Ty} (hw : widthsOk t = true)
    (hfm : formed (.seq k sz t) = true) {data : List UInt8} {rec : Val → Nat → Res} {lo : Nat}
    (h : ∀ v q, lo ≤ q → q ≤ data.length → Object env lt t v → Object env lt t (rec v q).v)
    (hf : ∀ v q, q ≤ data.length → Fwd data.length q (rec v q).p) (old : Val) (p : Nat) (hl : lo ≤ p) (hp : p ≤ data.length)
    (ho : Object env lt (.seq k sz t) old) :
    Object env lt (.seq k sz t) (seqUnsized c k t rec old data p).v := by
  unfold seqUnsized
  split
  · simp only [formed, Bool.and_eq_true] at hfm
    split
    · exact ho
    · exact view_object ha hw (by simpa using hfm.1) _ _ (by simp)
  · exact seqBody_object ha hw h hf _ _ hl hp ho.ofSeq

/-! ## Messages -/

theorem pbClear_object : ∀ (fs : List Ty) (os : List Val), Objects env lt fs os → Objects env lt fs (pbClear fs os) := by
  intro fs
  induction fs with
  | nil => intro os _; exact .nil
  | cons t ts ih =>
    intro os h
    obtain ⟨h1, h2⟩ := h.headD
    unfold pbClear
    refine .cons ?_ (ih _ h2)
    cases t with
    | seq k sz t' => exact .seq (by simp)
    | assoc mu ha sz key m =>
      cases m
      · exact .set (by simp) List.Pairwise.nil
      · exact .map (by simp) List.Pairwise.nil
    | empty => exact .empty
    | _ => exact h1

/-- What `push_back` or `insert` puts into a container. -/
def ElemOf (env : Nat → Ty) (lt : Ty → Val → Val → Bool) : Ty → Val → Prop
  | .seq _ _ t, e => Object env lt t e
  | .assoc _ _ _ key none, e => Object env lt key e
  | .assoc _ _ _ key (some m), e => Object env lt (.struct false [key, m]) e
  | _, _ => False

theorem pbPush_object {c : Cfg} (hlt : ∀ key, WeakOrder (c.keyLt key)) {t : Ty} {e : Val} {vs : List Val}
    (he : ElemOf env c.keyLt t e) (h : Object env c.keyLt t (.list vs)) : Object env c.keyLt t (.list (pbPush c t e vs)) := by
  cases t with
  | seq k sz t' =>
    cases h with
    | seq h =>
      refine .seq fun x hx => ?_
      rcases List.mem_append.1 hx with hx | hx
      · exact h x hx
      · rw [List.mem_singleton.mp hx]; exact he
  | assoc mu ha sz key m =>
    cases m
    · exact assocInsert_set (hlt key) he h
    · exact assocInsert_map (hlt key) he h
  | _ => exact he.elim

theorem pbFetch_object {c : Cfg} (hlt : ∀ key, WeakOrder (c.keyLt key)) {t : Ty} {elem : Nat → Res} {vs : List Val} {p : Nat}
    (he : (elem p).s = .ok → ElemOf env c.keyLt t (elem p).v) (h : Object env c.keyLt t (.list vs)) :
    Object env c.keyLt t (.list (pbFetch c t elem vs p).vs) := by
  unfold pbFetch
  generalize elem p = r at *
  obtain ⟨s, v, q⟩ := r
  cases s
  · exact pbPush_object hlt (he rfl) h
  all_goals exact h

theorem pbPacked_object {Q : List Val → Prop} {len : Nat} {fetch : List Val → Nat → ResL} {endPos : Nat}
    (h : ∀ vs p, p ≤ len → Q vs → Q (fetch vs p).vs) (hf : ∀ vs p, p ≤ len → Fwd len p (fetch vs p).p) :
    ∀ f vs p, p ≤ len → Q vs → Q (pbPacked fetch endPos f vs p).vs := by
  intro f
  induction f with
  | zero => intro vs p _ hq; exact hq
  | succ f ih =>
    intro vs p hp hq
    unfold pbPacked
    split
    · have h1 := h vs p hp hq
      have h2 := hf vs p hp
      generalize fetch vs p = r at *
      obtain ⟨s, vs', p'⟩ := r
      cases s
      · exact ih vs' p' h2.2 h1
      all_goals exact h1
    · exact hq

/-- A container as its own list. -/
theorem object_list {t : Ty} {v : Val} (ht : ∃ k sz e, t = .seq k sz e ∨ ∃ mu ha m, t = .assoc mu ha sz e m)
    (h : Object env lt t v) : v = .list v.elems := by
  obtain ⟨k, sz, e, rfl | ⟨mu, ha, m, rfl⟩⟩ := ht
  · cases h; rfl
  · cases h <;> rfl

theorem Spec.Object.toUnsized {t : Ty} {v : Val} (h : Object env lt t v) : Object env lt (unsizedTy t) v := by
  cases t with
  | seq k sz t' => cases h with | seq h => exact .seq h
  | _ => exact h

theorem Spec.Object.ofUnsized {t : Ty} {v : Val} (h : Object env lt (unsizedTy t) v) : Object env lt t v := by
  cases t with
  | seq k sz t' => cases h with | seq h => exact .seq h
  | _ => exact h

theorem formed_unsized {t : Ty} (h : formed t = true) : formed (unsizedTy t) = true := by cases t <;> exact h

theorem pbDecPacked_object {c : Cfg} (hlt : ∀ key, WeakOrder (c.keyLt key)) {rec : Ty → Val → Nat → Res} {t elemTy : Ty} {fix : Bool}
    {wt : Nat} {old : Val} {data : List UInt8} {lo p : Nat} (hl : lo ≤ p) (hp : p ≤ data.length)
    (ht : ∃ k sz e, t = .seq k sz e ∨ ∃ mu ha m, t = .assoc mu ha sz e m)
    (he : ∀ v q, q ≤ data.length → (rec elemTy v q).s = .ok → ElemOf env c.keyLt t (rec elemTy v q).v)
    (hef : ∀ v q, q ≤ data.length → Fwd data.length q (rec elemTy v q).p)
    (hz : hasResize t = true → fix = true → ∀ k sz e, t = .seq k sz e → Object env c.keyLt e (.num 0))
    (hu : ∀ v q, lo ≤ q → q ≤ data.length → Object env c.keyLt (unsizedTy t) v → Object env c.keyLt (unsizedTy t) (rec (unsizedTy t) v q).v)
    (ho : Object env c.keyLt t old) : Object env c.keyLt t (pbDecPacked c rec t elemTy fix wt old data p).v := by
  have hol := ho
  rw [object_list ht ho] at hol
  have hfetch : ∀ vs q, q ≤ data.length → Object env c.keyLt t (.list vs) →
      Object env c.keyLt t (.list (pbFetch c t (rec elemTy .unit) vs q).vs) :=
    fun vs q hq h => pbFetch_object hlt (he _ q hq) h
  unfold pbDecPacked
  simp only
  split
  · exact hfetch _ _ hp hol
  · have h1 := decHdr_n (c := c) .varint hp
    generalize decHdr c .varint data p = r at *
    obtain ⟨s, n, p1⟩ := r
    cases s
    · dsimp only at h1 ⊢
      split
      · next hc =>
        simp only [Bool.and_eq_true] at hc
        split
        · exact ho
        · split
          · exact ho
          · refine (hu _ p1 (Nat.le_trans hl h1.mono) h1.inb ?_).ofUnsized
            refine Spec.Object.toUnsized ?_
            cases t with
            | seq k sz e => exact .seq (resizeVals_all ho.ofSeq (hz hc.1 hc.2 _ _ _ rfl))
            | _ => simp [hasResize] at hc
      · split
        · exact ho
        · refine pbPacked_object (Q := fun vs => Object env c.keyLt t (.list vs)) (len := data.length) hfetch ?_ _ _ _ h1.inb hol
          intro vs q hq
          have h3 := hef .unit q hq
          unfold pbFetch
          generalize rec elemTy .unit q = r at *
          obtain ⟨s, v, q'⟩ := r
          cases s <;> exact h3
    all_goals exact ho

theorem pbDispatch_object {field : Ty → Nat → Val → Nat → Res} {maps : List (Nat × Nat)} {num wt : Nat} :
    ∀ (fs : List Ty) (nums : List (Option Nat)) (i : Nat) (os : List Val) (p : Nat),
    (∀ t ∈ fs, ∀ wt v, Object env lt t v → Object env lt t (field t wt v p).v) → Objects env lt fs os →
    Objects env lt fs (pbDispatch field maps num wt i nums fs os p).vs := by
  intro fs
  induction fs with
  | nil =>
    intro nums i os p _ ho
    cases nums <;> unfold pbDispatch <;> split <;> exact ho
  | cons t ts ih =>
    intro nums i os p h ho
    cases nums with
    | nil => unfold pbDispatch; split <;> exact ho
    | cons n ns =>
      obtain ⟨h1, h2⟩ := ho.headD
      unfold pbDispatch
      split
      · exact .cons (h t (by simp) _ _ h1) h2
      · exact .cons h1 (ih ns (i + 1) os.tail p (fun t' ht => h t' (by simp [ht])) h2)

theorem pbLoop_object {data : List UInt8} {field : Ty → Nat → Val → Nat → Res} {maps : List (Nat × Nat)}
    {nums : List (Option Nat)} {fs : List Ty}
    (h : ∀ t ∈ fs, ∀ wt v p, 1 ≤ p → p ≤ data.length → Object env lt t v → Object env lt t (field t wt v p).v)
    (hs : ∀ t ∈ fs, ∀ wt v p, 1 ≤ p → p ≤ data.length → NStep data.length p (field t wt v p).s (field t wt v p).p) :
    ∀ f vs p, p ≤ data.length → Objects env lt fs vs → Objects env lt fs (pbLoop field maps nums fs data f vs p).vs := by
  intro f
  induction f with
  | zero => intro vs p _ ho; exact ho
  | succ f ih =>
    intro vs p hp ho
    unfold pbLoop
    split
    · have h1 := getVarint_safe (n := 4) (by decide) false (.num 0) hp
      generalize getVarint 4 false (.num 0) data p = r at *
      obtain ⟨s, v, p1⟩ := r
      cases s
      · have h2 := h1.2 rfl
        have h3 := h1.1.inb
        cases v
        case num tag =>
          dsimp only at h2 h3 ⊢
          have h4 := pbDispatch_n (maps := maps) (num := tag >>> 3) (wt := tag &&& 7) fs nums 0 vs p1
            (fun t ht wt v => hs t ht wt v p1 (by omega) h3) h3
          have h5 := pbDispatch_object (maps := maps) (num := tag >>> 3) (wt := tag &&& 7) fs nums 0 vs p1
            (fun t ht wt v ho => h t ht wt v p1 (by omega) h3 ho) ho
          generalize pbDispatch field maps (tag >>> 3) (tag &&& 7) 0 nums fs vs p1 = q at *
          obtain ⟨s, vs', p2⟩ := q
          cases s
          · exact ih vs' p2 h4.inb h5
          all_goals exact h5
        all_goals exact ho
      all_goals exact ho
    · exact ho

theorem formed_entryTy {t : Ty} (h : formed t = true) : formed (pbEntryTy t) = true := by
  cases t with
  | scalar k n => cases k <;> rfl
  | _ => exact h

theorem Spec.Object.ofEntryTy {t : Ty} {v : Val} (h : Object env lt (pbEntryTy t) v) : Object env lt t v := by
  cases t with
  | scalar k n => cases k <;> first | exact h | exact h.toVarint
  | _ => exact h

theorem pbDecField_object {c : Cfg} (hlt : ∀ key, WeakOrder (c.keyLt key)) {rec : Ty → Val → Nat → Res} {fresh : Ty → Val} {t : Ty} {wt : Nat}
    {old : Val} {data : List UInt8} {lo p : Nat} (hl : lo ≤ p) (hp : p ≤ data.length) (hw : widthsOk t = true) (hfm : formed t = true)
    (hr : ∀ t' v q, widthsOk t' = true → formed t' = true → height t' ≤ height t → lo ≤ q → q ≤ data.length → Object env c.keyLt t' v →
      Object env c.keyLt t' (rec t' v q).v)
    (hfw : ∀ t' v q, widthsOk t' = true → q ≤ data.length → Fwd data.length q (rec t' v q).p)
    (hfr : ∀ t', formed t' = true → height t' ≤ height t → Object env c.keyLt t' (fresh t'))
    (hnum : ∀ t, widthsOk t = true → isPacked t = true → ∀ v q, q ≤ data.length → (rec t v q).s = .ok → Object env c.keyLt t (rec t v q).v)
    (ho : Object env c.keyLt t old) : Object env c.keyLt t (pbDecField c rec fresh t wt old data p).v := by
  have hu := fun v q hl hq ho => hr (unsizedTy t) v q (widthsOk_unsized hw) (formed_unsized hfm) (Nat.le_of_eq (height_unsized t)) hl hq ho
  have elem : ∀ e, widthsOk e = true → formed e = true → height e ≤ height t → pbInClass t = pbElemClass e →
      (∃ k sz e', t = .seq k sz e' ∨ ∃ mu ha m, t = .assoc mu ha sz e' m) →
      (∀ v, Object env c.keyLt e v → ElemOf env c.keyLt t v) → (∀ k sz e', t = .seq k sz e' → e' = e) →
      Object env c.keyLt t (pbDecField c rec fresh t wt old data p).v := by
    intro e hwe hfe hhe hcl ht hel hse
    have hol := ho
    rw [object_list ht ho] at hol
    have hpk : ∀ e', isPacked e' = true → widthsOk e' = true → (∀ v, Object env c.keyLt e' v → Object env c.keyLt e v) → ∀ fix,
        (fix = true → Object env c.keyLt e (.num 0)) →
        Object env c.keyLt t (pbDecPacked c rec t e' fix wt old data p).v := by
      intro e' hp' hw' hconv fix h0
      refine pbDecPacked_object hlt hl hp ht (fun v q hq hok => hel _ (hconv _ (hnum e' hw' hp' v q hq hok)))
        (fun v q hq => hfw e' v q hw' hq) ?_ hu ho
      intro _ hfix k sz e'' hte
      rw [hse _ _ _ hte]
      exact h0 hfix
    have hrep : Object env c.keyLt t (pbFetch c t (rec e (fresh e)) old.elems p).toRes.v :=
      pbFetch_object hlt (fun _ => hel _ (hr e _ p hwe hfe hhe hl hp (hfr e hfe hhe))) hol
    unfold pbDecField
    rw [hcl]
    cases e with
    | scalar k n =>
      cases k <;> simp only [pbElemClass]
      case enum =>
        exact hpk (.varint n false) rfl (widthsOk_varint hwe (.inl rfl)) (fun v h => h.toVarint) _ (by simp)
      all_goals exact hpk _ rfl hwe (fun v h => h) _ (fun _ => .scalar (Nat.pow_pos (by omega)))
    | bool => exact hpk _ rfl rfl (fun v h => h) _ (fun _ => .bool (by omega))
    | varint n zz => exact hpk _ rfl hwe (fun v h => h) _ (by simp)
    | _ => exact hrep
  cases t with
  | scalar k n =>
    have hv : ∀ {k : SKind}, Object env c.keyLt (.scalar k n) old → Object env c.keyLt (.varint n false) old := by
      intro k h
      cases h with
      | scalar h => exact .varint h
    cases k
    case enum => exact (getVarint_keeps (intWidth_iff.mp (widthsOk_varint hw (.inl rfl))) false old hp (hv ho)).toVarint
    case byte => exact (getVarint_keeps (intWidth_iff.mp (widthsOk_varint hw (.inr rfl))) false old hp (hv ho)).toVarint
    all_goals exact hr _ _ _ hw hfm (Nat.le_refl _) hl hp ho
  | seq k sz e =>
    simp only [formed, Bool.and_eq_true] at hfm
    exact elem e hw hfm.2 (by simp only [height]; omega) rfl ⟨k, sz, e, .inl rfl⟩ (fun v h => h) (fun k' sz' e' h => by cases h; rfl)
  | assoc mu ha sz key m =>
    cases m with
    | none =>
      exact elem key hw hfm (by simp only [height]; omega) rfl ⟨.vector, sz, key, .inr ⟨mu, ha, none, rfl⟩⟩ (fun v h => h)
        (fun k' sz' e' h => by cases h)
    | some m =>
      simp only [widthsOk, Bool.and_eq_true] at hw
      simp only [formed, Bool.and_eq_true] at hfm
      have hfe : formed (pbEntry key m) = true := by
        simp only [pbEntry, formed, formedL, formed_entryTy hfm.1, formed_entryTy hfm.2, Bool.and_self]
      have hhe : height (pbEntry key m) ≤ height (.assoc mu ha sz key (some m)) := by
        simp only [pbEntry, height, heightL, height_entryTy]
        omega
      have hol := ho
      rw [object_list ⟨.vector, sz, key, .inr ⟨mu, ha, some m, rfl⟩⟩ ho] at hol
      refine pbFetch_object hlt (fun _ => ?_) hol
      have h := hr (pbEntry key m) _ p (widthsOk_entry hw.1 hw.2) hfe hhe hl hp (hfr _ hfe hhe)
      unfold ElemOf
      generalize (rec (pbEntry key m) (fresh (pbEntry key m)) p).v = e at h
      unfold pbEntry at h
      cases h with
      | msg h =>
        cases h with
        | cons h1 h =>
          cases h with
          | cons h2 h =>
            cases h
            exact .struct (.cons h1.ofEntryTy (.cons h2.ofEntryTy .nil))
  | _ => exact hr _ _ _ hw hfm (Nat.le_refl _) hl hp ho

theorem msgRun_object {c' : Cfg} (hlt : ∀ key, WeakOrder (c'.keyLt key)) {rec : Ty → Val → List UInt8 → Nat → Res} {fresh : Ty → Val}
    {maps : List (Nat × Nat)} {nums : List (Option Nat)} {fs : List Ty} {old : Val} {data : List UInt8} (size p H : Nat) (hp : p ≤ data.length)
    (hw : ∀ t ∈ fs, widthsOk t = true) (hfm : ∀ t ∈ fs, formed t = true) (hh : heightL fs ≤ H)
    (hs : ∀ t v sub q, widthsOk t = true → height t ≤ H → 1 ≤ q → q ≤ sub.length → sub.length ≤ data.length - p →
      NStep sub.length q (rec t v sub q).s (rec t v sub q).p)
    (hr : ∀ t v sub q, widthsOk t = true → formed t = true → height t ≤ H → 1 ≤ q → q ≤ sub.length → sub.length ≤ data.length - p →
      Object env c'.keyLt t v → Object env c'.keyLt t (rec t v sub q).v)
    (hfw : ∀ t v (sub : List UInt8) q, widthsOk t = true → q ≤ sub.length → Fwd sub.length q (rec t v sub q).p)
    (hfr : ∀ t, formed t = true → height t ≤ H → Object env c'.keyLt t (fresh t))
    (hnum : ∀ t, widthsOk t = true → isPacked t = true → ∀ v (sub : List UInt8) q, q ≤ sub.length → (rec t v sub q).s = .ok →
      Object env c'.keyLt t (rec t v sub q).v)
    (hc : ∀ t, widthsOk t = true → isPacked t = true → ∀ sub : List UInt8, Consumes sub.length (fun t v p => rec t v sub p) t)
    (ho : Objects env c'.keyLt fs old.elems) :
    Objects env c'.keyLt fs (msgRun c' rec fresh maps nums fs old data size p).v.elems := by
  unfold msgRun
  rw [if_neg (by omega)]
  have hlen := msgSub_length (data := data) (p := p) (size := size)
  have hht := fun t ht t' (h : height t' ≤ height t) => Nat.le_trans h (Nat.le_trans (height_mem (ts := fs) (t := t) ht) hh)
  refine pbLoop_object (data := msgSub data p size) (maps := maps) (nums := nums) (fs := fs) ?_ ?_ _ _ 0 (by omega) (pbClear_object _ _ ho)
  · intro t ht wt v q hl hq ho
    exact pbDecField_object hlt (lo := 1) hl hq (hw t ht) (hfm t ht)
      (fun t' v q hw' hf' hh' hl hq ho => hr t' v _ q hw' hf' (hht t ht t' hh') hl hq (by omega) ho)
      (fun t' v q hw' hq => hfw t' v _ q hw' hq) (fun t' hf' hh' => hfr t' hf' (hht t ht t' hh'))
      (fun t hw hn v q hq hok => hnum t hw hn v _ q hq hok) ho
  · intro t ht wt v q hl hq
    exact pbDecField_n (lo := 1) hl hq (hw t ht)
      (fun t' v q hw' hh' hl hq => hs t' v _ q hw' (hht t ht t' hh') hl hq (by omega))
      (fun t hw hn => hc t hw hn _)

/-! ## The reader -/

theorem layered_pb {c : Cfg} {L : Nat} {layer : Nat → Nat} (h : Layered c.env L layer) : Layered (pbCfg c).env L layer := h

/-- With enough stack (for the input, and for the nesting of new objects), a destination that was valid is valid after the
read, whatever its outcome. -/
theorem decode_object {R S L : Nat} {rank layer : Nat → Nat} : ∀ (d : Nat) (c : Cfg) (t : Ty) (old : Val) (data : List UInt8) (p m : Nat),
    AbiOk c.sizeof → (∀ i, widthsOk (c.env i) = true) → (∀ i, formed (c.env i) = true) → (∀ key, WeakOrder (c.keyLt key)) →
    CyclesCost c R S rank → Layered c.env L layer → widthsOk t = true → formed t = true → p ≤ data.length →
    (∀ j ∈ freeRefs c.sizeof c.dsz t, rank j < m) → m ≤ R →
    height t + (S + 1) * m + budget S R (data.length - p) + (S + 1) * L ≤ d →
    Object c.env c.keyLt t old → Object c.env c.keyLt t (decode d c t old data p).v := by
  intro d
  induction d with
  | zero => intro c t old data p m _ _ _ _ _ _ _ _ _ _ _ hd; have := height_pos t; omega
  | succ d ih =>
    intro c t old data p m ha henv hfenv hlt hcc hL hw hfm hp hfree hm hd ho
    -- a part of the object, reached without input or after at least one byte
    have hrec : ∀ t' v q, widthsOk t' = true → formed t' = true → height t' < height t → p ≤ q → q ≤ data.length →
        (p < q ∨ ∀ j ∈ freeRefs c.sizeof c.dsz t', rank j < m) → Object c.env c.keyLt t' v →
        Object c.env c.keyLt t' (decode d c t' v data q).v := by
      intro t' v q hw' hf' hh hq1 hq2 hor hv
      rcases hor with h | h
      · refine ih c t' v data q R ha henv hfenv hlt hcc hL hw' hf' hq2 (fun j _ => hcc.below j) (Nat.le_refl _) ?_ hv
        have := budget_step (S := S) (R := R) (r' := data.length - q) (r := data.length - p) (by omega)
        omega
      · refine ih c t' v data q m ha henv hfenv hlt hcc hL hw' hf' hq2 h hm ?_ hv
        have := budget_mono (S := S) (R := R) (r' := data.length - q) (r := data.length - p) (by omega)
        omega
    have hfw : ∀ t' v q, widthsOk t' = true → q ≤ data.length → Fwd data.length q (decode d c t' v data q).p :=
      fun t' v q hw' hq => ⟨(decode_safe d c t' v data q henv hw' hq).mono, (decode_safe d c t' v data q henv hw' hq).inb⟩
    have hdf : ∀ t', formed t' = true → height t' < height t → Object c.env c.keyLt t' (dflt c d t') :=
      fun t' hf' hh => dflt_object hcc.nesting hL hfenv d t' L hf' (fun j _ => hL.below j) (by omega)
    cases t with
    | scalar k n =>
      have h := numDec_object (env := c.env) (lt := c.keyLt) (d := d + 1) (c := c) (t := .scalar k n) rfl old p hw hp
      simp only [decode] at h ⊢
      generalize getBytes data p n = r at *
      obtain ⟨s, bs, p'⟩ := r
      cases s <;> first | exact h rfl | exact ho
    | bool =>
      have h := numDec_object (env := c.env) (lt := c.keyLt) (d := d + 1) (c := c) (t := .bool) rfl old p hw hp
      simp only [decode] at h ⊢
      generalize getBytes data p 1 = r at *
      obtain ⟨s, bs, p'⟩ := r
      cases s <;> first | exact h rfl | exact ho
    | varint n zz => exact getVarint_keeps (intWidth_iff.mp hw) zz old hp ho
    | empty => exact .empty
    | struct ok fs =>
      simp only [decode]
      split
      · next hb =>
        obtain ⟨h1, h2⟩ := decRep_object (env := c.env) (lt := c.keyLt) ha hw hb (n := 1) (olds := [old]) hp rfl (by simpa using ho)
        generalize (decRep c (.struct ok fs) 1 [old] data p) = r at *
        obtain ⟨s, vs, q⟩ := r
        cases vs with
        | nil => simp at h1
        | cons v vs => exact h2 v (by simp)
      · refine .struct (decFields_object (lo := p) (m := m) (so := c.sizeof) (dsz := c.dsz) (rank := rank) fs _ p ?_ ?_ ?_
          (Nat.le_refl _) hp (.inr fun j hj => hfree j (by simpa [freeRefs] using hj)) ho.ofStruct)
        · intro t' ht v q hl hq hor hv
          refine hrec t' v q (widthsOkL_mem hw t' ht) (formedL_mem hfm t' ht) ?_ hl hq hor hv
          have := height_mem ht
          simp only [height]; omega
        · intro t' ht v q hq hok
          exact decode_least d c t' v data q ha henv (widthsOkL_mem hw t' ht) hq hok
        · intro t' ht v q hq
          exact hfw t' v q (widthsOkL_mem hw t' ht) hq
    | array n t' =>
      simp only [decode]
      rw [resizeVals_same ho.ofArray.1]
      split
      · next hb =>
        obtain ⟨h1, h2⟩ := decRep_object (t := t') ha hw hb hp ho.ofArray.1 ho.ofArray.2
        exact .array h1 h2
      · obtain ⟨h1, h2⟩ := decAll_object (P := Object c.env c.keyLt t') (lo := p)
          (fun v q hl hq hv => hrec t' v q hw hfm (by simp only [height]; omega) hl hq
            (.inr fun j hj => hfree j (by simpa [freeRefs] using hj)) hv)
          (fun v q hq => hfw t' v q hw hq) old.elems p (Nat.le_refl _) hp ho.ofArray.2
        exact .array (h1.trans ho.ofArray.1) h2
    | seq k sz t' =>
      have hh : height t' < height (.seq k sz t') := by simp only [height]; omega
      have hf' : formed t' = true := by simp only [formed, Bool.and_eq_true] at hfm; exact hfm.2
      have he : effSz c sz = sz.getD c.dsz := rfl
      simp only [decode]
      cases hsz : effSz c sz with
      | none =>
        exact seqUnsized_object (t := t') ha hw hfm (lo := p)
          (fun v q hl hq hv => hrec t' v q hw hf' hh hl hq (.inr fun j hj => hfree j (by
            simp only [freeRefs, ← he, hsz, prefixLeast, if_true]; exact hj)) hv)
          (fun v q hq => hfw t' v q hw hq) old p (Nat.le_refl _) hp ho
      | _ =>
        dsimp only
        have h1 := decHdr_n (c := c) (effSz c sz) hp
        have h2 := decHdr_least (c := c) (effSz c sz) hp
        rw [hsz] at h1 h2
        generalize decHdr c _ data p = r at *
        obtain ⟨s, n, p1⟩ := r
        cases s
        · refine seqFill_object (t := t') ha hw hfm (lo := p1) ?_ (fun v q hq => hfw t' v q hw hq) _ _ _ _ (Nat.le_refl _) h1.inb (hdf t' hf' hh) ho
          intro v q hl hq hv
          have h3 := h2 rfl
          dsimp only at h3
          refine hrec t' v q hw hf' hh (by omega) hq ?_ hv
          simp only [freeRefs, ← he, hsz] at hfree
          by_cases h0 : prefixLeast (effSz c sz) = 0
          · rw [hsz] at h0
            rw [if_pos h0] at hfree; exact .inr hfree
          · rw [hsz] at h0; exact .inl (by omega)
        all_goals exact ho
    | assoc mu hs sz key mapped =>
      have he : effSz c sz = sz.getD c.dsz := rfl
      simp only [decode]
      have h1 := decHdr_n (c := c) (effSz c sz) hp
      have h2 := decHdr_least (c := c) (effSz c sz) hp
      generalize decHdr c (effSz c sz) data p = r at *
      obtain ⟨s, n, p1⟩ := r
      cases s
      · have h3 := h2 rfl
        dsimp only at h3 h1 ⊢
        cases mapped with
        | none =>
          refine decAssoc_object (P := Object c.env c.keyLt key) (Q := fun vs => Object c.env c.keyLt (.assoc mu hs sz key none) (.list vs))
            (lo := p1) (len := data.length) ?_ ?_ (fun v vs hv hvs => assocInsert_set (hlt key) hv hvs) _ _ _ (Nat.le_refl _) h1.inb
            (.set (by simp) List.Pairwise.nil)
          · intro q hl hq
            refine hrec key _ q hw hfm (by simp only [height]; omega) (by omega) hq ?_ (hdf key hfm (by simp only [height]; omega))
            by_cases h0 : prefixLeast (effSz c sz) = 0
            · refine .inr fun j hj => hfree j ?_
              rw [he] at h0
              simp only [freeRefs, h0, if_true]; exact hj
            · exact .inl (by omega)
          · intro q hq
            exact hfw key _ q hw hq
        | some mp =>
          simp only [widthsOk, Bool.and_eq_true] at hw
          simp only [formed, Bool.and_eq_true] at hfm
          have hk : ∀ t', t' = key ∨ t' = mp → ∀ v q', p1 ≤ q' → q' ≤ data.length → Object c.env c.keyLt t' v →
              Object c.env c.keyLt t' (decode d c t' v data q').v := by
            intro t' ht v q' hq1 hq2 hv
            refine hrec t' v q' ?_ ?_ ?_ (by omega) hq2 ?_ hv
            · rcases ht with rfl | rfl
              · exact hw.1
              · exact hw.2
            · rcases ht with rfl | rfl
              · exact hfm.1
              · exact hfm.2
            · rcases ht with rfl | rfl <;> simp only [height] <;> omega
            · by_cases h0 : prefixLeast (effSz c sz) = 0
              · refine .inr fun j hj => hfree j ?_
                rw [he] at h0
                simp only [freeRefs, h0, if_true, List.mem_append]
                rcases ht with rfl | rfl
                · exact .inl hj
                · exact .inr hj
              · exact .inl (by omega)
          have hwk : ∀ t' ∈ [key, mp], widthsOk t' = true := by
            intro t' ht
            simp only [List.mem_cons, List.not_mem_nil, or_false] at ht
            rcases ht with rfl | rfl
            · exact hw.1
            · exact hw.2
          refine decAssoc_object (P := Object c.env c.keyLt (.struct false [key, mp]))
            (Q := fun vs => Object c.env c.keyLt (.assoc mu hs sz key (some mp)) (.list vs))
            (lo := p1) (len := data.length) ?_ ?_ (fun v vs hv hvs => assocInsert_map (hlt key) hv hvs) _ _ _ (Nat.le_refl _) h1.inb
            (.map (by simp) List.Pairwise.nil)
          · intro q hl hq
            refine .struct (decFields_object (lo := q) (m := 1) (so := c.sizeof) (dsz := c.dsz) (rank := fun _ => 0) [key, mp] _ q ?_ ?_ ?_
              (Nat.le_refl _) hq (.inr fun _ _ => Nat.one_pos) ?_)
            · intro t' ht v q' hl' hq' _ hv
              exact hk t' (by simpa using ht) v q' (Nat.le_trans hl hl') hq' hv
            · intro t' ht v q' hq' hok
              exact decode_least d c t' v data q' ha henv (hwk t' ht) hq' hok
            · intro t' ht v q' hq'
              exact hfw t' v q' (hwk t' ht) hq'
            · exact .cons (hdf key hfm.1 (by simp only [height]; omega)) (.cons (hdf mp hfm.2 (by simp only [height]; omega)) .nil)
          · intro q hq
            have := decFields_safe (len := data.length) (rec := fun t v p => decode d c t v data p) [key, mp] [dflt c d key, dflt c d mp] q
              (fun t' ht v q hq => decode_safe d c t' v data q henv (hwk t' ht) hq) hq
            exact ⟨this.mono, this.inb⟩
      all_goals exact ho
    | optional dc t' =>
      have hh : height t' < height (.optional dc t') := by simp only [height]; omega
      simp only [decode]
      have h1 := getBytes_n 1 hp
      have h0 := (getBytes_safe 1 hp).2
      generalize getBytes data p 1 = r at *
      obtain ⟨s, bs, p1⟩ := r
      cases s
      · have h0 := (h0 rfl).1
        dsimp only at h0 h1 ⊢
        split
        · exact .nullopt
        · have h2 := fun v => hrec t' v p1 hw hfm hh (by omega) h1.inb (.inl (by omega))
          cases dc
          · have h2 := h2 (dflt c d t') (hdf t' hfm hh)
            simp only [Bool.false_eq_true, if_false]
            generalize decode d c t' (dflt c d t') data p1 = r at *
            obtain ⟨s, v, p2⟩ := r
            cases s
            · exact .engaged h2
            all_goals exact ho
          · refine .engaged (h2 _ ?_)
            cases ho with
            | nullopt => exact hdf t' hfm hh
            | engaged h => exact h
      all_goals exact ho
    | optPtr t' =>
      have hh : height t' < height (.optPtr t') := by simp only [height]; omega
      simp only [decode]
      have h1 := getBytes_n 1 hp
      have h0 := (getBytes_safe 1 hp).2
      generalize getBytes data p 1 = r at *
      obtain ⟨s, bs, p1⟩ := r
      cases s
      · have h0 := (h0 rfl).1
        dsimp only at h0 h1 ⊢
        split
        · exact .nullPtr
        · have h2 := hrec t' (dflt c d t') p1 hw hfm hh (by omega) h1.inb (.inl (by omega)) (hdf t' hfm hh)
          generalize decode d c t' (dflt c d t') data p1 = r at *
          obtain ⟨s, v, p2⟩ := r
          cases s
          · exact .ptr h2
          all_goals exact ho
      all_goals exact ho
    | uptr t' =>
      have hh : height t' < height (.uptr t') := by simp only [height]; omega
      simp only [decode]
      have h2 := hrec t' (dflt c d t') p hw hfm hh (Nat.le_refl _) hp (.inr fun j hj => hfree j (by simpa [freeRefs] using hj)) (hdf t' hfm hh)
      generalize decode d c t' (dflt c d t') data p = r at *
      obtain ⟨s, v, p2⟩ := r
      cases s
      · exact .owner h2
      all_goals exact ho
    | variant idTy ids dcs alts =>
      simp only [widthsOk, Bool.and_eq_true] at hw
      have hfm' := hfm
      simp only [formed, Bool.and_eq_true] at hfm'
      simp only [decode]
      have h1 := decode_safe d c idTy (dflt c d idTy) data p henv hw.1 hp
      have h0 := decode_least d c idTy (dflt c d idTy) data p ha henv hw.1 hp
      generalize decode d c idTy (dflt c d idTy) data p = r at *
      obtain ⟨s, id, p1⟩ := r
      cases s
      · have h0 := h0 rfl
        dsimp only at h0 h1 ⊢
        split
        · exact ho
        · split
          · next i _ _ _ t' dc ht _ =>
            have hmem := List.mem_of_getElem? ht
            have hh : height t' < height (.variant idTy ids dcs alts) := by
              have := height_mem hmem
              simp only [height]; omega
            have h2 := fun v => hrec t' v p1 (widthsOkL_mem hw.2 t' hmem) (formedL_mem hfm'.2 t' hmem) hh (by omega) h1.inb (by
              by_cases hz : leastBytes c.sizeof c.dsz idTy = 0
              · exact .inr fun j hj => hfree j (by simp [freeRefs, hz, freeRefs_any hmem hj])
              · exact .inl (by omega))
            have hdv := hdf t' (formedL_mem hfm'.2 t' hmem) hh
            unfold decAlt
            cases dc
            · simp only [Bool.false_eq_true, if_false]
              have h2 := h2 _ hdv
              generalize decode d c t' (dflt c d t') data p1 = r at *
              obtain ⟨s, v, p2⟩ := r
              cases s
              · exact .variant ht h2
              all_goals exact ho
            · simp only [if_true]
              refine .variant ht (h2 _ ?_)
              cases ho with
              | variant hi hv =>
                dsimp only
                split
                · next hij =>
                  subst hij
                  rw [ht] at hi
                  cases hi
                  exact hv
                · exact hdv
          · exact ho
      all_goals exact ho
    | bitset n =>
      simp only [decode]
      generalize getBytes data p ((n + 7) / 8) = r at *
      obtain ⟨s, bs, p1⟩ := r
      cases s
      · exact .bitset (by simp [readBits])
      all_goals exact ho
    | msg sz ok maps nums fs =>
      have hrun : ∀ size q, p ≤ q → q ≤ data.length → Object c.env c.keyLt (.msg sz ok maps nums fs)
          (msgRun (pbCfg c) (decode d (pbCfg c)) (dflt (pbCfg c) d) maps nums fs old data size q).v := by
        intro size q hpq hq
        have hbud : ∀ (t : Ty) (sub : List UInt8) q', height t ≤ heightL fs → 1 ≤ q' → q' ≤ sub.length → sub.length ≤ data.length - q →
            height t + (S + 1) * R + budget S R (sub.length - q') + (S + 1) * L ≤ d := by
          intro t sub q' hh h1 hq' hsub
          have := budget_step (S := S) (R := R) (r' := sub.length - q') (r := data.length - p) (by omega)
          simp only [height] at hd
          omega
        have h := msgRun_object (env := c.env) (c' := pbCfg c) hlt (fresh := dflt (pbCfg c) d) (maps := maps) (nums := nums) (fs := fs)
          (old := old) (data := data) (rec := decode d (pbCfg c)) size q (heightL fs) hq (widthsOkL_mem hw) (formedL_mem hfm) (Nat.le_refl _)
          (fun t v sub q' hw' hh h1 hq' hsub =>
            decode_n d (pbCfg c) t v sub q' R ha henv (cyclesCost_pb hcc) hw' hq' (fun j _ => hcc.below j) (Nat.le_refl _) (by
              have := hbud t sub q' hh h1 hq' hsub; omega))
          (fun t v sub q' hw' hf' hh h1 hq' hsub hv =>
            ih (pbCfg c) t v sub q' R ha henv hfenv hlt (cyclesCost_pb hcc) hL hw' hf' hq' (fun j _ => hcc.below j) (Nat.le_refl _)
              (hbud t sub q' hh h1 hq' hsub) hv)
          (fun t v sub q' hw' hq' => ⟨(decode_safe d (pbCfg c) t v sub q' henv hw' hq').mono, (decode_safe d (pbCfg c) t v sub q' henv hw' hq').inb⟩)
          (fun t hf' hh => dflt_object (c := pbCfg c) hcc.nesting hL hfenv d t L hf' (fun j _ => hL.below j) (by
            simp only [height] at hd; omega))
          (fun t hw hn v sub q hq hok => numDec_object hn v q hw hq hok)
          (fun t hw hn sub => numDec_safe (d := d) hw hn) ho.ofMsg
        have hl : (msgRun (pbCfg c) (decode d (pbCfg c)) (dflt (pbCfg c) d) maps nums fs old data size q).v = .list
            (msgRun (pbCfg c) (decode d (pbCfg c)) (dflt (pbCfg c) d) maps nums fs old data size q).v.elems := by
          unfold msgRun
          rw [if_neg (by omega)]
          rfl
        rw [hl]
        exact .msg h
      simp only [decode]
      split
      · exact hrun _ _ (Nat.le_refl _) hp
      · have h1 := decHdr_n (c := c) (effSz c sz) hp
        generalize decHdr c (effSz c sz) data p = r at *
        obtain ⟨s, n, p1⟩ := r
        cases s
        · exact hrun _ _ h1.mono h1.inb
        all_goals exact ho
    | ref i =>
      have hi : rank i < m := hfree i (by simp [freeRefs])
      cases ho with
      | ref ho =>
        refine .ref (ih c (c.env i) old data p (rank i) ha henv hfenv hlt hcc hL (henv i) (hfenv i) hp (hcc.outside i)
          (Nat.le_of_lt (hcc.below i)) ?_ ho)
        have h1 := hcc.nesting i
        have h2 : (S + 1) * (rank i + 1) ≤ (S + 1) * m := Nat.mul_le_mul_left _ hi
        rw [Nat.mul_add, Nat.mul_one] at h2
        simp only [height] at hd
        omega

end Zpp
