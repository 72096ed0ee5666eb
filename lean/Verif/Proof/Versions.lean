import Verif.Spec.Versions
import Verif.Proof.InRoundMain
/-! # Variants that get new alternatives -/

namespace Zpp
open Spec

/-- The format of the program with the class definitions `W`. -/
def fmtW (f : Fmt) (W : Nat → Ty) : Fmt := { f with env := W }

theorem wireNum_fmtW (f : Fmt) (W : Nat → Ty) (t : Ty) (x : Nat) : wireNum (fmtW f W) t x = wireNum f t x := by
  cases t <;> rfl

theorem wireNums_fmtW (f : Fmt) (W : Nat → Ty) (t : Ty) : ∀ vs, wireNums (fmtW f W) t vs = wireNums f t vs
  | [] => rfl
  | v :: vs => by
    cases v <;> simp only [wireNums]
    rw [wireNums_fmtW f W t vs, wireNum_fmtW]

theorem wireId_fmtW (f : Fmt) (W : Nat → Ty) (t : Ty) (v : Val) : wireId (fmtW f W) t v = wireId f t v := by
  cases t <;> cases v <;> simp only [wireId, wireNum_fmtW, wireNums_fmtW]

theorem sizePrefix_fmtW (f : Fmt) (W : Nat → Ty) (sz : SizeTy) (n : Nat) : sizePrefix (fmtW f W) sz n = sizePrefix f sz n := rfl

theorem Spec.OlderAll.length {ts ts' : List Ty} (h : OlderAll ts ts') : ts.length = ts'.length := by
  induction ts generalizing ts' with
  | nil => cases h; rfl
  | cons t ts ih => cases h with | cons _ h => simp [ih h]

theorem Spec.OlderAll.get {ts ts' : List Ty} (h : OlderAll ts ts') {i : Nat} {t t' : Ty} (ht : ts[i]? = some t) (ht' : ts'[i]? = some t') :
    Older t t' := by
  induction ts generalizing ts' i with
  | nil => simp at ht
  | cons a ts ih =>
    cases h with
    | cons h1 h2 =>
      cases i with
      | zero => simp at ht ht'; subst ht; subst ht'; exact h1
      | succ i => exact ih h2 (by simpa using ht) (by simpa using ht')

/-! ## Objects of the old program have the same encoding in the new one -/

theorem older_fields {f : Fmt} {W : Nat → Ty} : ∀ {ts ts' : List Ty} {vs : List Val} {bs : List UInt8}, OlderAll ts ts' →
    wireFields f ts vs = some bs →
    (∀ t t' v b, v ∈ vs → Older t t' → wire f t v = some b → wire (fmtW f W) t' v = some b) →
    wireFields (fmtW f W) ts' vs = some bs
  | [], _, [], _, .nil, h, _ => by simpa [wireFields] using h
  | [], _, _ :: _, _, .nil, h, _ => by simp [wireFields] at h
  | _ :: _, _, [], _, .cons _ _, h, _ => by simp [wireFields] at h
  | t :: ts, _, v :: vs, _, .cons h1 h2, h, ih => by
    simp only [wireFields, cat_eq_some] at h ⊢
    obtain ⟨x, y, hx, hy, rfl⟩ := h
    exact ⟨x, y, ih _ _ v x (by simp) h1 hx, older_fields h2 hy (fun t t' v b hv => ih t t' v b (by simp [hv])), rfl⟩

theorem older_elems {f : Fmt} {W : Nat → Ty} {t t' : Ty} : ∀ {vs : List Val} {bs : List UInt8},
    wireAll f t vs = some bs → (∀ v b, v ∈ vs → wire f t v = some b → wire (fmtW f W) t' v = some b) →
    wireAll (fmtW f W) t' vs = some bs
  | [], _, h, _ => by simpa [wireAll] using h
  | v :: vs, _, h, ih => by
    simp only [wireAll, cat_eq_some] at h ⊢
    obtain ⟨x, y, hx, hy, rfl⟩ := h
    exact ⟨x, y, ih v x (by simp) hx, older_elems hy (fun v b hv => ih v b (by simp [hv])), rfl⟩

theorem older_wire {f : Fmt} {W : Nat → Ty} (hW : ∀ i, Older (f.env i) (W i)) : ∀ (n : Nat) (t t' : Ty) (v : Val) (bs : List UInt8),
    depth v ≤ n → Older t t' → wire f t v = some bs → wire (fmtW f W) t' v = some bs := by
  intro n
  induction n with
  | zero => intro t t' v bs hn; have := depth_pos v; omega
  | succ n ih =>
    intro t t' v bs hn h hw
    have sub : ∀ vs, v = .list vs → ∀ t t' w b, w ∈ vs → Older t t' → wire f t w = some b → wire (fmtW f W) t' w = some b := by
      rintro vs rfl t t' w b hm ho hb
      have := depth_mem hm
      simp only [depth] at hn
      exact ih t t' w b (by omega) ho hb
    cases h with
    | scalar k m => cases v <;> simp only [wire, wireNum_fmtW] at hw ⊢ <;> exact hw
    | bool => cases v <;> simp only [wire, wireNum_fmtW] at hw ⊢ <;> exact hw
    | varint m zz => cases v <;> simp only [wire, wireNum_fmtW] at hw ⊢ <;> exact hw
    | empty => cases v <;> simp only [wire, wireNum_fmtW] at hw ⊢ <;> exact hw
    | bitset m => cases v <;> simp only [wire, wireNum_fmtW] at hw ⊢ <;> exact hw
    | struct ok ok' h =>
      cases v <;> simp only [wire, wireNum] at hw ⊢ <;> first | cases hw | skip
      exact older_fields h hw (sub _ rfl)
    | array m h =>
      cases v <;> simp only [wire, wireNum] at hw ⊢ <;> first | cases hw | skip
      split at hw
      · next hl => rw [if_pos hl]; exact older_elems hw (fun v b hv => sub _ rfl _ _ v b hv h)
      · cases hw
    | seq k sz h =>
      cases v <;> simp only [wire, wireNum] at hw ⊢ <;> first | cases hw | skip
      rw [cat_eq_some] at hw ⊢
      obtain ⟨x, y, hx, hy, rfl⟩ := hw
      exact ⟨x, y, hx, older_elems hy (fun v b hv => sub _ rfl _ _ v b hv h), rfl⟩
    | set mu ha sz h =>
      cases v <;> simp only [wire, wireNum] at hw ⊢ <;> first | cases hw | skip
      rw [cat_eq_some] at hw ⊢
      obtain ⟨x, y, hx, hy, rfl⟩ := hw
      exact ⟨x, y, hx, older_elems hy (fun v b hv => sub _ rfl _ _ v b hv h), rfl⟩
    | map mu ha sz h1 h2 =>
      cases v <;> simp only [wire, wireNum] at hw ⊢ <;> first | cases hw | skip
      rw [cat_eq_some] at hw ⊢
      obtain ⟨x, y, hx, hy, rfl⟩ := hw
      exact ⟨x, y, hx, older_elems hy (fun v b hv => sub _ rfl _ _ v b hv (.struct _ _ (.cons h1 (.cons h2 .nil)))), rfl⟩
    | optional dc dc' h =>
      cases v <;> simp only [wire, wireNum] at hw ⊢ <;> first | cases hw | skip
      · rfl
      · rw [cat_eq_some] at hw ⊢
        obtain ⟨x, y, hx, hy, rfl⟩ := hw
        exact ⟨x, y, hx, ih _ _ _ _ (by simp only [depth] at hn; omega) h hy, rfl⟩
    | optPtr h =>
      cases v <;> simp only [wire, wireNum] at hw ⊢ <;> first | cases hw | skip
      · rfl
      · rw [cat_eq_some] at hw ⊢
        obtain ⟨x, y, hx, hy, rfl⟩ := hw
        exact ⟨x, y, hx, ih _ _ _ _ (by simp only [depth] at hn; omega) h hy, rfl⟩
    | uptr h =>
      cases v <;> simp only [wire, wireNum] at hw ⊢ <;> first | cases hw | skip
      exact ih _ _ _ _ (by simp only [depth] at hn; omega) h hw
    | variant idTy dcs dcs' added h hl hnew =>
      cases v <;> simp only [wire, wireNum] at hw ⊢ <;> first | cases hw | skip
      split at hw
      · next id t hi ht =>
        rw [cat_eq_some] at hw
        obtain ⟨x, y, hx, hy, rfl⟩ := hw
        have hlt := (List.getElem?_eq_some_iff.mp ht).1
        have hle := h.length
        have ht'' := List.getElem?_eq_getElem (Nat.lt_of_lt_of_eq hlt hle)
        rw [List.getElem?_append_left (by omega), hi, List.getElem?_append_left (by omega), ht'']
        simp only
        rw [cat_eq_some]
        exact ⟨x, y, by rw [wireId_fmtW]; exact hx, ih _ _ _ _ (by simp only [depth] at hn; omega) (h.get ht ht'') hy, rfl⟩
      · cases hw
    | ref i =>
      cases v <;> simp only [wire, wireNum] at hw ⊢ <;> first | cases hw | skip
      have ho := hW i
      have e : (fmtW f W).env i = W i := rfl
      rw [e]
      generalize f.env i = a at hw ho
      generalize W i = b at ho
      cases ho <;> simp only at hw ⊢ <;> first | cases hw | skip
      next h => exact older_fields h hw (sub _ rfl)

/-! ## Types that are copied as bytes have no variants -/

mutual
theorem older_plain {f : Fmt} {W : Nat → Ty} {so : Ty → Nat} : ∀ (t : Ty) {t' : Ty} (v : Val), Older t t' → t.byteSer so = true →
    wire (fmtW f W) t' v = wire f t v
  | .scalar _ _, _, v, .scalar _ _, _ => by cases v <;> simp only [wire, wireNum_fmtW]
  | .bool, _, v, .bool, _ => by cases v <;> simp only [wire, wireNum_fmtW]
  | .empty, _, v, .empty, _ => by cases v <;> simp only [wire, wireNum_fmtW]
  | .array n t, _, v, .array (t' := t') _ h, hb => by
    simp only [Ty.byteSer] at hb
    have hall : ∀ vs, wireAll (fmtW f W) t' vs = wireAll f t vs := by
      intro vs
      induction vs with
      | nil => rfl
      | cons v vs ih => simp only [wireAll, ih, older_plain t v h hb]
    cases v <;> simp only [wire, wireNum, hall]
  | .struct ok ts, _, v, .struct _ _ h, hb => by
    simp only [Ty.byteSer, Bool.and_eq_true] at hb
    cases v <;> simp only [wire, wireNum]
    exact older_plains ts _ h hb.1.1.2
theorem older_plains {f : Fmt} {W : Nat → Ty} {so : Ty → Nat} : ∀ (ts : List Ty) {ts' : List Ty} (vs : List Val), OlderAll ts ts' →
    Ty.byteSerAll so ts = true → wireFields (fmtW f W) ts' vs = wireFields f ts vs
  | [], _, vs, .nil, _ => by cases vs <;> simp only [wireFields]
  | t :: ts, _, vs, .cons h1 h2, hb => by
    simp only [Ty.byteSerAll, Bool.and_eq_true] at hb
    cases vs with
    | nil => simp only [wireFields]
    | cons v vs => simp only [wireFields, older_plain t v h1 hb.1, older_plains ts vs h2 hb.2]
end

theorem older_plainAll {f : Fmt} {W : Nat → Ty} {so : Ty → Nat} {t t' : Ty} (h : Older t t') (hb : t.byteSer so = true) (vs : List Val) :
    wireAll (fmtW f W) t' vs = wireAll f t vs := by
  induction vs with
  | nil => rfl
  | cons v vs ih => simp only [wireAll, ih, older_plain t v h hb]

/-! ## Reading with the old program -/

/-- Reading fails with `bad_message` wherever the bytes `bs` stand. -/
def Bad (data : List UInt8) (r : Nat → Res) (bs : List UInt8) : Prop :=
  ∀ p rest, p ≤ data.length → data.drop p = bs ++ rest → (r p).s = .err .badMessage

/-- `Bad` for lists of objects. -/
def BadL (data : List UInt8) (r : Nat → ResL) (bs : List UInt8) : Prop :=
  ∀ p rest, p ≤ data.length → data.drop p = bs ++ rest → (r p).s = .err .badMessage

/-- What reading an object `v` written by the new program does: it is read, or the outcome is `bad_message`. -/
def Either (data : List UInt8) (f : Fmt) (rec : Val → Nat → Res) (t : Ty) (v : Val) (b : List UInt8) : Prop :=
  (wire f t v = some b ∧ ∀ old, Rd data (rec old) b v) ∨ ∀ old, Bad data (rec old) b

theorem either_all {data : List UInt8} {f fw : Fmt} {rec : Val → Nat → Res} {t t' : Ty} : ∀ (vs olds : List Val) (bs : List UInt8),
    wireAll fw t' vs = some bs → olds.length = vs.length →
    (∀ v ∈ vs, ∀ b, wire fw t' v = some b → Either data f rec t v b) →
    wireAll f t vs = some bs ∨ BadL data (decAll rec olds) bs
  | [], _, _, h, _, _ => .inl (by simpa [wireAll] using h)
  | v :: vs, [], _, _, hl, _ => by simp at hl
  | v :: vs, o :: os, _, h, hl, hr => by
    simp only [wireAll, cat_eq_some] at h
    obtain ⟨x, y, hx, hy, rfl⟩ := h
    rcases hr v (by simp) x hx with ⟨h1, h2⟩ | h1
    · rcases either_all vs os y hy (by simpa using hl) (fun v hv => hr v (by simp [hv])) with h3 | h3
      · left
        simp only [wireAll, cat_eq_some]
        exact ⟨x, y, h1, h3, rfl⟩
      · right
        intro p rest hp hd
        rw [List.append_assoc] at hd
        have s1 := drop_split hp hd
        simp only [decAll, h2 o p _ hp hd, h3 _ rest s1.1 s1.2]
    · right
      intro p rest hp hd
      rw [List.append_assoc] at hd
      have := h1 o p _ hp hd
      simp only [decAll]
      generalize rec o p = r at this
      obtain ⟨s, v, p'⟩ := r
      simp only at this
      subst this
      rfl

theorem either_fields {data : List UInt8} {f fw : Fmt} {c : Cfg} {rec : Ty → Val → Nat → Res} : ∀ (ts ts' : List Ty) (vs olds : List Val)
    (bs : List UInt8), OlderAll ts ts' → wireFields fw ts' vs = some bs → LoadableF c ts vs →
    (∀ t ∈ ts, ∀ t', Older t t' → ∀ v ∈ vs, ∀ b, wire fw t' v = some b → Loadable c t v → Either data f (rec t) t v b) →
    wireFields f ts vs = some bs ∨ BadL data (decFields rec ts olds) bs
  | [], _, [], _, _, .nil, h, _, _ => .inl (by simpa [wireFields] using h)
  | [], _, _ :: _, _, _, .nil, h, _, _ => by simp [wireFields] at h
  | _ :: _, _, [], _, _, .cons _ _, h, _, _ => by simp [wireFields] at h
  | t :: ts, _, v :: vs, olds, _, .cons (t' := t') (ts' := ts') o1 o2, h, hl, hr => by
    simp only [wireFields, cat_eq_some] at h
    obtain ⟨x, y, hx, hy, rfl⟩ := h
    simp only [LoadableF] at hl
    rcases hr t (by simp) t' o1 v (by simp) x hx hl.1 with ⟨h1, h2⟩ | h1
    · rcases either_fields ts ts' vs olds.tail y o2 hy hl.2 (fun t ht t' o v hv => hr t (by simp [ht]) t' o v (by simp [hv])) with h3 | h3
      · left
        simp only [wireFields, cat_eq_some]
        exact ⟨x, y, h1, h3, rfl⟩
      · right
        intro p rest hp hd
        rw [List.append_assoc] at hd
        have s1 := drop_split hp hd
        simp only [decFields, h2 _ p _ hp hd, h3 _ rest s1.1 s1.2]
    · right
      intro p rest hp hd
      rw [List.append_assoc] at hd
      have := h1 (olds.headD .unit) p _ hp hd
      simp only [decFields]
      generalize rec t (olds.headD .unit) p = r at this
      obtain ⟨s, v, p'⟩ := r
      simp only at this
      subst this
      rfl

theorem either_assoc {data : List UInt8} {f fw : Fmt} {elem : Nat → Res} {ins : Val → List Val → List Val} {t t' : Ty} :
    ∀ (vs : List Val) (bs : List UInt8), wireAll fw t' vs = some bs →
    (∀ v ∈ vs, ∀ b, wire fw t' v = some b → (wire f t v = some b ∧ Rd data elem b v) ∨ Bad data elem b) →
    wireAll f t vs = some bs ∨ ∀ acc, BadL data (decAssoc elem ins vs.length acc) bs
  | [], _, h, _ => .inl (by simpa [wireAll] using h)
  | v :: vs, _, h, hr => by
    simp only [wireAll, cat_eq_some] at h
    obtain ⟨x, y, hx, hy, rfl⟩ := h
    rcases hr v (by simp) x hx with ⟨h1, h2⟩ | h1
    · rcases either_assoc (ins := ins) vs y hy (fun v hv => hr v (by simp [hv])) with h3 | h3
      · left
        simp only [wireAll, cat_eq_some]
        exact ⟨x, y, h1, h3, rfl⟩
      · right
        intro acc p rest hp hd
        rw [List.append_assoc] at hd
        have s1 := drop_split hp hd
        simp only [List.length_cons, decAssoc, h2 p _ hp hd, h3 _ _ rest s1.1 s1.2]
    · right
      intro acc p rest hp hd
      rw [List.append_assoc] at hd
      have := h1 p _ hp hd
      simp only [List.length_cons, decAssoc]
      generalize elem p = r at this
      obtain ⟨s, v, p'⟩ := r
      simp only at this
      subst this
      rfl

theorem findId_none {id : Val} : ∀ {ids : List Val} (k : Nat), id ∉ ids → findId id ids k = none
  | [], _, _ => rfl
  | x :: xs, k, h => by
    simp only [List.mem_cons, not_or] at h
    simp only [findId, if_neg (Ne.symm h.1), findId_none (k + 1) h.2]


/-- An object written by the new program is read by the old one, or the outcome is `bad_message`. -/
theorem older_read {W : Nat → Ty} (d : Nat) : ∀ (c : Cfg), AbiOk c.sizeof → EnvGood c → (∀ i, Older (c.env i) (W i)) →
    ∀ data : List UInt8, data.length < 2 ^ 64 → ∀ (t t' : Ty) (v : Val) (bs : List UInt8), Older t t' → Good c t = true →
    wire (fmtW (fmtOf c) W) t' v = some bs → Loadable c t v → 2 * depth v ≤ (if t.isRef then d else d + 1) →
    Either data (fmtOf c) (fun o p => decode d c t o data p) t v bs := by
  induction d with
  | zero =>
    intro c _ _ _ data _ t t' v bs _ _ _ _ hd
    have := depth_pos v
    split at hd <;> omega
  | succ d ih =>
    intro c ha he hW data hlen t t' v bs ho gt hw hld hd
    -- it is enough to show that the object has the same encoding in the old program
    suffices h : wire (fmtOf c) t v = some bs ∨ ∀ old, Bad data (fun p => decode (d + 1) c t old data p) bs by
      rcases h with h | h
      · exact .inl ⟨h, (decode_round (d + 1) c ha he).1 data hlen t v bs gt h hld hd⟩
      · exact .inr h
    have hrec := ih c ha he hW data hlen
    have sub : ∀ vs, v = .list vs → t.isRef = false → ∀ t t', Older t t' → Good c t = true → ∀ w ∈ vs, ∀ b,
        wire (fmtW (fmtOf c) W) t' w = some b → Loadable c t w → Either data (fmtOf c) (fun o p => decode d c t o data p) t w b := by
      rintro vs rfl hr t t' ho gt w hm b hb hl
      have := depth_mem hm
      simp only [hr, depth, Bool.false_eq_true, if_false] at hd
      exact hrec t t' w b ho gt hb hl (by split <;> omega)
    cases ho with
    | scalar k m => left; rw [← hw]; cases v <;> simp only [wire, wireNum_fmtW]
    | bool => left; rw [← hw]; cases v <;> simp only [wire, wireNum_fmtW]
    | varint m zz => left; rw [← hw]; cases v <;> simp only [wire, wireNum_fmtW]
    | empty => left; rw [← hw]; cases v <;> simp only [wire, wireNum_fmtW]
    | bitset m => left; rw [← hw]; cases v <;> simp only [wire, wireNum_fmtW]
    | struct ok ok' h =>
      next ts ts' =>
      by_cases hab : asBytes c (.struct ok ts) = true
      · left; rw [← hw]; exact (older_plain _ _ (.struct ok ok' h) (asBytes_byteSer hab)).symm
      · cases v <;> simp only [wire, wireNum] at hw <;> first | cases hw | skip
        next vs =>
        simp only [Loadable] at hld
        have gl : GoodL c ts = true := by simp only [Good, Bool.and_eq_true] at gt; exact gt.2
        simp only [wire]
        have key := fun olds => either_fields (data := data) (f := fmtOf c) (rec := fun t v p => decode d c t v data p) ts ts' vs olds bs h hw hld
          (fun t ht t' o v hv b hb hl => sub vs rfl rfl t t' o (GoodL_mem gl t ht) v hv b hb hl)
        by_cases hg : wireFields (fmtOf c) ts vs = some bs
        · exact .inl hg
        · right
          intro old p rest hp hdr
          have := ((key old.elems).resolve_left hg) p rest hp hdr
          show (decode (d + 1) c _ old data p).s = _
          rw [decode, if_neg hab]
          exact this
    | array m h =>
      next t t' =>
      cases v <;> simp only [wire, wireNum] at hw <;> first | cases hw | skip
      next vs =>
      split at hw
      · next hn =>
        have g2 : Good c t = true := by simp only [Good, Bool.and_eq_true] at gt; exact gt.2
        simp only [Loadable] at hld
        simp only [wire, if_pos hn]
        by_cases hab : asBytes c t = true
        · left
          rw [← hw, older_plainAll h (asBytes_byteSer hab)]
        · have key := fun olds hl => either_all (data := data) (f := fmtOf c) (rec := fun v p => decode d c t v data p) vs olds bs hw hl
            (fun v hv b hb => sub vs rfl rfl t t' h g2 v hv b hb (LoadableL_mem hld v hv))
          by_cases hg : wireAll (fmtOf c) t vs = some bs
          · exact .inl hg
          · right
            intro old p rest hp hdr
            have := ((key (resizeVals old.elems m .unit) (by simp [hn])).resolve_left hg) p rest hp hdr
            show (decode (d + 1) c _ old data p).s = _
            rw [decode, if_neg hab]
            exact this
      · cases hw
    | seq k sz h =>
      next t t' =>
      cases v <;> simp only [wire, wireNum] at hw <;> first | cases hw | skip
      next vs =>
      rw [cat_eq_some] at hw
      obtain ⟨x, y, hx, hy, rfl⟩ := hw
      have hx : sizePrefix (fmtOf c) (effSz c sz) vs.length = some x := hx
      have g2 : Good c t = true := by simp only [Good, Bool.and_eq_true] at gt; exact gt.2
      simp only [Good, nodeOk, Bool.and_eq_true] at gt
      simp only [Loadable] at hld
      obtain ⟨l1, l2, l3, l4⟩ := hld
      have hne : effSz c sz ≠ .none := l2
      simp only [wire]
      by_cases hg : wireAll (fmtOf c) t vs = some y
      · left; rw [cat_eq_some]; exact ⟨x, y, hx, hg, rfl⟩
      right
      have hab : ¬ asBytes c t = true := by
        intro hab
        apply hg
        rw [← hy, older_plainAll h (asBytes_byteSer hab)]
      have hk1 : k ≠ .view := by
        rintro rfl
        have := byteTy_facts (t := t) (by simpa using gt.1.2)
        exact hab (by simp [asBytes, this.1])
      intro old p rest hp hdr
      rw [List.append_assoc] at hdr
      have s1 := drop_split hp hdr
      obtain ⟨f1, f2⟩ := l3 hk1
      have key := (either_all (data := data) (f := fmtOf c) (rec := fun v p => decode d c t v data p) vs
        (resizeVals old.elems vs.length (dflt c d t)) y hy (by simp)
        (fun v hv b hb => sub vs rfl rfl t t' h g2 v hv b hb (LoadableL_mem l4 v hv))).resolve_left hg _ rest s1.1 s1.2
      show (decode (d + 1) c (.seq k sz t) old data p).s = _
      rw [decode_seq hne, decHdr_rd hne hx hp hdr]
      have e : seqFill c k t (fun v p => decode d c t v data p) (dflt c d t) old data vs.length (p + x.length) =
            (if c.g.limit ≠ sizeMax ∧ c.g.limit / c.sizeof t < vs.length then ⟨.err .messageSize, old, p + x.length⟩
            else if c.g.maxMem < vs.length * c.sizeof t then ⟨.badAlloc, old, p + x.length⟩
            else seqBody c k t (fun v p => decode d c t v data p) (resizeVals old.elems vs.length (dflt c d t)) data (p + x.length)) := by
        unfold seqFill
        cases k <;> first | rfl | exact absurd rfl hk1 | exact absurd rfl l1
      simp only
      rw [e, if_neg (by intro ⟨a1, a2⟩; rcases f1 with h | h <;> first | exact a1 h | omega), if_neg (by omega)]
      unfold seqBody
      rw [if_neg (by intro h; exact hab h.2)]
      exact key
    | set mu ha' sz h =>
      next t t' =>
      cases v <;> simp only [wire, wireNum] at hw <;> first | cases hw | skip
      next vs =>
      rw [cat_eq_some] at hw
      obtain ⟨x, y, hx, hy, rfl⟩ := hw
      have hx : sizePrefix (fmtOf c) (effSz c sz) vs.length = some x := hx
      have g2 : Good c t = true := by simpa only [Good] using gt
      simp only [Loadable] at hld
      obtain ⟨l1, l2, l3⟩ := hld
      have hne : effSz c sz ≠ .none := l1
      simp only [wire]
      rcases either_assoc (data := data) (f := fmtOf c) (t := t) (elem := fun p => decode d c t (dflt c d t) data p)
        (ins := assocInsert (c.keyLt t) mu ha' false) vs y hy (fun v hv b hb => by
          rcases sub vs rfl rfl t t' h g2 v hv b hb (LoadableL_mem l3 v hv) with ⟨h1, h2⟩ | h1
          · exact .inl ⟨h1, h2 _⟩
          · exact .inr (h1 _)) with hg | hg
      · left; rw [cat_eq_some]; exact ⟨x, y, hx, hg, rfl⟩
      · right
        intro old p rest hp hdr
        rw [List.append_assoc] at hdr
        have s1 := drop_split hp hdr
        show (decode (d + 1) c _ old data p).s = _
        rw [decode, decHdr_rd hne hx hp hdr]
        exact hg [] _ rest s1.1 s1.2
    | map mu ha' sz h1 h2 =>
      next k k' t t' =>
      cases v <;> simp only [wire, wireNum] at hw <;> first | cases hw | skip
      next vs =>
      rw [cat_eq_some] at hw
      obtain ⟨x, y, hx, hy, rfl⟩ := hw
      have hx : sizePrefix (fmtOf c) (effSz c sz) vs.length = some x := hx
      simp only [Good, Bool.and_eq_true] at gt
      simp only [Loadable] at hld
      obtain ⟨l1, l2, l3⟩ := hld
      have hne : effSz c sz ≠ .none := l1
      simp only [wire]
      rcases either_assoc (data := data) (f := fmtOf c) (t := .struct false [k, t])
        (elem := fun p => (decFields (fun t v p => decode d c t v data p) [k, t] [dflt c d k, dflt c d t] p).toRes)
        (ins := assocInsert (c.keyLt k) mu ha' true) vs y hy (fun e hv b hb => by
          have hl2 := LoadableL_mem l3 e hv
          cases e <;> simp only [wire, wireNum] at hb <;> first | cases hb | skip
          next es =>
          simp only [Loadable] at hl2
          have hrec' : ∀ t₁ ∈ [k, t], ∀ t₁', Older t₁ t₁' → ∀ v ∈ es, ∀ b, wire (fmtW (fmtOf c) W) t₁' v = some b → Loadable c t₁ v →
              Either data (fmtOf c) (fun o p => decode d c t₁ o data p) t₁ v b := by
            intro t₁ ht t₁' o v' hv' b' hb' hl'
            have g1 : Good c t₁ = true := by
              simp only [List.mem_cons, List.not_mem_nil, or_false] at ht
              rcases ht with rfl | rfl
              · exact gt.1
              · exact gt.2
            have h1 := depth_mem hv
            have h2 := depth_mem hv'
            simp only [depth] at h1
            simp only [Ty.isRef, depth, Bool.false_eq_true, if_false] at hd
            exact hrec t₁ t₁' v' b' o g1 hb' hl' (by split <;> omega)
          rcases either_fields (data := data) (f := fmtOf c) (rec := fun t v p => decode d c t v data p) [k, t] [k', t'] es
            [dflt c d k, dflt c d t] b (.cons h1 (.cons h2 .nil)) hb hl2 hrec' with hg | hg
          · left
            refine ⟨by simp only [wire]; exact hg, RdL.toRes (decFields_rd (c := c) [k, t] es _ b hg hl2 ?_)⟩
            intro t₁ ht v' hv' b' hb' hl' o
            have g1 : Good c t₁ = true := by
              simp only [List.mem_cons, List.not_mem_nil, or_false] at ht
              rcases ht with rfl | rfl
              · exact gt.1
              · exact gt.2
            have h1 := depth_mem hv
            have h2 := depth_mem hv'
            simp only [depth] at h1
            simp only [Ty.isRef, depth, Bool.false_eq_true, if_false] at hd
            exact (decode_round d c ha he).1 data hlen t₁ v' b' g1 hb' hl' (by split <;> omega) o
          · right
            intro p rest hp hdr
            exact hg p rest hp hdr) with hg | hg
      · left; rw [cat_eq_some]; exact ⟨x, y, hx, hg, rfl⟩
      · right
        intro old p rest hp hdr
        rw [List.append_assoc] at hdr
        have s1 := drop_split hp hdr
        show (decode (d + 1) c _ old data p).s = _
        rw [decode, decHdr_rd hne hx hp hdr]
        exact hg [] _ rest s1.1 s1.2
    | optional dc dc' h =>
      next t t' =>
      cases v <;> simp only [wire, wireNum] at hw <;> first | cases hw | skip
      · left; rfl
      · next w =>
        rw [cat_eq_some] at hw
        obtain ⟨x, y, hx, hy, rfl⟩ := hw
        cases hx
        simp only [Loadable] at hld
        rcases hrec t t' w y h (by simpa only [Good] using gt) hy hld (by
            simp only [Ty.isRef, depth, Bool.false_eq_true, if_false] at hd
            split <;> omega) with ⟨h1, h2⟩ | h1
        · left; simp only [wire]; rw [cat_eq_some]; exact ⟨_, y, rfl, h1, rfl⟩
        · right
          intro old p rest hp hdr
          rw [List.append_assoc] at hdr
          have s1 := drop_split hp hdr
          have hf := getBytes_rd hp hdr
          simp only [List.length_singleton] at hf
          show (decode (d + 1) c _ old data p).s = _
          simp only [decode, hf]
          rw [if_neg (by decide)]
          cases dc
          · have := h1 (dflt c d t) _ rest s1.1 s1.2
            simp only [List.length_singleton] at this
            simp only [Bool.false_eq_true, if_false]
            generalize decode d c t (dflt c d t) data (p + 1) = r at this
            obtain ⟨s, v, p'⟩ := r
            simp only at this
            subst this
            rfl
          · simp only [if_true]
            exact h1 _ _ rest s1.1 s1.2
    | optPtr h =>
      next t t' =>
      cases v <;> simp only [wire, wireNum] at hw <;> first | cases hw | skip
      · left; rfl
      · next w =>
        rw [cat_eq_some] at hw
        obtain ⟨x, y, hx, hy, rfl⟩ := hw
        cases hx
        simp only [Loadable] at hld
        rcases hrec t t' w y h (by simpa only [Good] using gt) hy hld (by
            simp only [Ty.isRef, depth, Bool.false_eq_true, if_false] at hd
            split <;> omega) with ⟨h1, h2⟩ | h1
        · left; simp only [wire]; rw [cat_eq_some]; exact ⟨_, y, rfl, h1, rfl⟩
        · right
          intro old p rest hp hdr
          rw [List.append_assoc] at hdr
          have s1 := drop_split hp hdr
          have hf := getBytes_rd hp hdr
          simp only [List.length_singleton] at hf
          show (decode (d + 1) c _ old data p).s = _
          simp only [decode, hf]
          rw [if_neg (by decide)]
          have := h1 (dflt c d t) _ rest s1.1 s1.2
          simp only [List.length_singleton] at this
          generalize decode d c t (dflt c d t) data (p + 1) = r at this
          obtain ⟨s, v, p'⟩ := r
          simp only at this
          subst this
          rfl
    | uptr h =>
      next t t' =>
      cases v <;> simp only [wire, wireNum] at hw <;> first | cases hw | skip
      next w =>
      simp only [Loadable] at hld
      rcases hrec t t' w bs h (by simpa only [Good] using gt) hw hld (by
          simp only [Ty.isRef, depth, Bool.false_eq_true, if_false] at hd
          split <;> omega) with ⟨h1, h2⟩ | h1
      · left; simp only [wire]; exact h1
      · right
        intro old p rest hp hdr
        have := h1 (dflt c d t) _ rest hp hdr
        show (decode (d + 1) c _ old data p).s = _
        simp only [decode]
        simp only at this
        generalize decode d c t (dflt c d t) data p = r at this
        obtain ⟨s, v, p'⟩ := r
        simp only at this
        subst this
        rfl
    | variant idTy dcs dcs' added h hl hnew =>
      next ids newIds alts alts' =>
      cases v <;> simp only [wire, wireNum] at hw <;> first | cases hw | skip
      next i w =>
      simp only [Good, Bool.and_eq_true, nodeOk, beq_iff_eq] at gt
      obtain ⟨⟨⟨⟨⟨g1, g2⟩, g3⟩, g4⟩, g5⟩, g6⟩ := gt
      simp only [Ty.isRef, depth, Bool.false_eq_true, if_false] at hd
      simp only [Loadable] at hld
      split at hw
      · next id t'' hid halt =>
        rw [cat_eq_some] at hw
        obtain ⟨x, y, hx, hy, rfl⟩ := hw
        rw [wireId_fmtW] at hx
        obtain ⟨w1, w2, w3, w4⟩ := wireId_wire g1 hx
        have hidl : Loadable c idTy id := by
          cases idTy with
          | scalar k n => cases id <;> simp only [Loadable]
          | bool => cases id <;> simp only [Loadable]
          | varint n zz => cases id <;> simp only [Loadable]
          | array n t'' =>
            cases id <;> simp only [Loadable]
            rename_i es
            simp only [idTyOk, Bool.and_eq_true] at g1
            clear w1 w2 w3 hx hid
            induction es with
            | nil => simp only [LoadableL]
            | cons e es ih =>
              simp only [LoadableL]
              refine ⟨?_, ih⟩
              cases t'' <;> first | (simp [numTy] at g1; done) | (cases e <;> simp only [Loadable])
          | _ => simp [idTyOk, numTy] at g1
        have hidr := (decode_round d c ha he).1 data hlen idTy id x g5 w1 hidl (by rw [w4]; simp only [Bool.false_eq_true, if_false]; omega)
          (dflt c d idTy)
        have hle := h.length
        by_cases hi : i < ids.length
        · -- an alternative the old program has
          have e1 : ids[i]? = some id := by rw [← hid, List.getElem?_append_left hi]
          have e2 : alts'[i]? = some t'' := by rw [← halt, List.getElem?_append_left (by omega)]
          have e3 := List.getElem?_eq_getElem (by omega : i < alts.length)
          have e4 := List.getElem?_eq_getElem (by omega : i < dcs.length)
          rcases hrec alts[i] t'' w y (h.get e3 e2) (GoodL_mem g6 _ (List.mem_of_getElem? e3)) hy (hld _ e3) (by split <;> omega) with
            ⟨k1, k2⟩ | k1
          · left
            simp only [wire, e1, e3]
            rw [cat_eq_some]
            exact ⟨x, y, hx, k1, rfl⟩
          · right
            intro old p rest hp hdr
            rw [List.append_assoc] at hdr
            have s1 := drop_split hp hdr
            show (decode (d + 1) c _ old data p).s = _
            rw [decode]
            simp only [hidr p _ hp hdr, findId_nodup g4 0 e1, Nat.add_zero, e3, e4]
            unfold decAlt
            split
            · exact k1 _ _ rest s1.1 s1.2
            · have := k1 (dflt c d alts[i]) _ rest s1.1 s1.2
              simp only at this
              show (match decode d c alts[i] (dflt c d alts[i]) data (p + x.length) with
                | ⟨.ok, v, p'⟩ => (⟨.ok, .alt i v, p'⟩ : Res)
                | ⟨s, _, p'⟩ => ⟨s, old, p'⟩).s = _
              generalize decode d c alts[i] (dflt c d alts[i]) data (p + x.length) = r at this
              obtain ⟨s, v, p'⟩ := r
              simp only at this
              subst this
              rfl
        · -- a new one
          have e1 : id ∈ newIds := by
            rw [List.getElem?_append_right (by omega)] at hid
            exact List.mem_of_getElem? hid
          right
          intro old p rest hp hdr
          rw [List.append_assoc] at hdr
          show (decode (d + 1) c _ old data p).s = _
          rw [decode]
          simp only [hidr p _ hp hdr, findId_none 0 (hnew id e1)]
      · cases hw
    | ref i =>
      cases v <;> simp only [wire, wireNum] at hw <;> first | cases hw | skip
      next vs =>
      have e : (fmtW (fmtOf c) W).env i = W i := rfl
      have e' : (fmtOf c).env i = c.env i := rfl
      rw [e] at hw
      have ho := hW i
      simp only [Loadable] at hld
      simp only [Ty.isRef, if_true] at hd
      have gi := (he i).1
      have hst : ∃ ok ts, c.env i = .struct ok ts := by
        generalize c.env i = a at ho
        generalize W i = b at hw ho
        cases ho <;> simp only at hw <;> first | cases hw | skip
        exact ⟨_, _, rfl⟩
      obtain ⟨ok, ts, hst⟩ := hst
      suffices h : wire (fmtOf c) (c.env i) (.list vs) = some bs ∨ ∀ old, Bad data (fun p => decode d c (c.env i) old data p) bs by
        rcases h with h | h
        · left
          rw [hst] at h
          simp only [wire, e', hst] at h ⊢
          exact h
        · right
          intro old p rest hp hdr
          show (decode (d + 1) c _ old data p).s = _
          rw [decode]
          exact h old p rest hp hdr
      have hw' : wire (fmtW (fmtOf c) W) (W i) (.list vs) = some bs := by
        cases hc : W i <;> simp only [hc] at hw <;> first | cases hw | skip
        · simp only [wire]; exact hw
        · simp only [wire]; exact hw
      rcases hrec (c.env i) (W i) (.list vs) bs ho gi hw' (by rw [hst] at hld ⊢; simp only [Loadable]; exact hld)
        (by rw [hst]; simp only [Ty.isRef, Bool.false_eq_true, if_false]; exact hd) with ⟨h1, h2⟩ | h1
      · exact .inl h1
      · exact .inr h1


end Zpp
