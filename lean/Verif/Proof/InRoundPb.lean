import Verif.Proof.InRound
/-! # Reading the documented protobuf encoding gives the message back -/

namespace Zpp
open Spec

/-- What is known about reading nested objects with stack `D`. -/
def DecOk (c : Cfg) (rec : Ty → Val → List UInt8 → Nat → Res) (D : Nat) : Prop :=
  ∀ data, data.length < 2 ^ 64 → ∀ t v bs, Good c t = true → wire (fmtOf c) t v = some bs → Loadable c t v →
    2 * depth v ≤ (if t.isRef then D else D + 1) → ∀ old, Rd data (rec t old data) bs v

/-- The same for containers of numbers without size prefix, which keep their size. -/
def DecUns (c : Cfg) (rec : Ty → Val → List UInt8 → Nat → Res) (D : Nat) : Prop :=
  ∀ data, data.length < 2 ^ 64 → ∀ k t vs olds bs, k = .vector ∨ k = .list → Good c (.seq k (some .none) t) = true →
    numTy t = true → wireAll (fmtOf c) t vs = some bs → olds.length = vs.length → 2 * depth (.list vs) ≤ D + 1 →
    Rd data (rec (.seq k (some .none) t) (.list olds) data) bs (.list vs)

/-! ## The field loop -/

/-- From one state of the field loop to another. -/
def Steps (field : Ty → Nat → Val → Nat → Res) (maps : List (Nat × Nat)) (nums : List (Option Nat)) (fs : List Ty)
    (sub : List UInt8) (vs : List Val) (p : Nat) (vs' : List Val) (p' : Nat) : Prop :=
  ∀ f, sub.length < f + p → ∃ f', sub.length < f' + p' ∧
    pbLoop field maps nums fs sub f vs p = pbLoop field maps nums fs sub f' vs' p'

theorem Steps.refl {field maps nums fs sub vs p} : Steps field maps nums fs sub vs p vs p := fun f h => ⟨f, h, rfl⟩

theorem Steps.trans {field maps nums fs sub vs p vs' p' vs'' p''} (h1 : Steps field maps nums fs sub vs p vs' p')
    (h2 : Steps field maps nums fs sub vs' p' vs'' p'') : Steps field maps nums fs sub vs p vs'' p'' := by
  intro f hf
  obtain ⟨f1, h3, h4⟩ := h1 f hf
  obtain ⟨f2, h5, h6⟩ := h2 f1 h3
  exact ⟨f2, h5, h4.trans h6⟩

/-- Field numbers as the reader computes them. -/
def pbNumbers (maps : List (Nat × Nat)) : Nat → List (Option Nat) → List Nat
  | _, [] => []
  | i, n :: ns => pbNumber maps n i :: pbNumbers maps (i + 1) ns

theorem pbNumbers_append (maps : List (Nat × Nat)) : ∀ (a b : List (Option Nat)) (i : Nat),
    pbNumbers maps i (a ++ b) = pbNumbers maps i a ++ pbNumbers maps (i + a.length) b
  | [], b, i => by simp [pbNumbers]
  | n :: a, b, i => by
    simp only [List.cons_append, pbNumbers, pbNumbers_append maps a b (i + 1), List.length_cons]
    rw [show i + 1 + a.length = i + (a.length + 1) by omega]

theorem pbDispatch_hit {field : Ty → Nat → Val → Nat → Res} {maps : List (Nat × Nat)} {N wt : Nat} {n : Option Nat} {t : Ty}
    {o v : Val} {p p' : Nat} {nb : List (Option Nat)} {fb : List Ty} {ob : List Val} (hf : field t wt o p = ⟨.ok, v, p'⟩) :
    ∀ (na : List (Option Nat)) (fa : List Ty) (oa : List Val) (i : Nat), na.length = fa.length → oa.length = fa.length →
      N ∉ pbNumbers maps i na → pbNumber maps n (i + na.length) = N →
      pbDispatch field maps N wt i (na ++ n :: nb) (fa ++ t :: fb) (oa ++ o :: ob) p = ⟨.ok, oa ++ v :: ob, p'⟩ := by
  intro na
  induction na with
  | nil =>
    intro fa oa i h1 h2 _ hn
    have hfa : fa = [] := List.eq_nil_of_length_eq_zero (by simpa using h1.symm)
    subst hfa
    have hoa : oa = [] := List.eq_nil_of_length_eq_zero (by simpa using h2)
    subst hoa
    simp only [List.length_nil, Nat.add_zero] at hn
    simp [pbDispatch, hn, hf]
  | cons m na ih =>
    intro fa oa i h1 h2 hni hn
    cases fa with
    | nil => simp at h1
    | cons u fa =>
      cases oa with
      | nil => simp at h2
      | cons x oa =>
        simp only [pbNumbers, List.mem_cons, not_or] at hni
        simp only [List.length_cons] at hn h1 h2
        simp only [List.cons_append, pbDispatch]
        rw [if_neg (fun e => hni.1 e.symm)]
        simp only [List.headD_cons, List.tail_cons]
        rw [ih fa oa (i + 1) (by omega) (by omega) hni.2 (by rw [← hn]; congr 1; omega)]

theorem tag_shift (N wt : Nat) (h : wt < 8) : (N * 8 + wt) >>> 3 = N ∧ (N * 8 + wt) &&& 7 = wt := by
  constructor
  · rw [Nat.shiftRight_eq_div_pow]; omega
  · rw [show (7 : Nat) = 2 ^ 3 - 1 from rfl, Nat.and_two_pow_sub_one_eq_mod]; omega

/-- Records of one member, read one after the other. -/
inductive FSteps (sub : List UInt8) (field : Nat → Val → Nat → Res) (N : Nat) : Val → Nat → Val → Nat → Prop
  | refl (v : Val) (p : Nat) : FSteps sub field N v p v p
  | step {v v1 v' : Val} {p p1 p' wt : Nat} {rest : List UInt8} : wt < 8 → p ≤ sub.length →
      sub.drop p = leb (N * 8 + wt) ++ rest → field wt v (p + (leb (N * 8 + wt)).length) = ⟨.ok, v1, p1⟩ → p < p1 →
      FSteps sub field N v1 p1 v' p' → FSteps sub field N v p v' p'

theorem FSteps.trans {sub field N v p v1 p1 v2 p2} (h : FSteps sub field N v p v1 p1) (h' : FSteps sub field N v1 p1 v2 p2) :
    FSteps sub field N v p v2 p2 := by
  induction h with
  | refl => exact h'
  | step a b c d e _ ih => exact .step a b c d e (ih h')

theorem FSteps.steps {sub : List UInt8} {field : Ty → Nat → Val → Nat → Res} {maps : List (Nat × Nat)} {N : Nat}
    {na nb : List (Option Nat)} {n : Option Nat} {fa fb : List Ty} {t : Ty} {va ob : List Val} {o v : Val} {p p' : Nat}
    (h : FSteps sub (field t) N o p v p') (hN : N < 2 ^ 29) (h1 : na.length = fa.length) (h2 : va.length = fa.length)
    (hni : N ∉ pbNumbers maps 0 na) (hn : pbNumber maps n na.length = N) :
    Steps field maps (na ++ n :: nb) (fa ++ t :: fb) sub (va ++ o :: ob) p (va ++ v :: ob) p' := by
  induction h with
  | refl => exact .refl
  | @step v v1 v' p p1 p' wt rest hwt hp hd hf hlt _ ih =>
    refine Steps.trans ?_ ih
    intro f hf'
    have hpl : p < sub.length := by
      have := congrArg List.length hd
      have := leb_length_pos (N * 8 + wt)
      simp only [List.length_drop, List.length_append] at *
      omega
    cases f with
    | zero => omega
    | succ f =>
      refine ⟨f, by omega, ?_⟩
      have hv := getVarint_rd (n := 4) (by simp [IntWidth]) false (x := N * 8 + wt) (by omega) (.num 0) hp
        (by simpa [varintValue] using hd)
      simp only [varintValue, Bool.false_eq_true, if_false] at hv
      rw [pbLoop, if_pos hpl, hv]
      simp only [(tag_shift N wt hwt).1, (tag_shift N wt hwt).2]
      rw [pbDispatch_hit hf na fa va 0 h1 h2 hni (by simpa using hn)]

/-! ## Packed elements -/

/-- Elements are added at the end, in order. -/
def PushOk (c : Cfg) (t : Ty) (vs : List Val) : Prop := ∀ a e b, vs = a ++ e :: b → pbPush c t e a = a ++ [e]

theorem pushOk_seq (c : Cfg) (k : SeqKind) (sz : Option SizeTy) (t : Ty) (vs : List Val) : PushOk c (.seq k sz t) vs :=
  fun _ _ _ _ => rfl

theorem pushOk_assoc {c : Cfg} {multi hashed : Bool} {sz : Option SizeTy} {key : Ty} {mapped : Option Ty} {vs : List Val}
    (h : Ordered (c.keyLt key) multi hashed mapped.isSome vs) : PushOk c (.assoc multi hashed sz key mapped) vs := by
  intro a e b hv
  subst hv
  exact assocInsert_append h

theorem pbPacked_rd {c : Cfg} {t : Ty} {sub : List UInt8} {elem : Nat → Res} {w : Val → Option (List UInt8)}
    {W : List Val → Option (List UInt8)} (hnil : W [] = some []) (hcons : ∀ v vs, W (v :: vs) = cat (w v) (W vs))
    {endPos : Nat} {rest : List UInt8} :
    ∀ (vs acc : List Val) (bs : List UInt8) (p f : Nat), W vs = some bs → p ≤ sub.length → sub.drop p = bs ++ rest →
      endPos = p + bs.length → endPos < f + p → PushOk c t (acc ++ vs) →
      (∀ v ∈ vs, ∀ b, w v = some b → 0 < b.length ∧ Rd sub elem b v) →
      pbPacked (pbFetch c t elem) endPos f acc p = ⟨.ok, acc ++ vs, endPos⟩ := by
  intro vs
  induction vs with
  | nil =>
    intro acc bs p f h hp hd he hf _ _
    rw [hnil] at h; cases h
    simp only [List.length_nil, Nat.add_zero] at he
    subst he
    cases f with
    | zero => omega
    | succ f => simp [pbPacked]
  | cons v vs ih =>
    intro acc bs p f h hp hd he hf hpush hr
    rw [hcons, cat_eq_some] at h
    obtain ⟨x, y, hx, hy, rfl⟩ := h
    rw [List.append_assoc] at hd
    obtain ⟨hpos, h1⟩ := hr v (by simp) x hx
    have h1 := h1 p _ hp hd
    have hs := drop_split hp hd
    simp only [List.length_append] at he
    cases f with
    | zero => omega
    | succ f =>
      rw [pbPacked, if_pos (by omega)]
      simp only [pbFetch, h1]
      rw [hpush acc v vs rfl]
      rw [ih (acc ++ [v]) y (p + x.length) f hy hs.1 hs.2 (by omega) (by omega) (by simpa using hpush)
        (fun v' h' => hr v' (by simp [h']))]
      simp

theorem numTy_rd {c : Cfg} {rec : Ty → Val → List UInt8 → Nat → Res} {D : Nat} (hrec : DecOk c rec D) {sub : List UInt8}
    (hsub : sub.length < 2 ^ 64) {e : Ty} (he : numTy e = true) (hD : 2 ≤ D + 1) (old : Val) :
    ∀ v b, wire (fmtOf c) e v = some b → 0 < b.length ∧ Rd sub (rec e old sub) b v := by
  intro v b hw
  cases e with
  | scalar k n =>
    cases v <;> simp only [wire, wireNum] at hw <;> first | cases hw | skip
    have hw0 := hw
    split at hw
    · cases hw
      rename_i x hx
      simp only [numTy] at he
      have hn : 0 < n := by cases k <;> simp [scalarOk] at he <;> omega
      refine ⟨by rw [digits_length]; exact hn, ?_⟩
      exact hrec sub hsub _ _ _ (by simpa [Good, nodeOk] using he) (by simp only [wire, wireNum]; exact hw0) (by simp only [Loadable])
        (by simp [depth, Ty.isRef]; omega) old
    · cases hw
  | bool =>
    cases v <;> simp only [wire, wireNum] at hw <;> first | cases hw | skip
    have hw0 := hw
    split at hw
    · cases hw
      refine ⟨by simp, ?_⟩
      exact hrec sub hsub _ _ _ rfl (by simp only [wire, wireNum]; exact hw0) (by simp only [Loadable])
        (by simp [depth, Ty.isRef]; omega) old
    · cases hw
  | varint n zz =>
    cases v <;> simp only [wire, wireNum] at hw <;> first | cases hw | skip
    have hw0 := hw
    split at hw
    · cases hw
      refine ⟨leb_length_pos _, ?_⟩
      exact hrec sub hsub _ _ _ (by simpa [Good, nodeOk, numTy] using he) (by simp only [wire, wireNum]; exact hw0) (by simp only [Loadable])
        (by simp [depth, Ty.isRef]; omega) old
    · cases hw
  | _ => cases he

theorem resizeVals_nil_length (n : Nat) (dv : Val) : (resizeVals [] n dv).length = n := by simp [resizeVals]

/-- A packed record. -/
theorem packed_steps {c : Cfg} (hc : InPb c) (ha : AbiOk c.sizeof) {rec : Ty → Val → List UInt8 → Nat → Res} {D : Nat}
    (hrec : DecOk c rec D) (huns : DecUns c rec D) {sub : List UInt8} (hsub : sub.length < 2 ^ 64) {fresh : Ty → Val} {N : Nat}
    {t elem : Ty} (hcl : pbInClass t = pbElemClass elem) (hp : isPacked elem = true) (hnum : numTy (packedElem elem) = true)
    (hseq : ∀ k s t', t = .seq k s t' → (k = .vector ∨ k = .list) ∧ t' = elem ∧ Good c (.seq k (some .none) elem) = true)
    {vs : List Val} {bs : List UInt8} (h : pbPackedField c.env N elem vs = some bs) (hpush : PushOk c t vs)
    (hres : PackedFits c (hasResize t) (hasReserve t) elem vs) (hd : 2 * depth (.list vs) ≤ D + 1)
    {p : Nat} {rest : List UInt8} (hpp : p ≤ sub.length) (hdr : sub.drop p = bs ++ rest) :
    FSteps sub (fun wt v q => pbDecField c (fun t v q => rec t v sub q) fresh t wt v sub q) N (.list []) p (.list vs)
      (p + bs.length) := by
  cases vs with
  | nil =>
    simp only [pbPackedField, Option.some.injEq] at h; subst h; exact .refl _ _
  | cons v vs =>
    simp only [pbPackedField] at h
    cases hb : wireNums (pbFmt c.env) (packedElem elem) (v :: vs) with
    | none => simp [hb] at h
    | some body =>
      simp only [hb] at h
      split at h
      · rename_i hlt
        cases h
        have hbody := hres body hb
        simp only [pbRecord, List.append_assoc] at hdr
        have s1 := drop_split hpp hdr
        have hhdr := decHdr_rd (c := c) (sz := .varint) (n := body.length) (pre := leb body.length) (by simp)
          (by simp only [sizePrefix]; rw [if_pos (by omega)]) s1.1 s1.2
        have s2 := drop_split s1.1 s1.2
        have s3 := drop_split s2.1 s2.2
        have hwa : wireAll (fmtOf c) (packedElem elem) (v :: vs) = some body := by
          rw [hc.fmt, ← wireNums_eq_wireAll _ _ hnum]; exact hb
        have hD : 2 ≤ D + 1 := by simp only [depth] at hd; omega
        have hpos : 0 < body.length := by
          simp only [wireAll, cat_eq_some] at hwa
          obtain ⟨x, y, hx, hy, rfl⟩ := hwa
          have := (numTy_rd hrec hsub hnum hD .unit v x hx).1
          simp; omega
        have hwrap : wrap (body.length + (p + (leb (N * 8 + 2)).length + (leb body.length).length)) =
            p + (leb (N * 8 + 2)).length + (leb body.length).length + body.length := by
          unfold wrap
          rw [Nat.mod_eq_of_lt (by omega)]; omega
        have hloop : pbPacked (pbFetch c t (rec (packedElem elem) .unit sub))
            (wrap (body.length + (p + (leb (N * 8 + 2)).length + (leb body.length).length))) (sub.length + 1) []
            (p + (leb (N * 8 + 2)).length + (leb body.length).length) =
            ⟨.ok, v :: vs, p + (leb (N * 8 + 2)).length + (leb body.length).length + body.length⟩ := by
          rw [hwrap]
          exact pbPacked_rd (w := wire (fmtOf c) (packedElem elem)) (W := wireAll (fmtOf c) (packedElem elem)) rfl
            (fun _ _ => rfl) (v :: vs) [] body _ _ hwa s2.1 s2.2 rfl (by omega) hpush
            (fun v' _ b hb' => numTy_rd hrec hsub hnum hD .unit v' b hb')
        have hres0 : (p + (pbRecord N (.len body)).length) =
            p + (leb (N * 8 + 2)).length + (leb body.length).length + body.length := by
          simp [pbRecord]; omega
        rw [hres0]
        refine .step (wt := 2) (by omega) hpp hdr ?_ (by omega) (.refl _ _)
        unfold pbDecField
        rw [hcl]
        -- varint like elements
        have hvar : ∀ n zz, packedElem elem = .varint n zz →
            pbDecPacked c (fun t v q => rec t v sub q) t (.varint n zz) false 2 (.list []) sub
              (p + (leb (N * 8 + 2)).length) =
            ⟨.ok, .list (v :: vs), p + (leb (N * 8 + 2)).length + (leb body.length).length + body.length⟩ := by
          intro n zz he
          unfold pbDecPacked
          simp only [ne_eq, not_true_eq_false, if_false, hhdr, Bool.and_false, Bool.false_eq_true]
          rw [he] at hloop hbody
          rw [if_neg]
          · simp only [Val.elems]
            rw [hloop]; rfl
          · intro ⟨h1, h2⟩
            have := hbody h1
            omega
        have hfix : ∀ e sz, packedElem elem = e → elem = e → (e = .scalar .int sz ∨ e = .scalar .enum sz ∨ e = .scalar .byte sz ∨
            e = .scalar .chr sz ∨ (e = .bool ∧ sz = 1)) → 0 < sz →
            pbDecPacked c (fun t v q => rec t v sub q) t e true 2 (.list []) sub
              (p + (leb (N * 8 + 2)).length) =
            ⟨.ok, .list (v :: vs), p + (leb (N * 8 + 2)).length + (leb body.length).length + body.length⟩ := by
          intro e sz he he' hel hsz
          have hso : c.sizeof e = sz := by
            rcases hel with rfl | rfl | rfl | rfl | ⟨rfl, rfl⟩ <;> first | exact ha.scalar _ _ hsz | exact ha.bool
          have hbl := wireAll_length (n := sz) (fun v bs hw => wire_num_length hel hw) _ _ (he ▸ hwa)
          have hdiv : body.length / c.sizeof e = (v :: vs).length := by
            rw [hbl, hso, Nat.mul_div_cancel _ hsz]
          unfold pbDecPacked
          simp only [ne_eq, not_true_eq_false, if_false, hhdr, Bool.and_true]
          rw [he] at hloop hbody
          cases hr : hasResize t with
          | true =>
            simp only [if_true]
            rw [hr] at hbody
            have hb2 : (c.g.limit = sizeMax ∨ body.length ≤ c.g.limit) ∧ body.length ≤ c.g.maxMem := by
              rcases hel with rfl | rfl | rfl | rfl | ⟨rfl, rfl⟩ <;> exact hbody
            rw [if_neg (by intro ⟨h1, h2⟩; rcases hb2.1 with h | h <;> first | exact h1 h | omega)]
            rw [if_neg (by rw [hdiv, hso, ← hbl]; omega), hdiv]
            cases t with
            | seq k s t' =>
              obtain ⟨hk, rfl, hgs⟩ := hseq k s t' rfl
              simp only [unsizedTy, Val.elems]
              exact huns sub hsub k t' (v :: vs) _ body hk hgs (by rw [he', ← he]; exact hnum) (by rw [he', ← he]; exact hwa)
                (resizeVals_nil_length _ _) hd _ rest s2.1 s2.2
            | _ => simp [hasResize] at hr
          | false =>
            simp only [Bool.false_eq_true, if_false]
            rw [hr] at hbody
            rw [if_neg]
            · simp only [Val.elems]
              rw [hloop]; rfl
            · intro ⟨h1, h2⟩
              have hb2 : hasReserve t = true → body.length * c.sizeof e ≤ c.g.maxMem := by
                rcases hel with rfl | rfl | rfl | rfl | ⟨rfl, rfl⟩ <;> exact hbody
              have := hb2 h1
              omega
        cases elem with
        | scalar k n =>
          cases k with
          | enum => exact hvar n false rfl
          | _ =>
            have hn : 0 < n := by
              simp only [numTy, packedElem, scalarOk, beq_iff_eq, decide_eq_true_eq] at hnum
              omega
            exact hfix _ n rfl rfl (by simp) hn
        | bool => exact hfix _ 1 rfl rfl (by simp) (by omega)
        | varint n zz => exact hvar n zz rfl
        | _ => simp [isPacked] at hp
      · cases h

/-! ## Repeated records -/

theorem repeated_steps {c : Cfg} (hc : InPb c) {rec : Ty → Val → List UInt8 → Nat → Res} {D : Nat} (hrec : DecOk c rec D)
    {sub : List UInt8} (hsub : sub.length < 2 ^ 64) {N : Nat} {t elem : Ty} (hel : isMsg c.env elem = true ∨ isStr elem = true)
    (gel : Good c elem = true) {field : Nat → Val → Nat → Res} {o : Val}
    (hf : ∀ acc q, field 2 (.list acc) q = (pbFetch c t (rec elem o sub) acc q).toRes) :
    ∀ (vs acc : List Val) (bs : List UInt8) (p : Nat) (rest : List UInt8), pbRepeated c.env N elem vs = some bs →
      PushOk c t (acc ++ vs) → LoadableL c elem vs → 2 * depthL vs ≤ D → p ≤ sub.length → sub.drop p = bs ++ rest →
      FSteps sub field N (.list acc) p (.list (acc ++ vs)) (p + bs.length) := by
  intro vs
  induction vs with
  | nil =>
    intro acc bs p rest h _ _ _ _ _
    simp only [pbRepeated, Option.some.injEq] at h; subst h
    simpa using FSteps.refl _ _
  | cons v vs ih =>
    intro acc bs p rest h hpush hld hd hp hdr
    simp only [pbRepeated, cat_eq_some] at h
    obtain ⟨x, y, hx, hy, rfl⟩ := h
    obtain ⟨b, hb, rfl⟩ := pbPayload_wire hel hx
    simp only [LoadableL] at hld
    simp only [depthL] at hd
    simp only [List.append_assoc] at hdr
    have s1 := drop_split hp hdr
    have h1 := hrec sub hsub elem v b gel (by rw [hc.fmt]; exact hb) hld.1 (by split <;> omega) o _ _ s1.1 s1.2
    have s2 := drop_split s1.1 s1.2
    have h2 := ih (acc ++ [v]) y _ rest hy (by simpa using hpush) hld.2 (by omega) s2.1 s2.2
    have hpos := leb_length_pos (N * 8 + 2)
    refine .step (wt := 2) (v1 := .list (acc ++ [v])) (p1 := p + (leb (N * 8 + 2)).length + b.length) (by omega) hp hdr ?_
      (by omega) ?_
    · rw [hf]
      simp only [pbFetch, h1, hpush acc v vs rfl, ResL.toRes]
    · simpa [Nat.add_assoc] using h2

theorem LoadablePbField_entry {c : Cfg} (hc : InPb c) {key m : Ty} {vs : List Val}
    (h : LoadableL c (.msg none false [] [none, none] [key, m]) vs) : LoadableL c (pbEntry key m) vs := by
  have hf : ∀ c t v, LoadablePbField c t v → LoadablePbField c (pbEntryTy t) v := by
    intro c t v h
    cases t with
    | scalar k n =>
      cases k with
      | enum => cases v <;> simp only [pbEntryTy, LoadablePbField]
      | _ => exact h
    | _ => exact h
  induction vs with
  | nil => simp only [LoadableL]
  | cons v vs ih =>
    simp only [LoadableL] at h ⊢
    refine ⟨?_, ih h.2⟩
    cases v with
    | list es =>
      simp only [pbEntry, Loadable] at h ⊢
      refine ⟨h.1.1, ?_⟩
      have h := h.1.2
      cases es with
      | nil => simp only [LoadablePb]
      | cons a es =>
        simp only [LoadablePb] at h ⊢
        refine ⟨hf _ _ _ ?_, ?_⟩
        · exact h.1
        · cases es with
          | nil => simp only [LoadablePb]
          | cons b es =>
            simp only [LoadablePb] at h ⊢
            exact ⟨hf _ _ _ h.2.1, trivial⟩
    | _ => simp only [pbEntry, Loadable]

/-! ## Members -/

/-- What the member holds when the field loop starts. -/
def cleared (t : Ty) (o : Val) : Val :=
  match t with
  | .seq _ _ _ => .list []
  | .assoc _ _ _ _ _ => .list []
  | .empty => .unit
  | _ => o

theorem member_steps {c : Cfg} (hc : InPb c) (ha : AbiOk c.sizeof) {rec : Ty → Val → List UInt8 → Nat → Res} {D : Nat}
    (hrec : DecOk c rec D) (huns : DecUns c rec D) {sub : List UInt8} (hsub : sub.length < 2 ^ 64) {fresh : Ty → Val}
    {maps num i t} (hok : pbFieldOk c.env maps num i t = true) (gt : Good c t = true)
    {v : Val} {bs : List UInt8} {N : Nat}
    (h : pbField c.env N t v = some bs) (hld : LoadablePbField c t v) (hd : 2 * depth v ≤ D) (o : Val)
    {p : Nat} {rest : List UInt8} (hp : p ≤ sub.length) (hdr : sub.drop p = bs ++ rest) :
    FSteps sub (fun wt v q => pbDecField c (fun t v q => rec t v sub q) fresh t wt v sub q) N (cleared t o) p v
      (p + bs.length) := by
  have single : ∀ b wt, pbInClass t = .single → cleared t o = o → wt < 8 → wire (pbFmt c.env) t v = some b →
      Loadable c t v → bs = leb (N * 8 + wt) ++ b →
      FSteps sub (fun wt v q => pbDecField c (fun t v q => rec t v sub q) fresh t wt v sub q) N (cleared t o) p v
        (p + bs.length) := by
    intro b wt h1 h2 h3 h4 h5 h6
    subst h6
    rw [List.append_assoc] at hdr
    have s1 := drop_split hp hdr
    have hr := hrec sub hsub t v b gt (by rw [hc.fmt]; exact h4) h5 (by split <;> omega) o _ _ s1.1 s1.2
    have hpos := leb_length_pos (N * 8 + wt)
    rw [h2]
    refine .step (wt := wt) h3 hp hdr (v1 := v) (p1 := p + (leb (N * 8 + wt)).length + b.length) ?_ (by omega) ?_
    · unfold pbDecField; rw [h1]; exact hr
    · simpa [Nat.add_assoc] using FSteps.refl _ _
  cases t with
  | empty =>
    cases v <;> simp [pbField, pbScalar] at h
    subst h; exact .refl _ _
  | scalar k n =>
    cases v <;> simp only [pbField] at h <;> first | cases h | skip
    rename_i x
    cases k with
    | enum =>
      have hn : intWidth n = true := by simpa [pbFieldOk, pbScalarOk, isMsg] using hok
      simp only [pbScalar] at h
      split at h
      · rename_i hx
        cases h
        simp only [pbRecord, List.append_assoc] at hdr ⊢
        have s1 := drop_split hp hdr
        have hr := getVarint_rd (intWidth_iff.mp hn) false hx (cleared (.scalar .enum n) o) s1.1 (by simpa [varintValue] using s1.2)
        simp only [varintValue, Bool.false_eq_true, if_false] at hr
        have hpos := leb_length_pos (N * 8 + 0)
        refine .step (wt := 0) (by omega) hp hdr (v1 := .num x) (p1 := p + (leb (N * 8 + 0)).length + (leb x).length)
          ?_ (by omega) ?_
        · unfold pbDecField; exact hr
        · simpa [Nat.add_assoc] using FSteps.refl _ _
      · cases h
    | int =>
      have hn : n = 4 ∨ n = 8 := by simpa [pbFieldOk, pbScalarOk, isMsg] using hok
      rcases hn with rfl | rfl
      · simp only [pbScalar] at h
        split at h
        · rename_i hx
          cases h
          refine single (digits .little 4 x) 5 rfl rfl (by omega) ?_ trivial (by simp [pbRecord])
          simp only [wire, wireNum, pbFmt]
          rw [if_pos (by omega)]
        · cases h
      · simp only [pbScalar] at h
        split at h
        · rename_i hx
          cases h
          refine single (digits .little 8 x) 1 rfl rfl (by omega) ?_ trivial (by simp [pbRecord])
          simp only [wire, wireNum, pbFmt]
          rw [if_pos (by omega)]
        · cases h
    | byte => simp [pbFieldOk, pbScalarOk, isMsg] at hok
    | chr => simp [pbFieldOk, pbScalarOk, isMsg] at hok
  | bool =>
    cases v <;> simp only [pbField] at h <;> first | cases h | skip
    rename_i x
    simp only [pbScalar] at h
    split at h
    · rename_i hx
      cases h
      refine single [UInt8.ofNat x] 0 rfl rfl (by omega) ?_ trivial ?_
      · simp [wire, wireNum, hx]
      · simp only [pbRecord]
        rw [leb_eq x (by omega), varintBytes_small (by omega)]
    · cases h
  | varint n zz =>
    cases v <;> simp only [pbField] at h <;> first | cases h | skip
    rename_i x
    simp only [pbScalar] at h
    split at h
    · rename_i hx
      cases h
      exact single (leb (varintValue n zz x)) 0 rfl rfl (by omega) (by simp [wire, wireNum, hx]) trivial
        (by simp [pbRecord])
    · cases h
  | msg sz ok maps' nums fs =>
    have hsz : sz = none := by simpa [pbFieldOk, pbScalarOk, isMsg] using hok
    cases v <;> simp only [pbField, pbScalar] at h <;> first | cases h | skip
    obtain ⟨b, hb, e⟩ := pbLen_msg (ok := ok) hsz h
    refine single b 2 rfl rfl (by omega) hb ?_ e
    simp only [Loadable, hsz]
    simp only [LoadablePbField] at hld
    rw [insideMsg_eq, hc.idem]
    exact ⟨by rw [← hc.idem]; simp [pbCfg], hld⟩
  | ref j =>
    have hm : isMsg c.env (.ref j) = true := by simpa [pbFieldOk, pbScalarOk] using hok
    cases v <;> simp only [pbField, pbScalar] at h <;> first | cases h | skip
    rename_i vs
    obtain ⟨b, hb, e⟩ := pbPayload_wire (env := c.env) (N := N) (t := .ref j)
      (v := .list _) (bs := bs) (Or.inl hm) (by simp only [pbPayload]; exact h)
    refine single b 2 rfl rfl (by omega) hb ?_ e
    simp only [LoadablePbField] at hld
    simp only [Loadable]
    simp only [isMsg] at hm
    cases he : c.env j with
    | msg sz ok maps' nums fs =>
      simp only [he, beq_iff_eq] at hm hld ⊢
      subst hm
      rw [insideMsg_eq, hc.idem]
      exact ⟨by rw [← hc.idem]; simp [pbCfg], hld⟩
    | _ => simp [he] at hm
  | seq k sz t' =>
    cases v <;> simp only [pbField, pbScalar] at h <;> first | cases h | skip
    rename_i vs
    simp only [pbFieldOk, Bool.and_eq_true] at hok
    obtain ⟨⟨⟨o1, o2⟩, o3⟩, o4⟩ := hok
    have g2 : Good c t' = true := by simp only [Good, Bool.and_eq_true] at gt; exact gt.2
    have hk : k = .vector ∨ k = .list := by simpa using o1
    simp only [cleared]
    simp only [LoadablePbField] at hld
    by_cases hpk : isPacked t' = true
    · rw [if_pos hpk] at h hld
      have hnum : numTy (packedElem t') = true := by
        simp only [pbElemOk, Bool.or_eq_true] at o3
        rcases o3 with (h | h) | h
        · exact h
        · rw [(repeated_class (Or.inl h)).2.1] at hpk; cases hpk
        · rw [(repeated_class (env := c.env) (Or.inr h)).2.1] at hpk; cases hpk
      have hr1 : hasResize (.seq k sz t') = true := by rcases hk with rfl | rfl <;> rfl
      have hr2 : hasReserve (.seq k sz t') = (k == .vector) := by rcases hk with rfl | rfl <;> rfl
      refine packed_steps hc ha hrec huns hsub rfl hpk hnum ?_ h (pushOk_seq _ _ _ _ _) (by rw [hr1, hr2]; exact hld)
        (by omega) hp hdr
      intro k' s t'' e
      cases e
      refine ⟨hk, rfl, ?_⟩
      simp only [Good, Bool.and_eq_true] at gt ⊢
      exact ⟨by simpa [nodeOk] using gt.1, gt.2⟩
    · rw [if_neg hpk] at h hld
      have hel : isMsg c.env t' = true ∨ isStr t' = true := by
        simp only [pbElemOk, Bool.or_eq_true] at o3
        rcases o3 with (h | h) | h
        · exfalso; apply hpk
          cases t' <;> first | rfl | (simp [packedElem, numTy] at h)
        · exact Or.inl h
        · exact Or.inr h
      have hcl := (repeated_class hel).1
      have := repeated_steps (t := .seq k sz t') hc hrec hsub hel g2
        (field := fun wt v q => pbDecField c (fun t v q => rec t v sub q) fresh (.seq k sz t') wt v sub q) (o := fresh t')
        (by intro acc q; unfold pbDecField; simp only [pbInClass, hcl, Val.elems])
        vs [] bs p rest h (pushOk_seq _ _ _ _ _) hld (by simp only [depth] at hd; omega) hp hdr
      simpa using this
  | assoc multi hashed sz key mapped =>
    cases mapped with
    | none =>
      cases v <;> simp only [pbField, pbScalar] at h <;> first | cases h | skip
      rename_i vs
      simp only [pbFieldOk, Bool.and_eq_true] at hok
      obtain ⟨⟨o1, o3⟩, o4⟩ := hok
      have g2 : Good c key = true := by simpa only [Good] using gt
      simp only [cleared]
      simp only [LoadablePbField] at hld
      obtain ⟨hord, hld⟩ := hld
      have hpush : PushOk c (.assoc multi hashed sz key none) vs := pushOk_assoc hord
      by_cases hpk : isPacked key = true
      · rw [if_pos hpk] at h hld
        have hnum : numTy (packedElem key) = true := by
          simp only [pbElemOk, Bool.or_eq_true] at o3
          rcases o3 with (h | h) | h
          · exact h
          · rw [(repeated_class (Or.inl h)).2.1] at hpk; cases hpk
          · rw [(repeated_class (env := c.env) (Or.inr h)).2.1] at hpk; cases hpk
        exact packed_steps hc ha hrec huns hsub rfl hpk hnum (fun _ _ _ e => by cases e) h hpush hld (by omega) hp hdr
      · rw [if_neg hpk] at h hld
        have hel : isMsg c.env key = true ∨ isStr key = true := by
          simp only [pbElemOk, Bool.or_eq_true] at o3
          rcases o3 with (h | h) | h
          · exfalso; apply hpk
            cases key <;> first | rfl | (simp [packedElem, numTy] at h)
          · exact Or.inl h
          · exact Or.inr h
        have hcl := (repeated_class hel).1
        have := repeated_steps (t := .assoc multi hashed sz key none) hc hrec hsub hel g2
          (field := fun wt v q => pbDecField c (fun t v q => rec t v sub q) fresh (.assoc multi hashed sz key none) wt v sub q)
          (o := fresh key)
          (by intro acc q; unfold pbDecField; simp only [pbInClass, hcl, Val.elems])
          vs [] bs p rest h hpush hld (by simp only [depth] at hd; omega) hp hdr
        simpa using this
    | some m =>
      cases v <;> simp only [pbField, pbScalar] at h <;> first | cases h | skip
      rename_i vs
      simp only [pbFieldOk, Bool.and_eq_true] at hok
      obtain ⟨⟨o1, o3⟩, o4⟩ := hok
      simp only [Good, Bool.and_eq_true] at gt
      have ge := good_entry hc o3 o4 gt.1 gt.2
      simp only [cleared]
      simp only [LoadablePbField] at hld
      obtain ⟨hord, hld⟩ := hld
      have hpush : PushOk c (.assoc multi hashed sz key (some m)) vs := pushOk_assoc hord
      have hrep : pbRepeated c.env N (pbEntry key m) vs = some bs := by
        rw [← h]
        clear h single hld hpush hord hd
        induction vs with
        | nil => simp [pbRepeated]
        | cons v vs ih =>
          simp only [pbRepeated]
          rw [ih]
          congr 1
          cases v <;> simp only [pbEntry, pbPayload]
          rw [pbFields_entry]
      have := repeated_steps (t := .assoc multi hashed sz key (some m)) hc hrec hsub
        (Or.inl (by simp [pbEntry, isMsg])) ge
        (field := fun wt v q => pbDecField c (fun t v q => rec t v sub q) fresh (.assoc multi hashed sz key (some m)) wt v sub q)
        (o := fresh (pbEntry key m))
        (by intro acc q; unfold pbDecField; simp only [pbInClass, Val.elems])
        vs [] bs p rest hrep hpush (LoadablePbField_entry hc hld) (by simp only [depth] at hd; omega) hp hdr
      simpa using this
  | _ => simp [pbFieldOk, pbScalarOk, isMsg] at hok

/-! ## Messages -/

theorem fieldNumbers_cons {maps : List (Nat × Nat)} {i : Nat} {n : Option Nat} {ns : List (Option Nat)} :
    fieldNumbers maps i (n :: ns) = fieldNumber maps n i :: fieldNumbers maps (i + 1) ns := rfl

theorem fields_steps {c : Cfg} (hc : InPb c) (ha : AbiOk c.sizeof) {rec : Ty → Val → List UInt8 → Nat → Res} {D : Nat}
    (hrec : DecOk c rec D) (huns : DecUns c rec D) {sub : List UInt8} (hsub : sub.length < 2 ^ 64) {fresh : Ty → Val}
    {maps : List (Nat × Nat)} :
    ∀ (nums : List (Option Nat)) (fs : List Ty) (vs : List Val) (na : List (Option Nat)) (fa : List Ty) (va os : List Val)
      (bs rest : List UInt8) (p : Nat),
      na.length = fa.length → va.length = fa.length → pbFieldsOk c.env maps na.length nums fs = true → GoodL c fs = true →
      nodup (fieldNumbers maps na.length nums) = true →
      (∀ N ∈ fieldNumbers maps na.length nums, N ∉ pbNumbers maps 0 na) →
      pbFields c.env maps na.length nums fs vs = some bs → LoadablePb c fs vs → 2 * depthL vs ≤ D → p ≤ sub.length →
      sub.drop p = bs ++ rest →
      Steps (fun t wt v q => pbDecField c (fun t v q => rec t v sub q) fresh t wt v sub q) maps (na ++ nums) (fa ++ fs) sub
        (va ++ pbClear fs os) p (va ++ vs) (p + bs.length) := by
  intro nums
  induction nums with
  | nil =>
    intro fs vs na fa va os bs rest p _ _ hok _ _ _ h _ _ _ _
    cases fs <;> cases vs <;> simp [pbFields] at h
    subst h
    exact .refl
  | cons n ns ih =>
    intro fs vs na fa va os bs rest p h1 h2 hok hgd hnd hni h hld hd hp hdr
    cases fs <;> cases vs <;> simp only [pbFields] at h <;> first | cases h | skip
    rename_i t ts v vs
    obtain ⟨o1, o2, o3, o4, o5, o6, o7⟩ := fieldOk_of hok
    simp only [GoodL, Bool.and_eq_true] at hgd
    rw [cat_eq_some] at h
    obtain ⟨x, y, hx, hy, rfl⟩ := h
    simp only [depthL] at hd
    simp only [LoadablePb] at hld
    rw [fieldNumbers_cons] at hnd hni
    simp only [nodup, Bool.and_eq_true, Bool.not_eq_true'] at hnd
    rw [List.append_assoc] at hdr
    have s1 := drop_split hp hdr
    have hm := member_steps hc ha hrec huns hsub (fresh := fresh) o1 hgd.1 hx hld.1 (by omega) (os.headD .unit) hp hdr
    have hst := FSteps.steps (field := fun t wt v q => pbDecField c (fun t v q => rec t v sub q) fresh t wt v sub q)
      (maps := maps) (na := na) (nb := ns) (n := n) (fa := fa) (fb := ts) (va := va) (ob := pbClear ts os.tail)
      hm o3 h1 h2 (hni _ (by simp)) o4
    have hrest := ih ts vs (na ++ [n]) (fa ++ [t]) (va ++ [v]) os.tail y rest (p + x.length) (by simp [h1]) (by simp [h2])
      (by simpa using o7) hgd.2 (by simpa using hnd.2) (by
        intro N hN
        rw [pbNumbers_append]
        simp only [List.length_append, List.length_cons, List.length_nil, Nat.zero_add] at hN
        simp only [Nat.zero_add, pbNumbers, List.mem_append, List.mem_cons, List.not_mem_nil, or_false, not_or]
        refine ⟨hni N (by simp [hN]), ?_⟩
        rw [o4]
        intro e
        subst e
        have := hnd.1
        simp [hN] at this) (by simpa using hy) hld.2 (by omega) s1.1 s1.2
    simp only [List.append_assoc, List.cons_append, List.nil_append] at hrest
    have hcl : pbClear (t :: ts) os = cleared t (os.headD .unit) :: pbClear ts os.tail := by
      cases t <;> rfl
    rw [hcl, List.length_append, ← Nat.add_assoc]
    exact hst.trans hrest

/-- The message body is read back. -/
theorem msgRun_rd {c : Cfg} (hc : InPb c) (ha : AbiOk c.sizeof) {rec : Ty → Val → List UInt8 → Nat → Res} {D : Nat}
    (hrec : DecOk c rec D) (huns : DecUns c rec D) {fresh : Ty → Val} {maps : List (Nat × Nat)} {nums : List (Option Nat)}
    {fs : List Ty} (hok : pbFieldsOk c.env maps 0 nums fs = true) (hgd : GoodL c fs = true)
    (hnd : nodup (fieldNumbers maps 0 nums) = true) {vs : List Val} {body : List UInt8}
    (hb : pbFields c.env maps 0 nums fs vs = some body) (hld : LoadablePb c fs vs) (hd : 2 * depthL vs ≤ D)
    {data rest : List UInt8} (hlen : data.length < 2 ^ 64) (old : Val) {p : Nat} (hp : p ≤ data.length)
    (hdr : data.drop p = body ++ rest) {size : Nat} (hsize : min size (data.length - p) = body.length) :
    msgRun c rec fresh maps nums fs old data size p = ⟨.ok, .list vs, p + body.length⟩ := by
  have s := drop_split hp hdr
  have hsub : msgSub data p size = body := by
    unfold msgSub
    rw [hdr, hsize]
    simp
  unfold msgRun
  rw [if_neg (by omega)]
  simp only [hsub]
  have hst := fields_steps hc ha hrec huns (sub := body) (by omega) (fresh := fresh) (maps := maps) nums fs vs [] [] [] old.elems body []
    0 rfl rfl hok hgd hnd (by simp [pbNumbers]) hb hld hd (by omega) (by simp)
  obtain ⟨f', h1, h2⟩ := hst (body.length + 1) (by omega)
  simp only [List.nil_append, Nat.zero_add] at h2 h1
  rw [h2]
  cases f' with
  | zero => omega
  | succ f' => simp [pbLoop]

end Zpp
