import Verif.Proof.InRoundMain
import Verif.Proof.Assoc
import Verif.Spec.Records
/-! # Reading any sequence of protobuf records -/

namespace Zpp
open Spec

/-- Elements pushed one after the other. -/
def pushAll (c : Cfg) (t : Ty) (vs acc : List Val) : List Val := vs.foldl (fun a e => pbPush c t e a) acc

theorem insertSorted_eq {lt : Val → Val → Bool} {isMap : Bool} (e : Val) (vs : List Val) :
    insertSorted lt isMap e vs = vs.takeWhile (fun x => !lt (assocKey isMap e) (assocKey isMap x)) ++
      e :: vs.dropWhile (fun x => !lt (assocKey isMap e) (assocKey isMap x)) := by
  induction vs with
  | nil => rfl
  | cons x xs ih =>
    simp only [insertSorted, List.takeWhile_cons, List.dropWhile_cons]
    by_cases h : lt (assocKey isMap e) (assocKey isMap x) = true
    · simp [h]
    · simp [h, ih]

theorem insertElem_eq (lt : Val → Val → Bool) (multi hashed isMap : Bool) (e : Val) (vs : List Val) :
    insertElem lt multi hashed isMap e vs = assocInsert lt multi hashed isMap e vs := by
  have hall : ∀ f g : Val → Bool, (∀ x, f x = !g x) → vs.all f = !vs.any g := by
    intro f g h; rw [List.not_any_eq_all_not]; congr 1; funext x; exact h x
  have hk : (fun e : Val => if isMap then (match e with | .list (k :: _) => k | _ => .unit) else e) = assocKey isMap := by
    funext x; exact (assocKey_eq isMap x).symm
  have h0 : insertElem lt multi hashed isMap e vs = (if !multi && vs.any (fun x => sameKey lt hashed isMap x e) then vs
      else if hashed then vs ++ [e] else insertSorted lt isMap e vs) := by
    rw [insertSorted_eq, ← hk]; rfl
  rw [h0]
  unfold assocInsert
  cases hashed
  · have h1 := hall (fun x => lt (assocKey isMap x) (assocKey isMap e) || lt (assocKey isMap e) (assocKey isMap x))
      (fun x => sameKey lt false isMap x e) (by
        intro x; rw [sameKey_eq]; simp only [Bool.false_eq_true, if_false]
        cases lt (assocKey isMap x) (assocKey isMap e) <;> cases lt (assocKey isMap e) (assocKey isMap x) <;> rfl)
    simp only [h1, Bool.false_eq_true, if_false]
    cases multi <;> cases vs.any (fun x => sameKey lt false isMap x e) <;> rfl
  · have h1 := hall (fun x => decide (assocKey isMap x ≠ assocKey isMap e))
      (fun x => sameKey lt true isMap x e) (by intro x; rw [sameKey_eq]; simp)
    simp only [h1, if_true]
    cases multi <;> cases vs.any (fun x => sameKey lt true isMap x e) <;> rfl

theorem pushAll_eq (c : Cfg) (t : Ty) (vs acc : List Val) : pushAll c t vs acc = addAll c t vs acc := by
  unfold pushAll addAll
  cases t with
  | assoc multi hashed sz key mapped => simp only [pbPush, insertElem_eq]
  | _ =>
    simp only [pbPush]
    induction vs generalizing acc with
    | nil => simp
    | cons v vs ih => simp [ih]

theorem pbPacked_push {c : Cfg} {t : Ty} {sub : List UInt8} {elem : Nat → Res} {w : Val → Option (List UInt8)}
    {W : List Val → Option (List UInt8)} (hnil : W [] = some []) (hcons : ∀ v vs, W (v :: vs) = cat (w v) (W vs))
    {endPos : Nat} {rest : List UInt8} :
    ∀ (vs acc : List Val) (bs : List UInt8) (p f : Nat), W vs = some bs → p ≤ sub.length → sub.drop p = bs ++ rest →
      endPos = p + bs.length → endPos < f + p →
      (∀ v ∈ vs, ∀ b, w v = some b → 0 < b.length ∧ Rd sub elem b v) →
      pbPacked (pbFetch c t elem) endPos f acc p = ⟨.ok, pushAll c t vs acc, endPos⟩ := by
  intro vs
  induction vs with
  | nil =>
    intro acc bs p f h hp hd he hf _
    rw [hnil] at h; cases h
    simp only [List.length_nil, Nat.add_zero] at he
    subst he
    cases f with
    | zero => omega
    | succ f => simp [pbPacked, pushAll]
  | cons v vs ih =>
    intro acc bs p f h hp hd he hf hr
    rw [hcons, cat_eq_some] at h
    obtain ⟨x, y, hx, hy, rfl⟩ := h
    rw [List.append_assoc] at hd
    obtain ⟨hpos, h1⟩ := hr v (by simp) x hx
    have h1 := h1 p _ hp hd
    have hs := drop_split hp hd
    simp only [List.length_append] at he
    cases f with
    | zero => omega
    | succ f =>
      rw [pbPacked, if_pos (by omega)]
      simp only [pbFetch, h1]
      rw [ih (pbPush c t v acc) y (p + x.length) f hy hs.1 hs.2 (by omega) (by omega)
        (fun v' h' => hr v' (by simp [h']))]
      rfl

/-- The value of a packed member after a packed record. -/
def packedAfter (c : Cfg) (t elem : Ty) (vs : List Val) (cur : Val) : Val :=
  if hasResize t && fixedElem elem then .list vs else .list (pushAll c t vs cur.elems)

/-- A packed record is read. -/
theorem packed_field {c : Cfg} (hc : InPb c) (ha : AbiOk c.sizeof) {rec : Ty → Val → List UInt8 → Nat → Res} {D : Nat}
    (hrec : DecOk c rec D) (huns : DecUns c rec D) {sub : List UInt8} (hsub : sub.length < 2 ^ 64) {fresh : Ty → Val}
    {t elem : Ty} (hcl : pbInClass t = pbElemClass elem) (hp : isPacked elem = true) (hnum : numTy (packedElem elem) = true)
    (hseq : ∀ k s t', t = .seq k s t' → (k = .vector ∨ k = .list) ∧ t' = elem ∧ Good c (.seq k (some .none) elem) = true)
    {vs : List Val} {body : List UInt8} (hb : wireNums (pbFmt c.env) (packedElem elem) vs = some body) (hlt : body.length < 2 ^ 56)
    (hres : PackedFits c (hasResize t) (hasReserve t) elem vs) (hd : 2 * depth (.list vs) ≤ D + 1) (cur : Val)
    {q : Nat} {rest : List UInt8} (hpp : q ≤ sub.length) (hdr : sub.drop q = leb body.length ++ (body ++ rest)) :
    pbDecField c (fun t v q => rec t v sub q) fresh t 2 cur sub q =
      ⟨.ok, packedAfter c t elem vs cur, q + (leb body.length).length + body.length⟩ := by
  have hbody := hres body hb
  have hhdr := decHdr_rd (c := c) (sz := .varint) (n := body.length) (pre := leb body.length) (by simp)
    (by simp only [sizePrefix]; rw [if_pos (by omega)]) hpp hdr
  have s2 := drop_split hpp hdr
  have s3 := drop_split s2.1 s2.2
  have hwa : wireAll (fmtOf c) (packedElem elem) vs = some body := by
    rw [hc.fmt, ← wireNums_eq_wireAll _ _ hnum]; exact hb
  have hD : 2 ≤ D + 1 := by simp only [depth] at hd; omega
  have hwrap : wrap (body.length + (q + (leb body.length).length)) = q + (leb body.length).length + body.length := by
    unfold wrap
    rw [Nat.mod_eq_of_lt (by omega)]; omega
  have hloop : pbPacked (pbFetch c t (rec (packedElem elem) .unit sub))
      (wrap (body.length + (q + (leb body.length).length))) (sub.length + 1) cur.elems (q + (leb body.length).length) =
      ⟨.ok, pushAll c t vs cur.elems, q + (leb body.length).length + body.length⟩ := by
    rw [hwrap]
    exact pbPacked_push (w := wire (fmtOf c) (packedElem elem)) (W := wireAll (fmtOf c) (packedElem elem)) rfl
      (fun _ _ => rfl) vs cur.elems body _ _ hwa s2.1 s2.2 rfl (by omega)
      (fun v' _ b hb' => numTy_rd hrec hsub hnum hD .unit v' b hb')
  unfold pbDecField
  rw [hcl]
  have hvar : ∀ n zz, packedElem elem = .varint n zz → fixedElem elem = false →
      pbDecPacked c (fun t v q => rec t v sub q) t (.varint n zz) false 2 cur sub q =
      ⟨.ok, packedAfter c t elem vs cur, q + (leb body.length).length + body.length⟩ := by
    intro n zz he hfx
    unfold pbDecPacked packedAfter
    simp only [ne_eq, not_true_eq_false, if_false, hhdr, hfx, Bool.and_false, Bool.false_eq_true]
    rw [he] at hloop hbody
    rw [if_neg]
    · rw [hloop]; rfl
    · intro ⟨h1, h2⟩
      have := hbody h1
      omega
  have hfix : ∀ e sz, packedElem elem = e → elem = e → (e = .scalar .int sz ∨ e = .scalar .enum sz ∨ e = .scalar .byte sz ∨
      e = .scalar .chr sz ∨ (e = .bool ∧ sz = 1)) → 0 < sz → fixedElem elem = true →
      pbDecPacked c (fun t v q => rec t v sub q) t e true 2 cur sub q =
      ⟨.ok, packedAfter c t elem vs cur, q + (leb body.length).length + body.length⟩ := by
    intro e sz he he' hel hsz hfx
    have hso : c.sizeof e = sz := by
      rcases hel with rfl | rfl | rfl | rfl | ⟨rfl, rfl⟩ <;> first | exact ha.scalar _ _ hsz | exact ha.bool
    have hbl := wireAll_length (n := sz) (fun v bs hw => wire_num_length hel hw) _ _ (he ▸ hwa)
    have hdiv : body.length / c.sizeof e = vs.length := by
      rw [hbl, hso, Nat.mul_div_cancel _ hsz]
    unfold pbDecPacked packedAfter
    simp only [ne_eq, not_true_eq_false, if_false, hhdr, Bool.and_true, hfx]
    rw [he] at hloop hbody
    cases hr : hasResize t with
    | true =>
      simp only [if_true]
      rw [hr] at hbody
      have hb2 : (c.g.limit = sizeMax ∨ body.length ≤ c.g.limit) ∧ body.length ≤ c.g.maxMem := by
        rcases hel with rfl | rfl | rfl | rfl | ⟨rfl, rfl⟩ <;> exact hbody
      rw [if_neg (by intro ⟨h1, h2⟩; rcases hb2.1 with h | h <;> first | exact h1 h | omega)]
      rw [if_neg (by rw [hdiv, hso, ← hbl]; omega), hdiv]
      cases t with
      | seq k s t' =>
        obtain ⟨hk, rfl, hgs⟩ := hseq k s t' rfl
        simp only [unsizedTy]
        exact huns sub hsub k t' vs _ body hk hgs (by rw [he', ← he]; exact hnum) (by rw [he', ← he]; exact hwa)
          (resizeVals_length _ _ _) hd _ rest s2.1 s2.2
      | _ => simp [hasResize] at hr
    | false =>
      simp only [Bool.false_eq_true, if_false]
      rw [hr] at hbody
      rw [if_neg]
      · rw [hloop]; rfl
      · intro ⟨h1, h2⟩
        have hb2 : hasReserve t = true → body.length * c.sizeof e ≤ c.g.maxMem := by
          rcases hel with rfl | rfl | rfl | rfl | ⟨rfl, rfl⟩ <;> exact hbody
        have := hb2 h1
        omega
  cases elem with
  | scalar k n =>
    cases k with
    | enum => exact hvar n false rfl rfl
    | _ =>
      have hn : 0 < n := by
        simp only [numTy, packedElem, scalarOk, beq_iff_eq, decide_eq_true_eq] at hnum
        omega
      exact hfix _ n rfl rfl (by simp) hn rfl
  | bool => exact hfix _ 1 rfl rfl (by simp) (by omega) rfl
  | varint n zz => exact hvar n zz rfl rfl
  | _ => simp [isPacked] at hp

/-- An element in a record of its own. -/
theorem one_field {c : Cfg} (hc : InPb c) {rec : Ty → Val → List UInt8 → Nat → Res} {D : Nat}
    (hrec : DecOk c rec D) {sub : List UInt8} (hsub : sub.length < 2 ^ 64) {fresh : Ty → Val}
    {t elem : Ty} (hcl : pbInClass t = pbElemClass elem) (hp : isPacked elem = true) (hnum : numTy (packedElem elem) = true)
    (hD : 2 ≤ D + 1) {x : Nat} {b : List UInt8} (hb : wire (pbFmt c.env) (packedElem elem) (.num x) = some b) (cur : Val)
    {wt : Nat} (hwt : wt ≠ 2) {q : Nat} {rest : List UInt8} (hpp : q ≤ sub.length) (hdr : sub.drop q = b ++ rest) :
    pbDecField c (fun t v q => rec t v sub q) fresh t wt cur sub q =
      ⟨.ok, .list (pushAll c t [.num x] cur.elems), q + b.length⟩ := by
  have h1 := (numTy_rd hrec hsub hnum hD .unit (.num x) b (by rw [hc.fmt]; exact hb)).2 q rest hpp hdr
  have hgen : ∀ fix, pbDecPacked c (fun t v q => rec t v sub q) t (packedElem elem) fix wt cur sub q =
      ⟨.ok, .list (pushAll c t [.num x] cur.elems), q + b.length⟩ := by
    intro fix
    unfold pbDecPacked
    simp only [ne_eq, hwt, not_false_eq_true, if_true, pbFetch, h1, ResL.toRes]
    rfl
  unfold pbDecField
  rw [hcl]
  cases elem with
  | scalar k n => cases k <;> exact hgen _
  | bool => exact hgen _
  | varint n zz => exact hgen _
  | _ => simp [isPacked] at hp

/-- Elements in length-delimited records. -/
theorem repeated_push {c : Cfg} (hc : InPb c) {rec : Ty → Val → List UInt8 → Nat → Res} {D : Nat} (hrec : DecOk c rec D)
    {sub : List UInt8} (hsub : sub.length < 2 ^ 64) {N : Nat} {t elem : Ty} (hel : isMsg c.env elem = true ∨ isStr elem = true)
    (gel : Good c elem = true) {field : Nat → Val → Nat → Res} {o : Val}
    (hf : ∀ cur q, field 2 cur q = (pbFetch c t (rec elem o sub) cur.elems q).toRes) :
    ∀ (vs : List Val) (cur : Val) (bs : List UInt8) (p : Nat) (rest : List UInt8), pbRepeated c.env N elem vs = some bs →
      LoadableL c elem vs → 2 * depthL vs ≤ D → p ≤ sub.length → sub.drop p = bs ++ rest →
      FSteps sub field N cur p (if vs.isEmpty then cur else .list (pushAll c t vs cur.elems)) (p + bs.length) := by
  intro vs
  induction vs with
  | nil =>
    intro cur bs p rest h _ _ _ _
    simp only [pbRepeated, Option.some.injEq] at h; subst h
    simpa using FSteps.refl _ _
  | cons v vs ih =>
    intro cur bs p rest h hld hd hp hdr
    simp only [pbRepeated, cat_eq_some] at h
    obtain ⟨x, y, hx, hy, rfl⟩ := h
    obtain ⟨b, hb, rfl⟩ := pbPayload_wire hel hx
    simp only [LoadableL] at hld
    simp only [depthL] at hd
    simp only [List.append_assoc] at hdr
    have s1 := drop_split hp hdr
    have h1 := hrec sub hsub elem v b gel (by rw [hc.fmt]; exact hb) hld.1 (by split <;> omega) o _ _ s1.1 s1.2
    have s2 := drop_split s1.1 s1.2
    have h2 := ih (.list (pbPush c t v cur.elems)) y _ rest hy hld.2 (by omega) s2.1 s2.2
    have hpos := leb_length_pos (N * 8 + 2)
    refine .step (wt := 2) (v1 := .list (pbPush c t v cur.elems)) (p1 := p + (leb (N * 8 + 2)).length + b.length) (by omega) hp hdr ?_
      (by omega) ?_
    · rw [hf]
      simp only [pbFetch, h1, ResL.toRes]
    · have e : (if vs.isEmpty = true then (Val.list (pbPush c t v cur.elems))
          else .list (pushAll c t vs (Val.list (pbPush c t v cur.elems)).elems)) = .list (pushAll c t (v :: vs) cur.elems) := by
        cases vs <;> rfl
      rw [e] at h2
      simpa [Nat.add_assoc] using h2

/-- What is known about reading nested sequences of records. -/
def DecRecs (c : Cfg) (rec : Ty → Val → List UInt8 → Nat → Res) (D : Nat) : Prop :=
  ∀ data, data.length < 2 ^ 64 → ∀ t maps nums fs rs body pre, Good c t = true → msgOf c.env t = some (maps, nums, fs) →
    RecsOk c maps nums fs rs → recsBytes c.env maps nums fs rs = some body →
    sizePrefix (fmtOf c) .varint body.length = some pre →
    2 * (recDepthL rs + 1) ≤ (if t.isRef then D else D + 1) → ∀ old : Val, Rd data (rec t old data) (pre ++ body)
      (.list (recsEffect c fs rs (emptied fs old.elems)))

/-- New objects have their initial values. -/
def DecFresh (c : Cfg) (fresh : Ty → Val) (D : Nat) : Prop :=
  ∀ t o, Initial c.env t o → 2 * depth o ≤ (if t.isRef then D else D + 1) → fresh t = o

mutual
theorem initial_dflt {c : Cfg} {t : Ty} {o : Val} (h : Initial c.env t o) (d : Nat)
    (hd : 2 * depth o ≤ (if t.isRef then d else d + 1)) : dflt c d t = o := by
  cases d with
  | zero =>
    have : 1 ≤ depth o := by cases o <;> simp only [depth] <;> omega
    split at hd <;> omega
  | succ d =>
    match h with
    | .scalar _ _ => rw [dflt]
    | .bool => rw [dflt]
    | .varint _ _ => rw [dflt]
    | .empty => rw [dflt]
    | .struct hs => 
      rw [dflt, initialL_dflt hs d (by simp only [depth, Ty.isRef, Bool.false_eq_true, if_false] at hd; omega)]
    | .msg hs =>
      rw [dflt, initialL_dflt hs d (by simp only [depth, Ty.isRef, Bool.false_eq_true, if_false] at hd; omega)]
    | .array ho =>
      rw [dflt, initial_dflt ho d (by
        simp only [depth, depthL, List.replicate_succ, Ty.isRef, Bool.false_eq_true, if_false] at hd; split <;> omega)]
    | .seq .. => rw [dflt]
    | .assoc .. => rw [dflt]
    | .optional .. => rw [dflt]
    | .optPtr _ => rw [dflt]
    | .uptr _ => rw [dflt]
    | .variant ho =>
      rw [dflt, initial_dflt ho d (by simp only [depth, Ty.isRef, Bool.false_eq_true, if_false] at hd; split <;> omega)]
    | .bitset _ => rw [dflt]
    | .ref (i := i) hi ho =>
      have hi : (c.env i).isRef = false := by
        generalize c.env i = e at hi
        cases e <;> first | rfl | exact absurd rfl (hi _)
      rw [dflt, initial_dflt ho d (by rw [hi]; simp only [Ty.isRef, if_true] at hd; simpa using hd)]
theorem initialL_dflt {c : Cfg} {ts : List Ty} {os : List Val} (h : InitialL c.env ts os) (d : Nat) (hd : 2 * depthL os ≤ d) :
    ts.map (dflt c d) = os := by
  match h with
  | .nil => rfl
  | .cons ho hs =>
    simp only [depthL] at hd
    rw [List.map_cons, initial_dflt ho d (by split <;> omega), initialL_dflt hs d (by omega)]
end

theorem decFresh_dflt (c : Cfg) (d : Nat) : DecFresh c (dflt c d) d := fun _ _ h hd => initial_dflt h d hd

theorem packedOf_eq {t elem : Ty} (h : packedOf t = some elem) : isPacked elem = true ∧
    ((∃ k sz, t = .seq k sz elem) ∨ ∃ multi hashed sz, t = .assoc multi hashed sz elem none) := by
  unfold packedOf at h
  split at h
  · split at h
    · next hp => cases h; exact ⟨hp, Or.inl ⟨_, _, rfl⟩⟩
    · cases h
  · split at h
    · next hp => cases h; exact ⟨hp, Or.inr ⟨_, _, _, rfl⟩⟩
    · cases h
  · cases h

theorem packed_facts {c : Cfg} {maps num i} {t elem : Ty} (hok : pbFieldOk c.env maps num i t = true) (gt : Good c t = true)
    (h : packedOf t = some elem) :
    isPacked elem = true ∧ numTy (packedElem elem) = true ∧ pbInClass t = pbElemClass elem ∧
    (∀ k s t', t = .seq k s t' → (k = .vector ∨ k = .list) ∧ t' = elem ∧ Good c (.seq k (some .none) elem) = true) := by
  obtain ⟨hpk, ht⟩ := packedOf_eq h
  have hnum : pbElemOk c.env elem = true → numTy (packedElem elem) = true := by
    intro o3
    simp only [pbElemOk, Bool.or_eq_true] at o3
    rcases o3 with (h | h) | h
    · exact h
    · rw [(repeated_class (Or.inl h)).2.1] at hpk; cases hpk
    · rw [(repeated_class (env := c.env) (Or.inr h)).2.1] at hpk; cases hpk
  rcases ht with ⟨k, sz, rfl⟩ | ⟨multi, hashed, sz, rfl⟩
  · simp only [pbFieldOk, Bool.and_eq_true] at hok
    refine ⟨hpk, hnum hok.1.2, rfl, ?_⟩
    intro k' s t' e
    cases e
    refine ⟨by simpa using hok.1.1.1, rfl, ?_⟩
    simp only [Good, Bool.and_eq_true] at gt ⊢
    exact ⟨by simpa [nodeOk] using gt.1, gt.2⟩
  · simp only [pbFieldOk, Bool.and_eq_true] at hok
    exact ⟨hpk, hnum hok.1.2, rfl, fun _ _ _ e => by cases e⟩

theorem packedFits_nil (c : Cfg) (a b : Bool) (t : Ty) : PackedFits c a b t [] := by
  intro body hb
  simp only [wireNums, Option.some.injEq] at hb
  subst hb
  split <;> simp

theorem pbScalar_wire {env : Nat → Ty} {N : Nat} {elem : Ty} {x : Nat} {bs : List UInt8}
    (h : pbScalar N elem x = some bs) :
    ∃ wt b, wt < 8 ∧ wt ≠ 2 ∧ bs = leb (N * 8 + wt) ++ b ∧ wire (pbFmt env) (packedElem elem) (.num x) = some b := by
  unfold pbScalar at h
  split at h <;> first | cases h | skip
  · split at h
    · rename_i n hx
      cases h
      exact ⟨0, leb x, by omega, by omega, rfl, by simp [packedElem, wire, wireNum, hx, varintValue]⟩
    · cases h
  · split at h
    · rename_i n zz hx
      cases h
      exact ⟨0, _, by omega, by omega, rfl, by simp [packedElem, wire, wireNum, hx]⟩
    · cases h
  · split at h
    · rename_i hx
      cases h
      refine ⟨0, leb x, by omega, by omega, rfl, ?_⟩
      rw [leb_eq x (by omega), varintBytes_small (by omega)]
      simp [packedElem, wire, wireNum, hx]
    · cases h
  · split at h
    · rename_i hx
      cases h
      exact ⟨5, _, by omega, by omega, rfl, by simp only [packedElem, wire, wireNum, pbFmt]; rw [if_pos (by omega)]⟩
    · cases h
  · split at h
    · rename_i hx
      cases h
      exact ⟨1, _, by omega, by omega, rfl, by simp only [packedElem, wire, wireNum, pbFmt]; rw [if_pos (by omega)]⟩
    · cases h

theorem msgOf_msg {env : Nat → Ty} {t : Ty} {maps nums fs} (h : msgOf env t = some (maps, nums, fs)) :
    (∃ ok, t = .msg none ok maps nums fs) ∨ ∃ i ok, t = .ref i ∧ env i = .msg none ok maps nums fs := by
  unfold msgOf at h
  split at h
  · cases h; exact Or.inl ⟨_, rfl⟩
  · split at h
    · next he => cases h; exact Or.inr ⟨_, _, rfl, he⟩
    · cases h
  · cases h

/-- Containers of messages. -/
theorem elem_facts {c : Cfg} (hc : InPb c) {maps : List (Nat × Nat)} {num i} {t : Ty} {x} (hok : pbFieldOk c.env maps num i t = true)
    (gt : Good c t = true) (hmo : msgOf c.env (elemTy t) = some x) {rec : Ty → Val → Nat → Res} {fresh : Ty → Val} :
    Good c (elemTy t) = true ∧ ∀ wt cur data q, pbDecField c rec fresh t wt cur data q =
      (pbFetch c t (rec (elemTy t) (fresh (elemTy t))) cur.elems q).toRes := by
  have hmsg : ∀ e, msgOf c.env e = some x → isMsg c.env e = true := by
    intro e he
    obtain ⟨a, b, f⟩ := x
    rcases msgOf_msg he with ⟨ok, rfl⟩ | ⟨i, ok, rfl, hi⟩
    · rfl
    · simp [isMsg, hi]
  cases t with
  | seq k sz e =>
    have hcl := (repeated_class (Or.inl (hmsg e hmo))).1
    simp only [Good, Bool.and_eq_true] at gt
    refine ⟨gt.2, ?_⟩
    intro wt cur data q
    unfold pbDecField
    simp only [pbInClass, hcl]
    rfl
  | assoc multi hashed sz key mapped =>
    cases mapped with
    | none =>
      have hcl := (repeated_class (Or.inl (hmsg key hmo))).1
      refine ⟨by simpa only [Good, elemTy] using gt, ?_⟩
      intro wt cur data q
      unfold pbDecField
      simp only [pbInClass, hcl]
      rfl
    | some mt =>
      simp only [pbFieldOk, Bool.and_eq_true] at hok
      obtain ⟨⟨o1, o3⟩, o4⟩ := hok
      simp only [Good, Bool.and_eq_true] at gt
      have ge := good_entry hc o3 o4 gt.1 gt.2
      have he : elemTy (.assoc multi hashed sz key (some mt)) = pbEntry key mt := by
        cases key <;> cases mt <;> rfl
      rw [he]
      refine ⟨ge, ?_⟩
      intro wt cur data q
      unfold pbDecField
      simp only [pbInClass]
  | _ => simp [elemTy, msgOf] at hmo

/-- One record of a member. -/
theorem rec_steps {c : Cfg} (hc : InPb c) (ha : AbiOk c.sizeof) {rec : Ty → Val → List UInt8 → Nat → Res} {D : Nat}
    (hrec : DecOk c rec D) (huns : DecUns c rec D) (hrecs : DecRecs c rec D)
    {sub : List UInt8} (hsub : sub.length < 2 ^ 64) {fresh : Ty → Val} (hfr : DecFresh c fresh D)
    {maps : List (Nat × Nat)} {nums : List (Option Nat)} {fs : List Ty} {num i t}
    (hok : pbFieldOk c.env maps num i t = true) (gt : Good c t = true) {m : Nat}
    (hm : fs[m]? = some t) {r : Rec} (hr : r.member = some m) (hro : RecOk c maps nums fs r) (hd : 2 * recDepth r ≤ D)
    {bs : List UInt8} (h : recBytes c.env maps nums fs r = some bs) (cur : Val)
    {p : Nat} {rest : List UInt8} (hp : p ≤ sub.length) (hdr : sub.drop p = bs ++ rest) :
    FSteps sub (fun wt v q => pbDecField c (fun t v q => rec t v sub q) fresh t wt v sub q) (numberAt maps nums m) cur p
      (recEffect c t r cur) (p + bs.length) := by
  have hpos2 := leb_length_pos (numberAt maps nums m * 8 + 2)
  cases r with
  | unknown => cases hr
  | one m' e =>
    cases hr
    simp only [recBytes, hm] at h
    cases hpo : packedOf t with
    | none => simp [hpo] at h
    | some elem =>
      rw [hpo] at h
      cases e <;> simp only at h <;> first | cases h | skip
      rename_i x
      obtain ⟨hpk, hnum, hcl, _⟩ := packed_facts hok gt hpo
      obtain ⟨wt, b, h1, h2, rfl, h3⟩ := pbScalar_wire (env := c.env) h
      rw [List.append_assoc] at hdr
      have s1 := drop_split hp hdr
      have hpos := leb_length_pos (numberAt maps nums m * 8 + wt)
      refine .step h1 hp hdr (one_field hc hrec hsub hcl hpk hnum (by simp only [recDepth] at hd; omega) h3 cur h2 s1.1 s1.2)
        (by omega) ?_
      simp only [recEffect, ← pushAll_eq, List.length_append, ← Nat.add_assoc]
      exact .refl _ _
  | blank m' =>
    cases hr
    simp only [recBytes, hm] at h
    cases hpo : packedOf t with
    | none => simp [hpo] at h
    | some elem =>
      simp only [hpo, Option.isSome_some, if_true, Option.some.injEq] at h
      subst h
      obtain ⟨hpk, hnum, hcl, hseq⟩ := packed_facts hok gt hpo
      simp only [pbRecord, List.append_assoc] at hdr
      have s1 := drop_split hp hdr
      have := packed_field hc ha hrec huns hsub (fresh := fresh) hcl hpk hnum hseq (vs := []) (body := []) rfl (by simp)
        (packedFits_nil _ _ _ _) (by simp only [recDepth] at hd; simp [depth, depthL]; omega) cur s1.1 s1.2
      refine .step (wt := 2) (by omega) hp hdr this (by omega) ?_
      have e : packedAfter c t elem [] cur = recEffect c t (.blank m) cur := by
        rcases (packedOf_eq hpo).2 with ⟨k, sz, rfl⟩ | ⟨multi, hashed, sz, rfl⟩
        · have hk := (hseq k sz elem rfl).1
          unfold packedAfter
          simp only [recEffect]
          rcases hk with rfl | rfl <;> rfl
        · rfl
      rw [e]
      simp only [pbRecord, List.length_append, ← Nat.add_assoc]
      exact .refl _ _
  | sub m' rs =>
    cases hr
    simp only [recBytes, hm] at h
    cases hmo : msgOf c.env t with
    | none => simp [hmo] at h
    | some x =>
      obtain ⟨maps', nums', fs'⟩ := x
      simp only [hmo] at h
      unfold pbLen at h
      cases hb : recsBytes c.env maps' nums' fs' rs with
      | none => simp [hb] at h
      | some body =>
        simp only [hb] at h
        split at h
        · rename_i hlt
          cases h
          simp only [pbRecord, List.append_assoc] at hdr
          have s1 := drop_split hp hdr
          have hr := hrecs sub hsub t maps' nums' fs' rs body (leb body.length) gt hmo (by
              simp only [RecOk] at hro; exact hro t _ _ _ hm hmo) hb
            (by simp only [sizePrefix]; rw [if_pos (by omega)]) (by simp only [recDepth] at hd; split <;> omega) cur
            _ _ s1.1 (by simpa using s1.2)
          have hcl : pbInClass t = .single := by
            unfold msgOf at hmo
            cases t <;> first | rfl | cases hmo
          refine .step (wt := 2) (by omega) hp hdr (v1 := recEffect c t (.sub m rs) cur) (p1 := p + (pbRecord (numberAt maps nums m)
              (.len body)).length) ?_ (by simp [pbRecord]; omega) (.refl _ _)
          unfold pbDecField
          rw [hcl]
          simp only [hr, recEffect, members, hmo, Option.map_some, Option.getD_some]
          simp [pbRecord, Nat.add_assoc]
        · cases h
  | elem m' o rs =>
    cases hr
    simp only [recBytes, hm] at h
    cases hmo : msgOf c.env (elemTy t) with
    | none => simp [hmo] at h
    | some x =>
      obtain ⟨maps', nums', fs'⟩ := x
      simp only [hmo] at h
      unfold pbLen at h
      cases hb : recsBytes c.env maps' nums' fs' rs with
      | none => simp [hb] at h
      | some body =>
        simp only [hb] at h
        split at h
        · rename_i hlt
          cases h
          simp only [pbRecord, List.append_assoc] at hdr
          have s1 := drop_split hp hdr
          simp only [RecOk] at hro
          obtain ⟨hio, hrs⟩ := hro t _ _ _ hm hmo
          simp only [recDepth] at hd
          have hfo : fresh (elemTy t) = o := hfr _ _ hio (by split <;> omega)
          obtain ⟨gel, hfd⟩ := elem_facts hc hok gt hmo (rec := fun t v q => rec t v sub q) (fresh := fresh)
          have hr := hrecs sub hsub (elemTy t) maps' nums' fs' rs body (leb body.length) gel hmo hrs hb
            (by simp only [sizePrefix]; rw [if_pos (by omega)]) (by split <;> omega) o
            _ _ s1.1 (by simpa using s1.2)
          refine .step (wt := 2) (by omega) hp hdr (v1 := recEffect c t (.elem m o rs) cur) (p1 := p + (pbRecord (numberAt maps nums m)
              (.len body)).length) ?_ (by simp [pbRecord]; omega) (.refl _ _)
          rw [hfd, hfo]
          simp only [pbFetch, hr, ResL.toRes, recEffect, members, hmo, Option.map_some, Option.getD_some]
          rw [← pushAll_eq]
          simp [pbRecord, Nat.add_assoc, pushAll]
        · cases h
  | field m' v =>
    cases hr
    simp only [recBytes, hm] at h
    have hld : LoadableRec c t v := by simp only [RecOk] at hro; exact hro t hm
    simp only [recDepth] at hd
    have gen : cleared t cur = cur → recEffect c t (.field m v) cur = v → LoadablePbField c t v →
        FSteps sub (fun wt v q => pbDecField c (fun t v q => rec t v sub q) fresh t wt v sub q) (numberAt maps nums m) cur p
          (recEffect c t (.field m v) cur) (p + bs.length) := by
      intro h1 h2 h3
      have := member_steps hc ha hrec huns hsub (fresh := fresh) hok gt h h3 hd cur hp hdr
      rw [h1] at this
      rw [h2]; exact this
    have packed : ∀ elem vs, packedOf t = some elem → v = .list vs → PackedFits c (hasResize t) (hasReserve t) elem vs →
        pbPackedField c.env (numberAt maps nums m) elem vs = some bs →
        FSteps sub (fun wt v q => pbDecField c (fun t v q => rec t v sub q) fresh t wt v sub q) (numberAt maps nums m) cur p
          (if vs.isEmpty then cur else packedAfter c t elem vs cur) (p + bs.length) := by
      intro elem vs hpo hv hfit h9
      subst hv
      obtain ⟨hpk, hnum, hcl, hseq⟩ := packed_facts hok gt hpo
      cases vs with
      | nil =>
        simp only [pbPackedField, Option.some.injEq] at h9; subst h9
        exact .refl _ _
      | cons v vs =>
        simp only [pbPackedField] at h9
        cases hb : wireNums (pbFmt c.env) (packedElem elem) (v :: vs) with
        | none => simp [hb] at h9
        | some body =>
          simp only [hb] at h9
          split at h9
          · rename_i hlt
            cases h9
            simp only [pbRecord, List.append_assoc] at hdr
            have s1 := drop_split hp hdr
            have := packed_field hc ha hrec huns hsub (fresh := fresh) hcl hpk hnum hseq hb hlt hfit (by omega) cur s1.1 s1.2
            refine .step (wt := 2) (by omega) hp hdr this (by omega) ?_
            simp only [pbRecord, List.length_append, ← Nat.add_assoc]
            exact .refl _ _
          · cases h9
    cases t with
    | seq k sz t' =>
      cases v <;> simp only [pbField, pbScalar] at h <;> first | cases h | skip
      rename_i vs
      simp only [LoadableRec, LoadablePbField] at hld
      simp only [pbFieldOk, Bool.and_eq_true] at hok
      obtain ⟨⟨⟨o1, o2⟩, o3⟩, o4⟩ := hok
      have hk : k = .vector ∨ k = .list := by simpa using o1
      by_cases hpk : isPacked t' = true
      · rw [if_pos hpk] at h hld
        have hr1 : hasResize (.seq k sz t') = true := by rcases hk with rfl | rfl <;> rfl
        have hr2 : hasReserve (.seq k sz t') = (k == .vector) := by rcases hk with rfl | rfl <;> rfl
        have := packed t' vs (by simp [packedOf, hpk]) rfl (by rw [hr1, hr2]; exact hld) h
        unfold packedAfter at this
        rw [hr1, Bool.true_and, pushAll_eq] at this
        simp only [recEffect]
        exact this
      · rw [if_neg hpk] at h hld
        have g2 : Good c t' = true := by simp only [Good, Bool.and_eq_true] at gt; exact gt.2
        have hel : isMsg c.env t' = true ∨ isStr t' = true := by
          simp only [pbElemOk, Bool.or_eq_true] at o3
          rcases o3 with (h | h) | h
          · exfalso; apply hpk
            cases t' <;> first | rfl | (simp [packedElem, numTy] at h)
          · exact Or.inl h
          · exact Or.inr h
        have hcl := (repeated_class hel).1
        have := repeated_push (t := .seq k sz t') hc hrec hsub hel g2
          (field := fun wt v q => pbDecField c (fun t v q => rec t v sub q) fresh (.seq k sz t') wt v sub q) (o := fresh t')
          (by intro acc q; unfold pbDecField; simp only [pbInClass, hcl])
          vs cur bs p rest h hld (by simp only [depth] at hd; omega) hp hdr
        have hfx : fixedElem t' = false := by
          cases t' with
          | scalar => simp [isPacked] at hpk
          | bool => simp [isPacked] at hpk
          | _ => rfl
        simp only [recEffect, Val.elems, hfx, Bool.false_eq_true, if_false]
        rw [pushAll_eq] at this
        exact this
    | assoc multi hashed sz key mapped =>
      cases mapped with
      | none =>
        cases v <;> simp only [pbField, pbScalar] at h <;> first | cases h | skip
        rename_i vs
        simp only [LoadableRec] at hld
        simp only [pbFieldOk, Bool.and_eq_true] at hok
        obtain ⟨⟨o1, o3⟩, o4⟩ := hok
        by_cases hpk : isPacked key = true
        · rw [if_pos hpk] at h hld
          have := packed key vs (by simp [packedOf, hpk]) rfl hld h
          unfold packedAfter at this
          rw [show hasResize (.assoc multi hashed sz key none) = false from rfl, Bool.false_and, pushAll_eq] at this
          simp only [recEffect]
          exact this
        · rw [if_neg hpk] at h hld
          have g2 : Good c key = true := by simpa only [Good] using gt
          have hel : isMsg c.env key = true ∨ isStr key = true := by
            simp only [pbElemOk, Bool.or_eq_true] at o3
            rcases o3 with (h | h) | h
            · exfalso; apply hpk
              cases key <;> first | rfl | (simp [packedElem, numTy] at h)
            · exact Or.inl h
            · exact Or.inr h
          have hcl := (repeated_class hel).1
          have := repeated_push (t := .assoc multi hashed sz key none) hc hrec hsub hel g2
            (field := fun wt v q => pbDecField c (fun t v q => rec t v sub q) fresh (.assoc multi hashed sz key none) wt v sub q)
            (o := fresh key)
            (by intro acc q; unfold pbDecField; simp only [pbInClass, hcl])
            vs cur bs p rest h hld (by simp only [depth] at hd; omega) hp hdr
          simp only [recEffect, Val.elems]
          rw [pushAll_eq] at this
          exact this
      | some mt =>
        cases v <;> simp only [pbField, pbScalar] at h <;> first | cases h | skip
        rename_i vs
        simp only [LoadableRec] at hld
        simp only [pbFieldOk, Bool.and_eq_true] at hok
        obtain ⟨⟨o1, o3⟩, o4⟩ := hok
        simp only [Good, Bool.and_eq_true] at gt
        have ge := good_entry hc o3 o4 gt.1 gt.2
        have hrep : pbRepeated c.env (numberAt maps nums m) (pbEntry key mt) vs = some bs := by
          rw [← h]
          clear h gen packed hld hd hro
          induction vs with
          | nil => simp [pbRepeated]
          | cons v vs ih =>
            simp only [pbRepeated]
            rw [ih]
            congr 1
            cases v <;> simp only [pbEntry, pbPayload]
            rw [pbFields_entry]
        have := repeated_push (t := .assoc multi hashed sz key (some mt)) hc hrec hsub
          (Or.inl (by simp [pbEntry, isMsg])) ge
          (field := fun wt v q => pbDecField c (fun t v q => rec t v sub q) fresh (.assoc multi hashed sz key (some mt)) wt v sub q)
          (o := fresh (pbEntry key mt))
          (by intro acc q; unfold pbDecField; simp only [pbInClass])
          vs cur bs p rest hrep (LoadablePbField_entry hc hld) (by simp only [depth] at hd; omega) hp hdr
        simp only [recEffect, Val.elems]
        rw [pushAll_eq] at this
        exact this
    | empty =>
      cases v <;> simp [pbField, pbScalar] at h
      subst h; exact .refl _ _
    | _ => first
      | exact gen rfl rfl hld
      | (exact gen rfl (by simp only [recEffect]) (by simpa only [LoadableRec] using hld))


/-! ## Sequences of records -/

theorem fieldsOk_at {c : Cfg} {maps : List (Nat × Nat)} {t : Ty} :
    ∀ (m i : Nat) (nums : List (Option Nat)) (fs : List Ty), pbFieldsOk c.env maps i nums fs = true → fs[m]? = some t →
      ∃ na n nb fa fb, nums = na ++ n :: nb ∧ fs = fa ++ t :: fb ∧ na.length = m ∧ fa.length = m ∧
        pbFieldOk c.env maps n (i + m) t = true ∧ 0 < fieldNumber maps n (i + m) ∧ fieldNumber maps n (i + m) < 2 ^ 29 ∧
        pbNumber maps n (i + m) = fieldNumber maps n (i + m) ∧ pbNumbers maps i na = fieldNumbers maps i na := by
  intro m
  induction m with
  | zero =>
    intro i nums fs h hm
    cases fs with
    | nil => simp at hm
    | cons t' ts =>
      cases nums with
      | nil => simp [pbFieldsOk] at h
      | cons n ns =>
        simp only [List.getElem?_cons_zero, Option.some.injEq] at hm
        subst hm
        obtain ⟨o1, o2, o3, o4, o5, o6, o7⟩ := fieldOk_of h
        exact ⟨[], n, ns, [], ts, rfl, rfl, rfl, rfl, o1, o2, o3, o4, rfl⟩
  | succ m ih =>
    intro i nums fs h hm
    cases fs with
    | nil => simp at hm
    | cons t' ts =>
      cases nums with
      | nil => simp [pbFieldsOk] at h
      | cons n ns =>
        simp only [List.getElem?_cons_succ] at hm
        obtain ⟨o1, o2, o3, o4, o5, o6, o7⟩ := fieldOk_of h
        obtain ⟨na, n', nb, fa, fb, h1, h2, h3, h4, h5, h6, h7, h8, h9⟩ := ih (i + 1) ns ts o7 hm
        refine ⟨n :: na, n', nb, t' :: fa, fb, by simp [h1], by simp [h2], by simp [h3], by simp [h4], ?_⟩
        rw [show i + (m + 1) = i + 1 + m by omega]
        refine ⟨h5, h6, h7, h8, ?_⟩
        simp only [pbNumbers, fieldNumbers, h9, o4]

theorem fieldNumbers_append (maps : List (Nat × Nat)) : ∀ (a b : List (Option Nat)) (i : Nat),
    fieldNumbers maps i (a ++ b) = fieldNumbers maps i a ++ fieldNumbers maps (i + a.length) b
  | [], b, i => by simp [fieldNumbers]
  | n :: a, b, i => by
    simp only [List.cons_append, fieldNumbers, fieldNumbers_append maps a b (i + 1), List.length_cons]
    rw [show i + 1 + a.length = i + (a.length + 1) by omega]

theorem nodup_append_not_mem {a b : List Nat} {x : Nat} (h : nodup (a ++ x :: b) = true) : x ∉ a := by
  induction a with
  | nil => simp
  | cons y a ih =>
    simp only [List.cons_append, nodup, Bool.and_eq_true, Bool.not_eq_true'] at h
    simp only [List.mem_cons, not_or]
    refine ⟨?_, ih h.2⟩
    intro e
    subst e
    have := h.1
    simp at this

theorem pbDispatch_miss {c : Cfg} {field : Ty → Nat → Val → Nat → Res} {maps : List (Nat × Nat)} {N wt p : Nat} (hN : 0 < N) :
    ∀ (nums : List (Option Nat)) (fs : List Ty) (vs : List Val) (i : Nat), pbFieldsOk c.env maps i nums fs = true →
      vs.length = fs.length → N ∉ fieldNumbers maps i nums →
      pbDispatch field maps N wt i nums fs vs p = ⟨.ok, vs, p⟩ := by
  intro nums
  induction nums with
  | nil =>
    intro fs vs i h _ _
    cases fs with
    | nil => simp only [pbDispatch]; rw [if_neg (by omega)]
    | cons => simp [pbFieldsOk] at h
  | cons n ns ih =>
    intro fs vs i h hl hni
    cases fs with
    | nil => simp [pbFieldsOk] at h
    | cons t ts =>
      cases vs with
      | nil => simp at hl
      | cons v vs =>
        obtain ⟨o1, o2, o3, o4, o5, o6, o7⟩ := fieldOk_of h
        simp only [fieldNumbers, List.mem_cons, not_or] at hni
        simp only [pbDispatch]
        rw [o4, if_neg (fun e => hni.1 e.symm)]
        simp only [List.length_cons] at hl
        simp only [List.headD_cons, List.tail_cons]
        rw [ih ts vs (i + 1) o7 (by omega) hni.2]

theorem recsEffect_length (c : Cfg) (fs : List Ty) : ∀ (rs : List Rec) (vs : List Val),
    (recsEffect c fs rs vs).length = vs.length
  | [], vs => by rw [recsEffect]
  | r :: rs, vs => by
    rw [recsEffect, recsEffect_length c fs rs]
    split <;> simp

theorem recs_steps {c : Cfg} (hc : InPb c) (ha : AbiOk c.sizeof) {rec : Ty → Val → List UInt8 → Nat → Res} {D : Nat}
    (hrec : DecOk c rec D) (huns : DecUns c rec D) (hrecs : DecRecs c rec D)
    {sub : List UInt8} (hsub : sub.length < 2 ^ 64) {fresh : Ty → Val} (hfr : DecFresh c fresh D)
    {maps : List (Nat × Nat)} {nums : List (Option Nat)} {fs : List Ty} (hok : pbFieldsOk c.env maps 0 nums fs = true)
    (hgd : GoodL c fs = true) (hnd : nodup (fieldNumbers maps 0 nums) = true) :
    ∀ (rs : List Rec) (vs : List Val) (bs rest : List UInt8) (p : Nat), vs.length = fs.length → RecsOk c maps nums fs rs →
      recsBytes c.env maps nums fs rs = some bs → 2 * recDepthL rs ≤ D → p ≤ sub.length → sub.drop p = bs ++ rest →
      Steps (fun t wt v q => pbDecField c (fun t v q => rec t v sub q) fresh t wt v sub q) maps nums fs sub
        vs p (recsEffect c fs rs vs) (p + bs.length) := by
  intro rs
  induction rs with
  | nil =>
    intro vs bs rest p _ _ h _ _ _
    simp only [recsBytes, Option.some.injEq] at h
    subst h
    rw [recsEffect]
    exact .refl
  | cons r rs ih =>
    intro vs bs rest p hl hro h hd hp hdr
    simp only [recsBytes, cat_eq_some] at h
    obtain ⟨x, y, hx, hy, rfl⟩ := h
    simp only [RecsOk] at hro
    simp only [recDepthL] at hd
    rw [List.append_assoc] at hdr
    have s1 := drop_split hp hdr
    rw [recsEffect, List.length_append, ← Nat.add_assoc]
    refine Steps.trans ?_ (ih _ y rest (p + x.length) (by split <;> simp [hl]) hro.2 hy (by omega) s1.1 s1.2)
    cases hm : r.member with
    | none =>
      cases r <;> first | cases hm | skip
      rename_i num wt
      simp only [recBytes, Option.some.injEq] at hx
      subst hx
      simp only [RecOk] at hro
      obtain ⟨⟨u1, u2, u3, u4⟩, _⟩ := hro
      intro f hf'
      have hpos := leb_length_pos (num * 8 + wt)
      have hpl : p < sub.length := by
        have := congrArg List.length hdr
        simp only [List.length_drop, List.length_append] at *
        omega
      cases f with
      | zero => omega
      | succ f =>
        refine ⟨f, by omega, ?_⟩
        have hv := getVarint_rd (n := 4) (by simp [IntWidth]) false (x := num * 8 + wt) (by omega) (.num 0) hp
          (by simpa [varintValue] using hdr)
        simp only [varintValue, Bool.false_eq_true, if_false] at hv
        rw [pbLoop, if_pos hpl, hv]
        simp only [(tag_shift num wt u4).1, (tag_shift num wt u4).2]
        rw [pbDispatch_miss u2 nums fs vs 0 hok hl u1]
    | some m =>
      have hmt : ∃ t, fs[m]? = some t := by
        cases ht : fs[m]? with
        | some t => exact ⟨t, rfl⟩
        | none => cases r <;> cases hm <;> simp [recBytes, ht] at hx
      obtain ⟨t, ht⟩ := hmt
      obtain ⟨na, n, nb, fa, fb, h1, h2, h3, h4, h5, h6, h7, h8, h9⟩ := fieldsOk_at m 0 nums fs hok ht
      rw [Nat.zero_add] at h5 h6 h7 h8
      have hN : numberAt maps nums m = fieldNumber maps n m := by
        simp only [numberAt, h1, List.getD, ← h3, List.getElem?_append_right (Nat.le_refl _), Nat.sub_self]
        simp
      have hgt : Good c t = true := GoodL_mem hgd t (by rw [h2]; simp)
      have hml : m < vs.length := by
        rw [hl, h2]; simp; omega
      have hst := FSteps.steps (field := fun t wt v q => pbDecField c (fun t v q => rec t v sub q) fresh t wt v sub q)
        (maps := maps) (na := na) (nb := nb) (n := n) (fa := fa) (fb := fb) (va := vs.take m) (ob := vs.drop (m + 1))
        (rec_steps hc ha hrec huns hrecs hsub (fresh := fresh) hfr h5 hgt ht hm hro.1 (by omega) hx (vs.getD m .unit) hp hdr)
        (by rw [hN]; exact h7) (by omega) (by simp; omega) (by
          rw [h9, hN]
          rw [h1, fieldNumbers_append] at hnd
          simp only [Nat.zero_add, h3, fieldNumbers] at hnd
          exact nodup_append_not_mem hnd) (by rw [h3, hN]; exact h8)
      have e1 : vs.take m ++ vs.getD m .unit :: vs.drop (m + 1) = vs := by
        have e0 : vs.getD m .unit = vs[m] := by simp [List.getD, List.getElem?_eq_getElem hml]
        rw [e0, List.getElem_cons_drop]
        exact List.take_append_drop m vs
      have e2 : vs.take m ++ recEffect c t r (vs.getD m .unit) :: vs.drop (m + 1) =
          vs.set m (recEffect c (fs.getD m .empty) r (vs.getD m .unit)) := by
        rw [List.set_eq_take_append_cons_drop, if_pos hml]
        simp [List.getD, ht]
      rw [e1, e2, ← h1, ← h2] at hst
      exact hst

theorem pbClear_emptied : ∀ (fs : List Ty) (os : List Val), pbClear fs os = emptied fs os
  | [], _ => rfl
  | t :: ts, os => by
    simp only [pbClear, emptied, pbClear_emptied ts]
    cases t <;> rfl

theorem emptied_length : ∀ (fs : List Ty) (os : List Val), (emptied fs os).length = fs.length
  | [], _ => rfl
  | t :: ts, os => by rw [emptied, List.length_cons, emptied_length ts, List.length_cons]

/-- A message body that is a sequence of records. -/
theorem msgRun_recs {c : Cfg} (hc : InPb c) (ha : AbiOk c.sizeof) {rec : Ty → Val → List UInt8 → Nat → Res} {D : Nat}
    (hrec : DecOk c rec D) (huns : DecUns c rec D) (hrecs : DecRecs c rec D) {fresh : Ty → Val}
    (hfr : DecFresh c fresh D) {maps : List (Nat × Nat)}
    {nums : List (Option Nat)} {fs : List Ty} (hok : pbFieldsOk c.env maps 0 nums fs = true) (hgd : GoodL c fs = true)
    (hnd : nodup (fieldNumbers maps 0 nums) = true) {rs : List Rec} {body : List UInt8}
    (hb : recsBytes c.env maps nums fs rs = some body) (hld : RecsOk c maps nums fs rs) (hd : 2 * recDepthL rs ≤ D)
    {data rest : List UInt8} (hlen : data.length < 2 ^ 64) (old : Val) {p : Nat} (hp : p ≤ data.length)
    (hdr : data.drop p = body ++ rest) {size : Nat} (hsize : min size (data.length - p) = body.length) :
    msgRun c rec fresh maps nums fs old data size p =
      ⟨.ok, .list (recsEffect c fs rs (emptied fs old.elems)), p + body.length⟩ := by
  have s := drop_split hp hdr
  have hsub : msgSub data p size = body := by
    unfold msgSub
    rw [hdr, hsize]
    simp
  unfold msgRun
  rw [if_neg (by omega)]
  simp only [hsub]
  have hst := recs_steps hc ha hrec huns hrecs (sub := body) (by omega) (fresh := fresh) hfr hok hgd hnd rs (pbClear fs old.elems)
    body [] 0 (by rw [pbClear_emptied, emptied_length]) hld hb hd (by omega) (by simp)
  obtain ⟨f', h1, h2⟩ := hst (body.length + 1) (by omega)
  simp only [Nat.zero_add] at h2 h1
  rw [h2]
  cases f' with
  | zero => omega
  | succ f' => simp [pbLoop, pbClear_emptied]

theorem decode_recs (d : Nat) : ∀ (c : Cfg), InPb c → AbiOk c.sizeof → EnvGood c → DecRecs c (decode d c) d := by
  induction d with
  | zero =>
    intro c _ _ _ data _ t maps nums fs rs body pre _ _ _ _ _ hd
    split at hd <;> omega
  | succ d ih =>
    intro c hc ha he data hlen t maps nums fs rs body pre gt hmo hro hb hpre hd old p rest hp hdr
    rcases msgOf_msg hmo with ⟨ok, rfl⟩ | ⟨i, ok, rfl, hi⟩
    · simp only [Ty.isRef, Bool.false_eq_true, if_false] at hd
      have hdsz : c.dsz = .varint := by rw [← hc.idem]; rfl
      have hne : effSz c none ≠ .none := by simp [effSz, hdsz]
      simp only [Good, nodeOk, Bool.and_eq_true] at gt
      obtain ⟨⟨⟨⟨g1, g2⟩, g3⟩, g4⟩, g5⟩ := gt
      rw [List.append_assoc] at hdr
      have s1 := drop_split hp hdr
      have hh := decHdr_rd hne (pre := pre) (by simpa [effSz, hdsz] using hpre) hp hdr
      obtain ⟨ihp, ihu⟩ := decode_round d c ha he
      have hrun := msgRun_recs (c := c) hc ha ihp ihu (ih c hc ha he) (fresh := dflt c d) (decFresh_dflt c d) (maps := maps)
        g1 (by rw [insideMsg_eq, hc.idem] at g5; exact g5) g2 hb hro (by omega) hlen old s1.1 s1.2
        (size := body.length) (by have := drop_split s1.1 s1.2; omega)
      rw [decode]
      split
      · rename_i h; exact absurd h hne
      · simp only [hc.idem, hh, hrun, List.length_append, ← Nat.add_assoc]
    · simp only [Ty.isRef, if_true] at hd
      rw [decode, hi]
      refine ih c hc ha he data hlen (.msg none ok maps nums fs) maps nums fs rs body pre ?_ rfl hro hb hpre ?_ old p rest hp hdr
      · rw [← hi]; exact (he i).1
      · simp only [Ty.isRef, Bool.false_eq_true, if_false]; omega

/-- A message with size prefix whose body is a sequence of records. -/
theorem msg_recs (d : Nat) (c : Cfg) (ha : AbiOk c.sizeof) (he : EnvGood c) {sz : Option SizeTy}
    {ok : Bool} {maps : List (Nat × Nat)} {nums : List (Option Nat)} {fs : List Ty} {rs : List Rec} {body pre rest : List UInt8}
    (gt : Good c (.msg sz ok maps nums fs) = true) (hb : recsBytes c.env maps nums fs rs = some body)
    (hpre : sizePrefix (fmtOf c) (sz.getD c.dsz) body.length = some pre) (hend : sz.getD c.dsz = .none → rest = [])
    (hro : RecsOk (pbCfg c) maps nums fs rs) (hd : 2 * recDepthL rs ≤ d) (old : Val) {data : List UInt8}
    (hlen : data.length < 2 ^ 64) {p : Nat} (hp : p ≤ data.length) (hdr : data.drop p = pre ++ (body ++ rest)) :
    decode (d + 1) c (.msg sz ok maps nums fs) old data p =
      ⟨.ok, .list (recsEffect (pbCfg c) fs rs (emptied fs old.elems)), p + pre.length + body.length⟩ := by
  simp only [Good, nodeOk, Bool.and_eq_true] at gt
  obtain ⟨⟨⟨⟨g1, g2⟩, g3⟩, g4⟩, g5⟩ := gt
  have s1 := drop_split hp hdr
  obtain ⟨ihp, ihu⟩ := decode_round d (pbCfg c) ha (EnvGood.pb he)
  have hrun := fun size hs => msgRun_recs (c := pbCfg c) (inPb_pbCfg c) ha ihp ihu
    (decode_recs d (pbCfg c) (inPb_pbCfg c) ha (EnvGood.pb he)) (fresh := dflt (pbCfg c) d)
    (decFresh_dflt (pbCfg c) d) (maps := maps)
    g1 g5 g2 hb hro hd hlen old s1.1 s1.2 (size := size) hs
  rw [decode]
  by_cases hne : sz.getD c.dsz = .none
  · have : effSz c sz = .none := hne
    simp only [this]
    have hr := hend hne
    subst hr
    rw [hne] at hpre
    simp only [sizePrefix, Option.some.injEq] at hpre
    subst hpre
    simp only [List.length_nil, Nat.add_zero] at hrun ⊢
    have s2 := congrArg List.length hdr
    simp only [List.nil_append, List.append_nil, List.length_drop] at s2
    rw [hrun sizeMax (by unfold sizeMax; omega)]
  · have hh := decHdr_rd (sz := effSz c sz) hne hpre hp hdr
    split
    · rename_i h; exact absurd h hne
    · simp only [hh]
      rw [hrun body.length (by have := drop_split s1.1 s1.2; omega)]

/-! ## The members one by one -/

theorem emptied_get : ∀ (fs : List Ty) (os : List Val) (m : Nat) (t : Ty), fs[m]? = some t →
    (emptied fs os)[m]? = some (startValue t (os.getD m .unit))
  | [], _, m, t, h => by simp at h
  | t' :: ts, os, 0, t, h => by
    simp only [List.getElem?_cons_zero, Option.some.injEq] at h
    subst h
    rw [emptied]
    cases os <;> rfl
  | t' :: ts, os, m + 1, t, h => by
    simp only [List.getElem?_cons_succ] at h
    rw [emptied, List.getElem?_cons_succ, emptied_get ts os.tail m t h]
    cases os <;> simp

/-- The members depend only on their own records. -/
theorem recsEffect_get (c : Cfg) (fs : List Ty) (m : Nat) (t : Ty) (ht : fs[m]? = some t) :
    ∀ (rs : List Rec) (vs : List Val) (v : Val), vs[m]? = some v →
      (recsEffect c fs rs vs)[m]? = some ((recsOf m rs).foldl (fun cur r => recEffect c t r cur) v)
  | [], vs, v, h => by rw [recsEffect]; exact h
  | r :: rs, vs, v, h => by
    rw [recsEffect]
    cases hr : r.member with
    | none =>
      rw [recsEffect_get c fs m t ht rs vs v h, recsOf, recsOf, List.filter_cons_of_neg (by simp [hr])]
    | some m' =>
      simp only
      by_cases hm : m' = m
      · subst hm
        have hl : m' < vs.length := by
          rcases Nat.lt_or_ge m' vs.length with h' | h'
          · exact h'
          · simp [List.getElem?_eq_none h'] at h
        rw [recsEffect_get c fs m' t ht rs _ (recEffect c t r v) (by
          rw [List.getElem?_set_self hl]
          simp [List.getD, ht, h])]
        rw [recsOf, recsOf, List.filter_cons_of_pos (by simp [hr])]
        rfl
      · rw [recsEffect_get c fs m t ht rs _ v (by rw [List.getElem?_set_ne hm]; exact h)]
        rw [recsOf, recsOf, List.filter_cons_of_neg (by simp [hr, hm])]

end Zpp
