import Verif.Spec.Merge
import Verif.Proof.Evolve
import Verif.Proof.InRecords
/-! Lemmas about objects written one behind the other as protobuf messages. -/

namespace Zpp
open Zpp.Spec

/-- The records an object is written as. -/
def objRecs (fs : List Ty) (vs : List Val) : List Rec := (List.range' 0 fs.length).flatMap fun m => [.field m (vs.getD m .unit)]

theorem objRecs_bytes {env : Nat → Ty} {maps : List (Nat × Nat)} {nums : List (Option Nat)} {fs : List Ty} {vs : List Val}
    {body : List UInt8} (h : pbFields env maps 0 nums fs vs = some body) : recsBytes env maps nums fs (objRecs fs vs) = some body := by
  refine recsBytes_range fs nums vs 0 body h ?_
  intro j t v num bs ht hv hn hb
  rw [Nat.zero_add] at hb ⊢
  have e1 : vs.getD j .unit = v := by simp [List.getD, hv]
  have e2 : numberAt maps nums j = fieldNumber maps num j := by simp [numberAt, List.getD, hn]
  rw [recsBytes, recsBytes, recBytes, ht]
  simp only [e1, e2, hb, cat, List.append_nil]

theorem objRecs_depth {fs : List Ty} {vs : List Val} (hl : vs.length = fs.length) : recDepthL (objRecs fs vs) ≤ depthL vs := by
  refine recDepthL_flatMap _ ?_
  intro m hm
  simp only [List.mem_range'_1] at hm
  simp only [recDepthL, recDepth]
  have h : vs[m]? = some vs[m] := List.getElem?_eq_getElem (by omega)
  have := depth_le_depthL (List.mem_of_getElem? h)
  simp only [List.getD, h, Option.getD_some]
  omega

theorem loadablePb_get {c : Cfg} : ∀ {fs : List Ty} {vs : List Val} {m : Nat} {t : Ty} {v : Val}, LoadablePb c fs vs →
    fs[m]? = some t → vs[m]? = some v → LoadablePbField c t v := by
  intro fs
  induction fs with
  | nil => intro vs m t v _ ht; simp at ht
  | cons t' fs ih =>
    intro vs m t v h ht hv
    cases vs with
    | nil => simp at hv
    | cons w vs =>
      rw [LoadablePb] at h
      cases m with
      | zero =>
        simp only [List.getElem?_cons_zero, Option.some.injEq] at ht hv
        subst ht hv
        exact h.1
      | succ m => exact ih h.2 (by simpa using ht) (by simpa using hv)

theorem pbFields_vals {env : Nat → Ty} {maps : List (Nat × Nat)} : ∀ (fs : List Ty) (nums : List (Option Nat))
    (vs : List Val) (i : Nat) (body : List UInt8), pbFields env maps i nums fs vs = some body → vs.length = fs.length := by
  intro fs
  induction fs with
  | nil => intro nums vs i body h; cases nums <;> cases vs <;> simp [pbFields] at h ⊢
  | cons t fs ih =>
    intro nums vs i body h
    cases nums with
    | nil => simp [pbFields] at h
    | cons num nums =>
      cases vs with
      | nil => simp [pbFields] at h
      | cons v vs =>
        rw [pbFields, cat_eq_some] at h
        obtain ⟨a, b, h1, h2, _⟩ := h
        simp [ih nums vs (i + 1) b h2]

theorem objRecs_ok {c : Cfg} {maps : List (Nat × Nat)} {nums : List (Option Nat)} {fs : List Ty} {vs : List Val}
    (hl : vs.length = fs.length) (h : LoadablePb c fs vs) : RecsOk c maps nums fs (objRecs fs vs) := by
  refine recsOk_flatMap _ ?_
  intro m _
  refine ⟨?_, trivial⟩
  intro t ht
  have hm : m < vs.length := by rw [hl]; exact (List.getElem?_eq_some_iff.mp ht).1
  have hv : vs[m]? = some vs[m] := List.getElem?_eq_getElem hm
  have e : vs.getD m .unit = vs[m] := by simp [List.getD, hv]
  rw [e]
  exact loadableRec_of (loadablePb_get h ht hv)

theorem objRecs_of {fs : List Ty} {vs : List Val} {m : Nat} (hm : m < fs.length) :
    recsOf m (objRecs fs vs) = [.field m (vs.getD m .unit)] := by
  have := recsOf_flatMap (ρ := fun m => [.field m (vs.getD m .unit)]) (to := fun m => m) (n := fs.length) hm
    (fun a b _ _ h => h) (by intro a _ r hr; simp only [List.mem_singleton] at hr; subst hr; rfl) fs.length 0 (by omega)
  rw [if_pos (Nat.zero_le _)] at this
  exact this

/-- What the record of a member does. -/
theorem recEffect_merge {c : Cfg} {env : Nat → Ty} {num m : Nat} {t : Ty} {v cur : Val} {bs : List UInt8}
    (hb : pbField env num t v = some bs) (hcur : t = .empty → cur = .unit)
    (hlist : (∃ k s e, t = .seq k s e) ∨ (∃ a b s k' x, t = .assoc a b s k' x) → ∃ l, cur = .list l) :
    recEffect c t (.field m v) cur = mergeValue c t cur v := by
  cases t with
  | seq k s e =>
    obtain ⟨l, rfl⟩ := hlist (Or.inl ⟨k, s, e, rfl⟩)
    simp only [recEffect, mergeValue, addAll, Val.elems]
    cases v with
    | list vs =>
      cases vs with
      | nil => cases fixedElem e <;> simp
      | cons w ws => cases fixedElem e <;> simp
    | _ => simp [pbField, pbScalar] at hb
  | assoc a b s key x =>
    obtain ⟨l, rfl⟩ := hlist (Or.inr ⟨a, b, s, key, x, rfl⟩)
    simp only [recEffect, mergeValue, addAll]
    cases v <;> simp only [Val.elems] <;> try rfl
    rename_i vs
    cases vs <;> rfl
  | empty =>
    rw [hcur rfl]
    simp only [recEffect, mergeValue]
    cases v <;> first | rfl | (simp [pbField, pbScalar] at hb)
  | _ => rfl

/-- Values of containers are lists, of empty classes `unit`. -/
def ShapeOk (t : Ty) (cur : Val) : Prop :=
  (t = .empty → cur = .unit) ∧ ((∃ k s e, t = .seq k s e) ∨ (∃ a b s k' x, t = .assoc a b s k' x) → ∃ l, cur = .list l)

theorem shapeOk_start (t : Ty) (o : Val) : ShapeOk t (startValue t o) := by
  cases t <;> simp [ShapeOk, startValue]

theorem shapeOk_merge {c : Cfg} {env : Nat → Ty} {num : Nat} {t : Ty} {v cur : Val} {bs : List UInt8}
    (hb : pbField env num t v = some bs) (h : ShapeOk t cur) : ShapeOk t (mergeValue c t cur v) := by
  cases t with
  | seq k s e =>
    refine ⟨by simp, fun _ => ?_⟩
    simp only [mergeValue]
    split
    · split
      · exact h.2 (Or.inl ⟨k, s, e, rfl⟩)
      · cases v with
        | list vs => exact ⟨vs, rfl⟩
        | _ => simp [pbField, pbScalar] at hb
    · exact ⟨_, rfl⟩
  | assoc a b s key x => exact ⟨by simp, fun _ => ⟨_, rfl⟩⟩
  | empty =>
    refine ⟨fun _ => ?_, by simp⟩
    simp only [mergeValue]
    cases v <;> first | rfl | (simp [pbField, pbScalar] at hb)
  | _ => simp [ShapeOk]

/-- All records of a member. -/
theorem merged_member {c : Cfg} {env : Nat → Ty} {fs : List Ty} {m num : Nat} {t : Ty} (hm : m < fs.length) :
    ∀ (vss : List (List Val)) (cur : Val), (∀ vs ∈ vss, ∃ bs, pbField env num t (vs.getD m .unit) = some bs) → ShapeOk t cur →
    (recsOf m (vss.flatMap (objRecs fs))).foldl (fun cur r => recEffect c t r cur) cur =
      vss.foldl (fun x vs => mergeValue c t x (vs.getD m .unit)) cur := by
  intro vss
  induction vss with
  | nil => intro cur _ _; rfl
  | cons vs vss ih =>
    intro cur h hc
    obtain ⟨bs, hb⟩ := h vs (by simp)
    have e : recsOf m ((vs :: vss).flatMap (objRecs fs)) = recsOf m (objRecs fs vs) ++ recsOf m (vss.flatMap (objRecs fs)) := by
      rw [List.flatMap_cons]
      simp only [recsOf, List.filter_append]
    rw [e, objRecs_of hm, List.singleton_append, List.foldl_cons, List.foldl_cons, recEffect_merge hb hc.1 hc.2]
    exact ih _ (fun vs' h' => h vs' (by simp [h'])) (shapeOk_merge hb hc)

/-- The bytes of the objects are those of all the records. -/
theorem unsized_bytes {f : Fmt} {ok : Bool} {maps : List (Nat × Nat)} {nums : List (Option Nat)} {fs : List Ty} :
    ∀ (vss : List (List Val)) (bs : List UInt8), wireItems f (unsizedItems ok maps nums fs vss) = some bs →
    recsBytes f.env maps nums fs (vss.flatMap (objRecs fs)) = some bs ∧
      ∀ vs ∈ vss, ∃ body, pbFields f.env maps 0 nums fs vs = some body := by
  intro vss
  induction vss with
  | nil => intro bs h; exact ⟨h, by simp⟩
  | cons vs vss ih =>
    intro bs h
    simp only [unsizedItems, List.map_cons, wireItems] at h
    rw [cat_eq_some] at h
    obtain ⟨a, b, h1, h2, rfl⟩ := h
    obtain ⟨h3, h4⟩ := ih b h2
    simp only [wire] at h1
    cases hb : pbFields f.env maps 0 nums fs vs with
    | none => rw [hb] at h1; cases h1
    | some body =>
      rw [hb] at h1
      simp only [Option.getD_some, msgPrefix, sizePrefix, cat, List.nil_append, Option.some.injEq] at h1
      subst h1
      refine ⟨by rw [List.flatMap_cons, recsBytes_append, objRecs_bytes hb, h3]; rfl, ?_⟩
      intro vs' h'
      rcases List.mem_cons.mp h' with rfl | h'
      · exact ⟨body, hb⟩
      · exact h4 vs' h'

theorem unsized_depth {fs : List Ty} {D : Nat} : ∀ (vss : List (List Val)), (∀ vs ∈ vss, vs.length = fs.length ∧ depthL vs ≤ D) →
    recDepthL (vss.flatMap (objRecs fs)) ≤ D
  | [], _ => by simp [recDepthL]
  | vs :: vss, h => by
    rw [List.flatMap_cons, recDepthL_append]
    have h1 := h vs (by simp)
    have := objRecs_depth h1.1
    have := unsized_depth (fs := fs) vss (fun vs' h' => h vs' (by simp [h']))
    omega

theorem unsized_ok {c : Cfg} {maps : List (Nat × Nat)} {nums : List (Option Nat)} {fs : List Ty} :
    ∀ (vss : List (List Val)), (∀ vs ∈ vss, vs.length = fs.length ∧ LoadablePb c fs vs) →
    RecsOk c maps nums fs (vss.flatMap (objRecs fs))
  | [], _ => trivial
  | vs :: vss, h => by
    rw [List.flatMap_cons]
    exact recsOk_append (objRecs_ok (h vs (by simp)).1 (h vs (by simp)).2) (unsized_ok vss (fun vs' h' => h vs' (by simp [h'])))

end Zpp
