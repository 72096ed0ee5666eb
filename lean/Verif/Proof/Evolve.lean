import Verif.Spec.Evolve
import Verif.Proof.InRecords
/-! # Records of a message written with another class -/

namespace Zpp
open Spec

theorem pushAll_pushOk {c : Cfg} {t : Ty} : ∀ (vs acc : List Val), PushOk c t (acc ++ vs) → pushAll c t vs acc = acc ++ vs := by
  intro vs
  induction vs with
  | nil => intro acc _; simp [pushAll]
  | cons v vs ih =>
    intro acc h
    have h1 : pbPush c t v acc = acc ++ [v] := h acc v vs rfl
    have h2 := ih (acc ++ [v]) (by simpa using h)
    simp only [pushAll, List.foldl_cons] at h2 ⊢
    rw [h1, h2]
    simp

theorem addAll_nil {c : Cfg} {t : Ty} {vs : List Val} (h : PushOk c t vs) : addAll c t vs [] = vs := by
  rw [← pushAll_eq, pushAll_pushOk vs [] (by simpa using h)]
  rfl

theorem loadableRec_of {c : Cfg} {t : Ty} {v : Val} (h : LoadablePbField c t v) : LoadableRec c t v := by
  unfold LoadableRec
  split
  · simp only [LoadablePbField] at h; exact h.2
  · simp only [LoadablePbField] at h; exact h.2
  · exact h

theorem field_effect {c : Cfg} {t : Ty} {old w : Val} {k num : Nat} {bs : List UInt8} {env : Nat → Ty}
    (hb : pbField env num t w = some bs) (hl : LoadablePbField c t w) :
    recEffect c t (.field k w) (startValue t old) = w := by
  cases t with
  | seq sk sz e =>
    cases w with
    | list ws =>
      show (if ws.isEmpty = true then Val.list [] else if fixedElem e = true then Val.list ws
        else Val.list (addAll c (Ty.seq sk sz e) ws [])) = Val.list ws
      by_cases h : ws.isEmpty = true
      · rw [if_pos h]; rw [List.isEmpty_iff] at h; rw [h]
      · rw [if_neg h]
        by_cases h2 : fixedElem e = true
        · rw [if_pos h2]
        · rw [if_neg h2, addAll_nil (pushOk_seq _ _ _ _ _)]
    | num x => simp [pbField, pbScalar] at hb
    | _ => simp [pbField] at hb
  | assoc mu ha sz key m =>
    cases w with
    | list ws =>
      show (if ws.isEmpty = true then Val.list [] else Val.list (addAll c (Ty.assoc mu ha sz key m) ws [])) = Val.list ws
      by_cases h : ws.isEmpty = true
      · rw [if_pos h]; rw [List.isEmpty_iff] at h; rw [h]
      · rw [if_neg h, addAll_nil]
        apply pushOk_assoc
        cases m <;> simp only [LoadablePbField] at hl <;> exact hl.1
    | num x => cases m <;> simp [pbField, pbScalar] at hb
    | _ => cases m <;> simp [pbField] at hb
  | empty =>
    cases w with
    | unit => rfl
    | num x => simp [pbField, pbScalar] at hb
    | _ => simp [pbField] at hb
  | _ => rfl

theorem pbField_msgOf {env : Nat → Ty} {t : Ty} {maps : List (Nat × Nat)} {nums : List (Option Nat)} {fs : List Ty}
    (h : msgOf env t = some (maps, nums, fs)) (num : Nat) (vs : List Val) :
    pbField env num t (.list vs) = pbLen num (pbFields env maps 0 nums fs vs) := by
  rcases msgOf_msg h with ⟨ok, rfl⟩ | ⟨i, ok, rfl, hi⟩
  · rw [pbField]
  · rw [pbField, hi]

theorem startValue_msgOf {env : Nat → Ty} {t : Ty} {x} (h : msgOf env t = some x) (o : Val) : startValue t o = o := by
  cases t <;> first | rfl | (simp [msgOf] at h)

theorem pbFields_lengths {env : Nat → Ty} {maps : List (Nat × Nat)} : ∀ (fs : List Ty) (nums : List (Option Nat))
    (vs : List Val) (i : Nat) (body : List UInt8), pbFields env maps i nums fs vs = some body → nums.length = fs.length := by
  intro fs
  induction fs with
  | nil => intro nums vs i body h; cases nums <;> cases vs <;> simp [pbFields] at h ⊢
  | cons t fs ih =>
    intro nums vs i body h
    cases nums with
    | nil => simp [pbFields] at h
    | cons num nums =>
      cases vs with
      | nil => simp [pbFields] at h
      | cons v vs =>
        rw [pbFields] at h
        cases h2 : pbFields env maps (i + 1) nums fs vs with
        | none => rw [h2] at h; cases hp : pbField env (fieldNumber maps num i) t v <;> rw [hp] at h <;> cases h
        | some b2 => simp [ih nums vs (i + 1) b2 h2]

theorem pbFields_field {env : Nat → Ty} {maps : List (Nat × Nat)} : ∀ (fs : List Ty) (nums : List (Option Nat))
    (vs : List Val) (i : Nat) (body : List UInt8), pbFields env maps i nums fs vs = some body →
    ∀ j t v num, fs[j]? = some t → vs[j]? = some v → nums[j]? = some num →
      ∃ bs, pbField env (fieldNumber maps num (i + j)) t v = some bs := by
  intro fs
  induction fs with
  | nil => intro nums vs i body h j t v num ht; simp at ht
  | cons t fs ih =>
    intro nums vs i body h j t' v' num' ht hv hn
    cases nums with
    | nil => simp at hn
    | cons num nums =>
      cases vs with
      | nil => simp at hv
      | cons v vs =>
        rw [pbFields] at h
        cases hp : pbField env (fieldNumber maps num i) t v with
        | none => rw [hp] at h; cases h
        | some b1 =>
          cases h2 : pbFields env maps (i + 1) nums fs vs with
          | none => rw [hp, h2] at h; cases h
          | some b2 =>
            cases j with
            | zero =>
              simp only [List.getElem?_cons_zero, Option.some.injEq] at ht hv hn
              subst ht hv hn
              exact ⟨b1, hp⟩
            | succ j =>
              obtain ⟨bs, hbs⟩ := ih nums vs (i + 1) b2 h2 j t' v' num' (by simpa using ht) (by simpa using hv) (by simpa using hn)
              refine ⟨bs, ?_⟩
              rw [← hbs]
              congr 2
              omega

theorem depth_le_depthL {w : Val} : ∀ {ws : List Val}, w ∈ ws → depth w ≤ depthL ws
  | v :: vs, h => by
    rw [depthL]
    rcases List.mem_cons.mp h with rfl | h
    · omega
    · have := depth_le_depthL h; omega

theorem recsBytes_append {env : Nat → Ty} {maps : List (Nat × Nat)} {nums : List (Option Nat)} {fs : List Ty} :
    ∀ (a b : List Rec), recsBytes env maps nums fs (a ++ b) = cat (recsBytes env maps nums fs a) (recsBytes env maps nums fs b)
  | [], b => by
    rw [recsBytes, List.nil_append]
    cases recsBytes env maps nums fs b <;> rfl
  | r :: a, b => by
    rw [List.cons_append, recsBytes, recsBytes, recsBytes_append a b]
    cases recBytes env maps nums fs r <;> cases recsBytes env maps nums fs a <;> cases recsBytes env maps nums fs b <;>
      simp [cat]

theorem recDepthL_append : ∀ (a b : List Rec), recDepthL (a ++ b) = max (recDepthL a) (recDepthL b)
  | [], b => by simp [recDepthL]
  | r :: a, b => by rw [List.cons_append, recDepthL, recDepthL, recDepthL_append a b]; omega

theorem recsOk_append {c : Cfg} {maps : List (Nat × Nat)} {nums : List (Option Nat)} {fs : List Ty} :
    ∀ {a b : List Rec}, RecsOk c maps nums fs a → RecsOk c maps nums fs b → RecsOk c maps nums fs (a ++ b)
  | [], _, _, h => h
  | _ :: _, _, h, h' => ⟨h.1, recsOk_append h.2 h'⟩

theorem recsBytes_range {env : Nat → Ty} {maps maps' : List (Nat × Nat)} {nums' : List (Option Nat)} {fs' : List Ty}
    {ρ : Nat → List Rec} : ∀ (fs : List Ty) (nums : List (Option Nat)) (vs : List Val) (i : Nat) (body : List UInt8),
    pbFields env maps i nums fs vs = some body →
    (∀ j t v num bs, fs[j]? = some t → vs[j]? = some v → nums[j]? = some num →
      pbField env (fieldNumber maps num (i + j)) t v = some bs → recsBytes env maps' nums' fs' (ρ (i + j)) = some bs) →
    recsBytes env maps' nums' fs' ((List.range' i fs.length).flatMap ρ) = some body := by
  intro fs
  induction fs with
  | nil =>
    intro nums vs i body hb _
    cases nums <;> cases vs <;> simp [pbFields] at hb
    subst hb
    rfl
  | cons t fs ih =>
    intro nums vs i body hb h
    cases nums with
    | nil => simp [pbFields] at hb
    | cons num nums =>
      cases vs with
      | nil => simp [pbFields] at hb
      | cons v vs =>
        rw [pbFields] at hb
        cases h1 : pbField env (fieldNumber maps num i) t v with
        | none => rw [h1] at hb; cases hb
        | some b1 =>
          cases h2 : pbFields env maps (i + 1) nums fs vs with
          | none => rw [h1, h2] at hb; cases hb
          | some b2 =>
            rw [h1, h2] at hb
            rw [List.length_cons, List.range'_succ, List.flatMap_cons, recsBytes_append]
            have h0 : recsBytes env maps' nums' fs' (ρ i) = some b1 := h 0 t v num b1 rfl rfl rfl h1
            rw [h0]
            rw [ih nums vs (i + 1) b2 h2 (by
              intro j t' v' num' bs ht hv hn hb'
              have := h (j + 1) t' v' num' bs (by simpa using ht) (by simpa using hv) (by simpa using hn)
                (by rw [← hb']; congr 2; omega)
              rw [← this]; congr 2; omega)]
            exact hb

theorem recDepthL_flatMap {ρ : Nat → List Rec} {D : Nat} : ∀ (l : List Nat), (∀ m ∈ l, recDepthL (ρ m) ≤ D) →
    recDepthL (l.flatMap ρ) ≤ D
  | [], _ => by simp [recDepthL]
  | m :: l, h => by
    rw [List.flatMap_cons, recDepthL_append]
    have h1 := h m (by simp)
    have h2 := recDepthL_flatMap l (fun m hm => h m (by simp [hm]))
    omega

theorem recsOk_flatMap {c : Cfg} {maps : List (Nat × Nat)} {nums : List (Option Nat)} {fs : List Ty} {ρ : Nat → List Rec} :
    ∀ (l : List Nat), (∀ m ∈ l, RecsOk c maps nums fs (ρ m)) → RecsOk c maps nums fs (l.flatMap ρ)
  | [], _ => trivial
  | m :: l, h => by
    rw [List.flatMap_cons]
    exact recsOk_append (h m (by simp)) (recsOk_flatMap l (fun m hm => h m (by simp [hm])))

theorem recsOf_all {k : Nat} {rs : List Rec} (h : ∀ r ∈ rs, r.member = some k) : recsOf k rs = rs := by
  rw [recsOf, List.filter_eq_self]
  intro r hr
  simp [h r hr]

theorem recsOf_none {k k' : Nat} {rs : List Rec} (h : ∀ r ∈ rs, r.member = some k') (hk : k' ≠ k) : recsOf k rs = [] := by
  rw [recsOf, List.filter_eq_nil_iff]
  intro r hr
  simpa [h r hr] using hk

/-- The records of the members, when member `m` of the writer is member `to m` of the reader. -/
theorem recsOf_flatMap {ρ : Nat → List Rec} {to : Nat → Nat} {n m : Nat} (hm : m < n)
    (hinj : ∀ a b, a < n → b < n → to a = to b → a = b) (hρ : ∀ a, a < n → ∀ r ∈ ρ a, r.member = some (to a)) :
    ∀ (l i : Nat), i + l = n → recsOf (to m) ((List.range' i l).flatMap ρ) = if i ≤ m then ρ m else [] := by
  intro l
  induction l with
  | zero => intro i hi; rw [if_neg (by omega)]; rfl
  | succ l ih =>
    intro i hi
    rw [List.range'_succ, List.flatMap_cons]
    have e : recsOf (to m) (ρ i ++ (List.range' (i + 1) l).flatMap ρ) =
        recsOf (to m) (ρ i) ++ recsOf (to m) ((List.range' (i + 1) l).flatMap ρ) := by
      simp only [recsOf, List.filter_append]
    rw [e, ih (i + 1) (by omega)]
    by_cases hc : i = m
    · subst hc
      rw [recsOf_all (hρ i hm), if_neg (by omega), if_pos (Nat.le_refl _), List.append_nil]
    · rw [recsOf_none (hρ i (by omega)) (fun e => hc (hinj i m (by omega) hm e)), List.nil_append]
      by_cases h2 : i + 1 ≤ m
      · rw [if_pos h2, if_pos (by omega)]
      · rw [if_neg h2, if_neg (by omega)]

theorem recsOf_flatMap_none {ρ : Nat → List Rec} {to : Nat → Nat} {k : Nat} : ∀ (l : List Nat),
    (∀ a ∈ l, to a ≠ k ∧ ∀ r ∈ ρ a, r.member = some (to a)) → recsOf k (l.flatMap ρ) = []
  | [], _ => rfl
  | a :: l, h => by
    rw [List.flatMap_cons]
    have e : recsOf k (ρ a ++ l.flatMap ρ) = recsOf k (ρ a) ++ recsOf k (l.flatMap ρ) := by
      simp only [recsOf, List.filter_append]
    obtain ⟨h1, h2⟩ := h a (by simp)
    rw [e, recsOf_none h2 h1, recsOf_flatMap_none l (fun a ha => h a (by simp [ha]))]
    rfl

theorem startValue_elems {env : Nat → Ty} {t : Ty} {x} (h : msgOf env (elemTy t) = some x) (o : Val) :
    startValue t o = .list [] := by
  cases t with
  | seq => rfl
  | assoc => rfl
  | _ => simp [elemTy, msgOf] at h

theorem pbPayload_msgOf {env : Nat → Ty} {t : Ty} {maps : List (Nat × Nat)} {nums : List (Option Nat)} {fs : List Ty}
    (h : msgOf env t = some (maps, nums, fs)) (num : Nat) (vs : List Val) :
    pbPayload env num t (.list vs) = pbLen num (pbFields env maps 0 nums fs vs) := by
  rcases msgOf_msg h with ⟨ok, rfl⟩ | ⟨i, ok, rfl, hi⟩
  · rw [pbPayload]
  · rw [pbPayload, hi]

theorem entryMember_eq : ∀ t, entryMember t = pbEntryTy t := by
  intro t
  cases t with
  | scalar k n => cases k <;> rfl
  | _ => rfl

theorem pbField_elems {env : Nat → Ty} {t : Ty} {maps : List (Nat × Nat)} {nums : List (Option Nat)} {fs : List Ty}
    (h : msgOf env (elemTy t) = some (maps, nums, fs)) (num : Nat) (vs : List Val) :
    pbField env num t (.list vs) = pbRepeated env num (elemTy t) vs := by
  have hp : ∀ e, msgOf env e = some (maps, nums, fs) → isPacked e = false := by
    intro e he
    rcases msgOf_msg he with ⟨ok, rfl⟩ | ⟨i, ok, rfl, hi⟩ <;> rfl
  cases t with
  | seq k sz e => rw [pbField, if_neg (by rw [hp e h]; simp)]; rfl
  | assoc multi hashed sz key mapped =>
    cases mapped with
    | none => rw [pbField, if_neg (by rw [hp key h]; simp)]; rfl
    | some m =>
      rw [pbField]
      simp only [elemTy, entryMember_eq]
      clear h hp
      induction vs with
      | nil => rw [pbRepeated, pbRepeated]
      | cons v vs ih =>
        rw [pbRepeated, pbRepeated, ih]
        congr 1
        cases v <;> simp only [pbPayload]
        rw [pbFields_entry]
  | _ => simp [elemTy, msgOf] at h

/-- What is needed of the records for one member. -/
structure RecsFor (c : Cfg) (D : Nat) (maps' : List (Nat × Nat)) (nums' : List (Option Nat)) (fs' : List Ty) (k : Nat) (t' : Ty)
    (old w : Val) (bs : List UInt8) (rs : List Rec) : Prop where
  member : ∀ r ∈ rs, r.member = some k
  bytes : recsBytes c.env maps' nums' fs' rs = some bs
  ok : RecsOk (insideMsg c) maps' nums' fs' rs
  effect : rs.foldl (fun cur r => recEffect (insideMsg c) t' r cur) (startValue t' old) = w
  depth : recDepthL rs ≤ depth w + D

theorem recsBytes_one {env : Nat → Ty} {maps : List (Nat × Nat)} {nums : List (Option Nat)} {fs : List Ty} {r : Rec}
    {bs : List UInt8} (h : recBytes env maps nums fs r = some bs) : recsBytes env maps nums fs [r] = some bs := by
  rw [recsBytes, recsBytes, h]
  simp [cat]

theorem members_some {env : Nat → Ty} {t : Ty} {maps : List (Nat × Nat)} {nums : List (Option Nat)} {fs : List Ty}
    (h : msgOf env t = some (maps, nums, fs)) : members env t = fs := by
  unfold members
  rw [h]
  rfl

theorem addAll_nothing (c : Cfg) (t : Ty) (acc : List Val) : addAll c t [] acc = acc := by
  cases t <;> simp [addAll]

theorem addAll_cons (c : Cfg) (t : Ty) (x : Val) (xs acc : List Val) :
    addAll c t xs (addAll c t [x] acc) = addAll c t (x :: xs) acc := by
  cases t <;> simp [addAll]

mutual
theorem readAs_recs {c : Cfg} {D : Nat} {t : Ty} {v : Val} {t' : Ty} {old w : Val} (h : ReadAs c D t v t' old w)
    (maps' : List (Nat × Nat)) (nums' : List (Option Nat)) (fs' : List Ty) (k : Nat) (bs : List UInt8)
    (ht : fs'[k]? = some t') (hb : pbField c.env (numberAt maps' nums' k) t v = some bs) :
    ∃ rs, RecsFor c D maps' nums' fs' k t' old w bs rs := by
  match h with
  | .same hs hl =>
    rw [← hs] at hb
    refine ⟨[.field k w], ?_, ?_, ⟨?_, trivial⟩, ?_, ?_⟩
    · intro r hr
      simp only [List.mem_singleton] at hr
      subst hr; rfl
    · apply recsBytes_one
      rw [recBytes, ht]; exact hb
    · intro t'' ht''
      rw [ht] at ht''
      cases ht''
      exact loadableRec_of hl
    · rw [List.foldl_cons, List.foldl_nil, field_effect hb hl]
    · simp only [recDepthL, recDepth]; omega
  | .msg (ws := ws) (fs' := fs2) (maps' := maps2) (nums' := nums2) (old := old) hm hm' hr =>
    rw [pbField_msgOf hm] at hb
    unfold pbLen at hb
    split at hb
    · next body hbody =>
      split at hb
      · next hlt =>
        obtain ⟨rs, h1, h2, h3, h4⟩ := msgReadAs_recs hr body hbody
        refine ⟨[.sub k rs], ?_, ?_, ⟨?_, trivial⟩, ?_, ?_⟩
        · intro r hr
          simp only [List.mem_singleton] at hr
          subst hr; rfl
        · apply recsBytes_one
          rw [recBytes, ht]
          dsimp only
          rw [hm']
          dsimp only
          rw [h1, pbLen, if_pos hlt, ← hb]
        · intro t2 m2 n2 f2 ht2 hm2
          rw [ht] at ht2
          cases ht2
          have : some (maps2, nums2, fs2) = some (m2, n2, f2) := hm'.symm.trans hm2
          cases this
          exact h2
        · rw [List.foldl_cons, List.foldl_nil, startValue_msgOf hm', recEffect]
          have : members (insideMsg c).env t' = fs2 := members_some hm'
          rw [this, h3]
        · simp only [recDepthL, recDepth, depth]; omega
      · cases hb
    · cases hb
  | .elems (vs := vs) (ws := ws) (fs' := fs2) (maps' := maps2) (nums' := nums2) (o := o) hm hm' ho hd hr hord =>
    rw [pbField_elems hm] at hb
    obtain ⟨rs, h1, h2, h3, h4, h5⟩ := elemsReadAs_recs hr o t' rfl ho hd hm' _ hm maps' nums' fs' k bs ht hb
    refine ⟨rs, h1, h2, h3, ?_, ?_⟩
    · have hcont : (∃ k s e, t' = .seq k s e) ∨ (∃ mu ha s k mt, t' = .assoc mu ha s k mt) := by
        cases t' with
        | seq => exact Or.inl ⟨_, _, _, rfl⟩
        | assoc => exact Or.inr ⟨_, _, _, _, _, rfl⟩
        | _ => simp [elemTy, msgOf] at hm'
      rw [startValue_elems hm', h4, addAll_nil]
      rcases hcont with ⟨k, s, e, rfl⟩ | ⟨mu, ha, s, k, mt, rfl⟩
      · exact pushOk_seq _ _ _ _ _
      · exact pushOk_assoc (hord _ _ _ _ _ rfl)
    · simp only [depth]; omega
theorem elemsReadAs_recs {c : Cfg} {D : Nat} {maps1 maps2 : List (Nat × Nat)} {nums1 nums2 : List (Option Nat)} {fs1 fs2 : List Ty}
    {vs olds ws : List Val} (h : ElemsReadAs c D maps1 nums1 fs1 vs maps2 nums2 fs2 olds ws) (o : Val) (t' : Ty) (hol : olds = o.elems)
    (ho : Initial c.env (elemTy t') o) (hd : depth o ≤ D) (hm' : msgOf c.env (elemTy t') = some (maps2, nums2, fs2))
    (e : Ty) (hm : msgOf c.env e = some (maps1, nums1, fs1)) (maps' : List (Nat × Nat)) (nums' : List (Option Nat)) (fs' : List Ty)
    (k : Nat) (bs : List UInt8) (ht : fs'[k]? = some t') (hb : pbRepeated c.env (numberAt maps' nums' k) e vs = some bs) :
    ∃ rs, (∀ r ∈ rs, r.member = some k) ∧ recsBytes c.env maps' nums' fs' rs = some bs ∧
      RecsOk (insideMsg c) maps' nums' fs' rs ∧
      (∀ acc, rs.foldl (fun cur r => recEffect (insideMsg c) t' r cur) (.list acc) = .list (addAll (insideMsg c) t' ws acc)) ∧
      recDepthL rs ≤ depthL ws + D := by
  match h with
  | .nil =>
    rw [pbRepeated] at hb
    cases hb
    exact ⟨[], by simp, rfl, trivial, fun acc => by rw [addAll_nothing]; rfl, by simp [recDepthL]⟩
  | .cons (us := us) (xs := xs) (vs := vs) (ws := ws) hr hs =>
    rw [pbRepeated, pbPayload_msgOf hm] at hb
    simp only [cat_eq_some] at hb
    obtain ⟨b1, b2, hb1, hb2, rfl⟩ := hb
    obtain ⟨rs, h1, h2, h3, h4, h5⟩ := elemsReadAs_recs hs o t' hol ho hd hm' e hm maps' nums' fs' k b2 ht hb2
    unfold pbLen at hb1
    split at hb1
    · next body hbody =>
      split at hb1
      · next hlt =>
        obtain ⟨qs, q1, q2, q3, q4⟩ := msgReadAs_recs hr body hbody
        refine ⟨.elem k o qs :: rs, ?_, ?_, ⟨?_, h3⟩, ?_, ?_⟩
        · intro r hr
          rcases List.mem_cons.mp hr with rfl | hr
          · rfl
          · exact h1 r hr
        · rw [recsBytes, h2, recBytes, ht]
          dsimp only
          rw [hm']
          dsimp only
          rw [q1, pbLen, if_pos hlt, hb1]
          simp [cat]
        · intro t2 m2 n2 f2 ht2 hm2
          rw [ht] at ht2
          cases ht2
          have : some (maps2, nums2, fs2) = some (m2, n2, f2) := hm'.symm.trans hm2
          cases this
          exact ⟨ho, q2⟩
        · intro acc
          rw [List.foldl_cons, recEffect]
          have : members (insideMsg c).env (elemTy t') = fs2 := members_some hm'
          rw [this, ← hol, q3, h4, addAll_cons]
          rfl
        · simp only [recDepthL, recDepth, depthL, depth]; omega
      · cases hb1
    · cases hb1
theorem msgReadAs_recs {c : Cfg} {D : Nat} {maps maps' : List (Nat × Nat)} {nums nums' : List (Option Nat)} {fs fs' : List Ty}
    {vs olds ws : List Val} (h : MsgReadAs c D maps nums fs vs maps' nums' fs' olds ws) (body : List UInt8)
    (hb : pbFields c.env maps 0 nums fs vs = some body) :
    ∃ rs, recsBytes c.env maps' nums' fs' rs = some body ∧ RecsOk (insideMsg c) maps' nums' fs' rs ∧
      recsEffect (insideMsg c) fs' rs (emptied fs' olds) = ws ∧ recDepthL rs ≤ depthL ws + D := by
  match h with
  | .mk to hv hw hnum hinj hmem hrest =>
    have hnl := pbFields_lengths fs nums vs 0 body hb
    have hex : ∀ m, ∃ rs, ∀ t x t' w bs, fs[m]? = some t → vs[m]? = some x → fs'[to m]? = some t' → ws[to m]? = some w →
        pbField c.env (numberAt maps nums m) t x = some bs →
        RecsFor c D maps' nums' fs' (to m) t' (olds.getD (to m) .unit) w bs rs := by
      intro m
      by_cases hm : m < fs.length
      · obtain ⟨hto, hn⟩ := hnum m hm
        have e1 : fs[m]? = some fs[m] := List.getElem?_eq_getElem hm
        have e2 : vs[m]? = some (vs[m]'(by omega)) := List.getElem?_eq_getElem _
        have e3 : fs'[to m]? = some fs'[to m] := List.getElem?_eq_getElem hto
        have e4 : ws[to m]? = some (ws[to m]'(by omega)) := List.getElem?_eq_getElem _
        cases hp : pbField c.env (numberAt maps nums m) fs[m] (vs[m]'(by omega)) with
        | none =>
          refine ⟨[], ?_⟩
          intro t x t' w bs h1 h2 h3 h4 h5
          rw [e1] at h1; rw [e2] at h2
          cases h1; cases h2
          rw [hp] at h5; cases h5
        | some bs =>
          obtain ⟨r, hr⟩ := readAs_recs (hmem m _ _ _ _ e1 e2 e3 e4) maps' nums' fs' (to m) bs e3 (by rw [hn]; exact hp)
          refine ⟨r, ?_⟩
          intro t x t' w bs' h1 h2 h3 h4 h5
          rw [e1] at h1; rw [e2] at h2; rw [e3] at h3; rw [e4] at h4
          cases h1; cases h2; cases h3; cases h4
          rw [hp] at h5; cases h5
          exact hr
      · refine ⟨[], ?_⟩
        intro t x t' w bs h1
        rw [List.getElem?_eq_none (by omega)] at h1; cases h1
    obtain ⟨ρ, hρ⟩ := Classical.axiomOfChoice hex
    have hfor : ∀ m t x num bs, fs[m]? = some t → vs[m]? = some x → nums[m]? = some num →
        pbField c.env (fieldNumber maps num m) t x = some bs → ∃ t' w, fs'[to m]? = some t' ∧ ws[to m]? = some w ∧
          RecsFor c D maps' nums' fs' (to m) t' (olds.getD (to m) .unit) w bs (ρ m) := by
      intro m t x num bs h1 h2 h3 h4
      obtain ⟨hm, _⟩ := List.getElem?_eq_some_iff.mp h1
      obtain ⟨hto, hn⟩ := hnum m hm
      have e3 : fs'[to m]? = some fs'[to m] := List.getElem?_eq_getElem hto
      have e4 : ws[to m]? = some (ws[to m]'(by omega)) := List.getElem?_eq_getElem _
      refine ⟨_, _, e3, e4, hρ m t x _ _ bs h1 h2 e3 e4 ?_⟩
      rw [← h4, numberAt, List.getD_eq_getElem?_getD, h3]
      rfl
    have hall : ∀ m, m < fs.length → ∃ t' w bs, fs'[to m]? = some t' ∧ ws[to m]? = some w ∧
          RecsFor c D maps' nums' fs' (to m) t' (olds.getD (to m) .unit) w bs (ρ m) := by
      intro m hm
      have e1 : fs[m]? = some fs[m] := List.getElem?_eq_getElem hm
      have e2 : vs[m]? = some (vs[m]'(by omega)) := List.getElem?_eq_getElem _
      have e3 : nums[m]? = some (nums[m]'(by omega)) := List.getElem?_eq_getElem _
      obtain ⟨bs, hbs⟩ := pbFields_field fs nums vs 0 body hb m _ _ _ e1 e2 e3
      rw [Nat.zero_add] at hbs
      obtain ⟨t', w, h1, h2, h3⟩ := hfor m _ _ _ bs e1 e2 e3 hbs
      exact ⟨t', w, bs, h1, h2, h3⟩
    refine ⟨(List.range' 0 fs.length).flatMap ρ, ?_, ?_, ?_, ?_⟩
    · refine recsBytes_range fs nums vs 0 body hb ?_
      intro j t v num bs h1 h2 h3 h4
      rw [Nat.zero_add] at h4 ⊢
      obtain ⟨t', w, _, _, h⟩ := hfor j t v num bs h1 h2 h3 h4
      exact h.bytes
    · refine recsOk_flatMap _ fun m hm => ?_
      obtain ⟨t', w, bs, _, _, h⟩ := hall m (by have := List.mem_range'_1.mp hm; omega)
      exact h.ok
    · have hmemb : ∀ a, a < fs.length → ∀ r ∈ ρ a, r.member = some (to a) := by
        intro a ha
        obtain ⟨_, _, _, _, _, h⟩ := hall a ha
        exact h.member
      apply List.ext_getElem?
      intro k
      by_cases hk : k < fs'.length
      · have e3 : fs'[k]? = some fs'[k] := List.getElem?_eq_getElem hk
        rw [recsEffect_get (insideMsg c) fs' k _ e3 _ _ _ (emptied_get fs' olds k _ e3)]
        by_cases hr : ∃ m, m < fs.length ∧ to m = k
        · obtain ⟨m, hm, rfl⟩ := hr
          obtain ⟨t', w, bs, h1, h2, h3⟩ := hall m hm
          have hrs := recsOf_flatMap hm hinj hmemb fs.length 0 (by omega)
          rw [if_pos (by omega)] at hrs
          rw [e3] at h1
          cases h1
          rw [hrs, h2, h3.effect]
        · have hn : ∀ m, m < fs.length → to m ≠ k := fun m hm e => hr ⟨m, hm, e⟩
          have hrs : recsOf k ((List.range' 0 fs.length).flatMap ρ) = [] := recsOf_flatMap_none (to := to) _ (by
            intro a ha
            have ha' : a < fs.length := by have := List.mem_range'_1.mp ha; omega
            exact ⟨hn a ha', hmemb a ha'⟩)
          rw [hrs, List.foldl_nil, hrest k _ e3 hn]
      · rw [List.getElem?_eq_none (by rw [recsEffect_length, emptied_length]; omega), List.getElem?_eq_none (by omega)]
    · refine recDepthL_flatMap _ fun m hm => ?_
      obtain ⟨t', w, bs, _, h2, h⟩ := hall m (by have := List.mem_range'_1.mp hm; omega)
      have h1 := h.depth
      have h3 := depth_le_depthL (List.mem_of_getElem? h2)
      omega
end

end Zpp
