import Verif.Proof.Static
import Verif.Checks
/-!
# What the compiler refuses: ambiguous ids, and members that are not protobuf
-/

namespace Zpp.Props
open Zpp Zpp.Spec

/-! ## Ids of variants -/

/-- C66. A variant compiles exactly if every alternative has an id, all ids have the same type (of the covered kinds), and
the ids are pairwise different; then these are its ids. -/
theorem C66_variant (alts : List (Option (Ty × Val))) (ty : Ty) (ids : List Val) :
    checkVariant alts = some (ty, ids) ↔
      alts ≠ [] ∧ idType ty = true ∧ ids.length = alts.length ∧
      (∀ (i : Nat) (id : Val), ids[i]? = some id → HasId alts i ty id) ∧
      (∀ (i j : Nat), i < ids.length → j < ids.length → ids[i]? = ids[j]? → i = j) := by
  rw [checkVariant]
  constructor
  · intro h
    split at h
    · cases h
    · rename_i xs hxs
      split at h
      · rename_i hu
        simp only [Bool.and_eq_true] at hu
        have hall := (allIds_iff alts _ xs).mp hxs
        cases xs with
        | nil => cases h
        | cons x rest =>
          simp only [Option.some.injEq, Prod.mk.injEq] at h
          obtain ⟨rfl, rfl⟩ := h
          have hlen := hall.1
          simp only [List.length_range] at hlen
          have hsame := (sameIdTypes_iff _).mp hu.2
          refine ⟨?_, (hsame 0 0 x.1 x.1 (by simp) (by simp)).2, by simpa using hlen, ?_, ?_⟩
          · intro e; subst e; simp at hlen
          · intro i id hi
            have hlt : i < alts.length := by
              have := (List.getElem?_eq_some_iff.mp hi).1
              simp only [List.length_map] at this
              omega
            obtain ⟨t, v, h1, h2⟩ := hall.2 i i (List.getElem?_range hlt)
            rw [List.getElem?_map, h1] at hi
            simp only [Option.map_some, Option.some.injEq] at hi
            subst hi
            have := hsame i 0 t x.1 (by rw [List.getElem?_map, h1]; rfl) (by simp)
            rw [← this.1]
            exact h2
          · exact (uniqueIds_iff _).mp hu.1
      · cases h
  · rintro ⟨h1, h2, h3, h4, h5⟩
    have hxs : allIds alts (List.range alts.length) = some (ids.map fun v => (ty, v)) := by
      rw [allIds_iff]
      refine ⟨by simp [h3], fun k i hk => ?_⟩
      have hlt : k < alts.length := by
        have := (List.getElem?_eq_some_iff.mp hk).1
        simpa using this
      rw [List.getElem?_range hlt] at hk
      cases hk
      have hg : ids[k]? = some ids[k] := List.getElem?_eq_getElem (by omega)
      exact ⟨ty, ids[k], by rw [List.getElem?_map, hg]; rfl, h4 k _ hg⟩
    have hv : (ids.map fun v => (ty, v)).map (·.2) = ids := by
      rw [List.map_map]
      exact List.map_id ids
    have ht : sameIdTypes ((ids.map fun v => (ty, v)).map (·.1)) = true := by
      rw [sameIdTypes_iff]
      intro i j a b ha hb
      simp only [List.map_map, List.getElem?_map, Option.map_eq_some_iff, Function.comp] at ha hb
      obtain ⟨_, _, rfl⟩ := ha
      obtain ⟨_, _, rfl⟩ := hb
      exact ⟨rfl, h2⟩
    rw [hxs]
    simp only [hv, ht, (uniqueIds_iff ids).mpr h5, Bool.and_self, if_true]
    cases ids with
    | nil => exact absurd (List.eq_nil_of_length_eq_zero (by simpa using h3.symm)) h1
    | cons v vs => simp

/-- Two classes with ids 1 and 7; three classes without ids. -/
example : checkVariant [some (.scalar .int 4, .num 1), some (.scalar .int 4, .num 7)] =
    some (.scalar .int 4, [.num 1, .num 7]) ∧
    checkVariant [none, none, none] = some (.scalar .byte 1, [.num 0, .num 1, .num 2]) := ⟨rfl, rfl⟩

/-- C66. Two alternatives with the same id do not compile (also if one id is declared and the other one the index). -/
theorem C66_duplicate_rejected (alts : List (Option (Ty × Val))) (i j : Nat) (t u : Ty) (id : Val) (hij : i ≠ j)
    (hi : HasId alts i t id) (hj : HasId alts j u id) : checkVariant alts = none := by
  cases h : checkVariant alts with
  | none => rfl
  | some x =>
    obtain ⟨ty, ids⟩ := x
    obtain ⟨-, -, h3, h4, h5⟩ := (C66_variant alts ty ids).mp h
    have key : ∀ (k : Nat) (s : Ty), HasId alts k s id → k < ids.length ∧ ids[k]? = some id := by
      intro k s hk
      have hlt : k < alts.length := by
        cases hk with
        | declared h => exact (List.getElem?_eq_some_iff.mp h).1
        | byIndex h _ => exact (List.getElem?_eq_some_iff.mp h).1
      have hg : ids[k]? = some ids[k] := List.getElem?_eq_getElem (by omega)
      refine ⟨by omega, ?_⟩
      have h6 := (getId_iff alts k ty _).mpr (h4 k _ hg)
      have h7 := (getId_iff alts k s _).mpr hk
      rw [h6] at h7
      simp only [Option.some.injEq, Prod.mk.injEq] at h7
      rw [hg, h7.2]
    obtain ⟨a, b⟩ := key i t hi
    obtain ⟨c, d⟩ := key j u hj
    exact absurd (h5 i j a c (by rw [b, d])) hij

/-- The second class declares id 0, the index of the first one. -/
example : HasId [none, some (.scalar .byte 1, .num 0)] 0 (.scalar .byte 1) (.num 0) ∧
    HasId [none, some (.scalar .byte 1, .num 0)] 1 (.scalar .byte 1) (.num 0) :=
  ⟨.byIndex rfl (by decide), .declared rfl⟩

/-- C66. Ids of different types do not compile, in particular declaring an `int` id for some of the alternatives only. -/
theorem C66_mixed_types_rejected (alts : List (Option (Ty × Val))) (i j : Nat) (t u : Ty) (a b : Val)
    (hi : HasId alts i t a) (hj : HasId alts j u b) (h : t ≠ u) : checkVariant alts = none := by
  cases hc : checkVariant alts with
  | none => rfl
  | some x =>
    obtain ⟨ty, ids⟩ := x
    obtain ⟨-, -, h3, h4, -⟩ := (C66_variant alts ty ids).mp hc
    have key : ∀ (k : Nat) (s : Ty) (v : Val), HasId alts k s v → s = ty := by
      intro k s v hk
      have hlt : k < alts.length := by
        cases hk with
        | declared h => exact (List.getElem?_eq_some_iff.mp h).1
        | byIndex h _ => exact (List.getElem?_eq_some_iff.mp h).1
      have hg : ids[k]? = some ids[k] := List.getElem?_eq_getElem (by omega)
      have h6 := (getId_iff alts k ty _).mpr (h4 k _ hg)
      have h7 := (getId_iff alts k s _).mpr hk
      rw [h6] at h7
      simp only [Option.some.injEq, Prod.mk.injEq] at h7
      exact h7.1.symm
    exact absurd ((key i t a hi).trans (key j u b hj).symm) h

/-- One class declares an `int` id, the other none. -/
example : HasId [some (.scalar .int 4, .num 9), none] 0 (.scalar .int 4) (.num 9) ∧
    HasId [some (.scalar .int 4, .num 9), none] 1 (.scalar .byte 1) (.num 1) :=
  ⟨.declared rfl, .byIndex rfl (by decide)⟩

/-- C66. If a variant compiles and its alternatives are different types, then the id written for the active alternative
`i` is the id of `i`; reading this id makes `i` the active alternative; `index<Id>()`, and the lookup used by the model of
the reader, give `i`. -/
theorem C66_selects {α : Type} [DecidableEq α] (alts : List (Option (Ty × Val))) (ty : Ty) (ids : List Val)
    (types : List α) (h : checkVariant alts = some (ty, ids)) (hlen : types.length = alts.length) (hn : types.Nodup)
    (i : Nat) (hi : i < alts.length) :
    ∃ id, HasId alts i ty id ∧ idAt i 0 ids = some id ∧ selectById types ids id = .active i ∧
      indexStatic id 0 ids = some i ∧ findId id ids 0 = some i := by
  obtain ⟨-, -, h3, h4, h5⟩ := (C66_variant alts ty ids).mp h
  have hnd : nodup ids = true := (nodup_iff_index ids).mpr h5
  have hg : ids[i]? = some ids[i] := List.getElem?_eq_getElem (by omega)
  have hnt : nodup types = true := (nodup_iff_index types).mpr (index_of_Nodup hn)
  refine ⟨ids[i], h4 i _ hg, ?_, ?_, ?_, ?_⟩
  · rw [idAt_spec ids i 0 (by omega) (by omega), Nat.sub_zero, hg]
  · have hfalse : ((List.range types.length).any fun a => (List.range types.length).any fun b =>
        a != b && decide (types[a]? = types[b]?)) = false := by
      rw [Bool.eq_false_iff]
      intro ht
      simp only [List.any_eq_true, List.mem_range, Bool.and_eq_true, bne_iff_ne, decide_eq_true_eq] at ht
      obtain ⟨a, ha, b, hb, hne, he⟩ := ht
      exact hne ((nodup_iff_index types).mp hnt a b ha hb he)
    have hidx : indexAt ids[i] 0 ids = i := by rw [indexAt_of_nodup hnd 0 hg, Nat.add_zero]
    have hty : types[i]? = some types[i] := List.getElem?_eq_getElem (by omega)
    rw [selectById, hfalse, hidx, tupleVisit_spec types i 0 (by omega) (by omega), Nat.sub_zero, hty]
    simp only [Bool.false_eq_true, if_false, indexByType_spec hnt hty]
    rw [if_neg (by omega)]
  · rw [indexStatic_eq_findId]
    exact findId_nodup hnd 0 hg
  · exact findId_nodup hnd 0 hg

/-- C66. An id that no alternative has is refused (`bad_message`). -/
theorem C66_unknown_refused {α : Type} [DecidableEq α] (alts : List (Option (Ty × Val))) (ty : Ty) (ids : List Val)
    (types : List α) (h : checkVariant alts = some (ty, ids)) (hlen : types.length = alts.length) (hn : types.Nodup)
    (hsize : alts.length < 2 ^ 64 - 1) (id : Val) (hid : ∀ i, ¬ HasId alts i ty id) :
    selectById types ids id = .badMessage ∧ indexStatic id 0 ids = none ∧ findId id ids 0 = none := by
  obtain ⟨-, -, h3, h4, -⟩ := (C66_variant alts ty ids).mp h
  have hni : id ∉ ids := by
    intro hm
    obtain ⟨k, hk⟩ := List.getElem?_of_mem hm
    exact hid k (h4 k id hk)
  have hf : ∀ (xs : List Val) (k : Nat), id ∉ xs → findId id xs k = none := by
    intro xs
    induction xs with
    | nil => intro k _; rfl
    | cons x xs ih =>
      intro k hx
      simp only [List.mem_cons, not_or] at hx
      rw [findId, if_neg (fun e => hx.1 e.symm), ih _ hx.2]
  refine ⟨?_, by rw [indexStatic_eq_findId]; exact hf ids 0 hni, hf ids 0 hni⟩
  have hfalse : ((List.range types.length).any fun a => (List.range types.length).any fun b =>
      a != b && decide (types[a]? = types[b]?)) = false := by
    rw [Bool.eq_false_iff]
    intro ht
    simp only [List.any_eq_true, List.mem_range, Bool.and_eq_true, bne_iff_ne, decide_eq_true_eq] at ht
    obtain ⟨a, ha, b, hb, hne, he⟩ := ht
    exact hne (index_of_Nodup hn a b ha hb he)
  rw [selectById, hfalse, indexAt_of_not_mem 0 hni]
  simp only [Bool.false_eq_true, if_false]
  rw [if_pos (by simp only [sizeMax]; omega)]

/-- A variant of three types with ids 1, 7, 5: the last one, and id 2. -/
example : let alts : List (Option (Ty × Val)) :=
      [some (.scalar .int 4, .num 1), some (.scalar .int 4, .num 7), some (.scalar .int 4, .num 5)]
    let ids : List Val := [.num 1, .num 7, .num 5]
    checkVariant alts = some (.scalar .int 4, ids) ∧ idAt 2 0 ids = some (.num 5) ∧
    selectById ["x", "y", "z"] ids (.num 5) = .active 2 ∧ selectById ["x", "y", "z"] ids (.num 2) = .badMessage :=
  ⟨rfl, rfl, by decide +kernel, by decide +kernel⟩

/-! ## Ids of bound functions -/

/-- C66. A set of bound functions compiles only if their ids are pairwise different (what the theorems about remote calls
assume) and of one type. -/
theorem C66_bindings {σ : Type} (idTys : List Ty) (bs : List (Binding σ)) (hlen : idTys.length = bs.length) (ty : Ty)
    (ids : List Val) (h : checkRpc idTys bs = some (ty, ids)) :
    ids = bs.map Binding.id ∧ (bs.map Binding.id).Nodup ∧ ∀ t ∈ idTys, t = ty := by
  have hspec := (C66_variant _ ty ids).mp h
  obtain ⟨-, -, h3, h4, h5⟩ := hspec
  simp only [List.length_map, List.length_zip, hlen, Nat.min_self] at h3
  have hget : ∀ (i : Nat) (id : Val), ids[i]? = some id → idTys[i]? = some ty ∧ (bs.map Binding.id)[i]? = some id := by
    intro i id hi
    have hk := h4 i id hi
    cases hk with
    | declared hd =>
      rw [List.getElem?_map] at hd
      simp only [Option.map_eq_some_iff, Option.some.injEq] at hd
      obtain ⟨x, hx, rfl⟩ := hd
      exact List.getElem?_zip_eq_some.mp hx
    | byIndex hd _ =>
      rw [List.getElem?_map] at hd
      simp at hd
  have heq : ids = bs.map Binding.id := by
    apply List.ext_getElem?
    intro i
    by_cases hi : i < ids.length
    · rw [(hget i _ (List.getElem?_eq_getElem hi)).2, List.getElem?_eq_getElem hi]
    · rw [List.getElem?_eq_none (by omega), List.getElem?_eq_none (by simp only [List.length_map]; omega)]
  refine ⟨heq, ?_, ?_⟩
  · rw [← heq, List.nodup_iff_pairwise_ne, List.pairwise_iff_getElem]
    intro i j hi hj hij he
    have := h5 i j hi hj (by rw [List.getElem?_eq_getElem hi, List.getElem?_eq_getElem hj, he])
    omega
  · intro t ht
    obtain ⟨k, hk⟩ := List.getElem?_of_mem ht
    have hlt := (List.getElem?_eq_some_iff.mp hk).1
    have := (hget k ids[k] (List.getElem?_eq_getElem (by omega))).1
    rw [hk] at this
    exact Option.some.inj this

/-- C66. Two bindings with the same id do not compile. -/
theorem C66_binding_duplicate {σ : Type} (idTys : List Ty) (bs : List (Binding σ)) (hlen : idTys.length = bs.length)
    (i j : Nat) (a b : Binding σ) (hij : i ≠ j) (hi : bs[i]? = some a) (hj : bs[j]? = some b) (hid : a.id = b.id) :
    checkRpc idTys bs = none := by
  have hx : ∀ (k : Nat) (x : Binding σ), bs[k]? = some x → ∃ t, HasId ((idTys.zip (bs.map Binding.id)).map some) k t x.id := by
    intro k x hk
    have hlt := (List.getElem?_eq_some_iff.mp hk).1
    have hz : (idTys.zip (bs.map Binding.id))[k]? = some (idTys[k], x.id) :=
      List.getElem?_zip_eq_some.mpr ⟨List.getElem?_eq_getElem (by omega), by rw [List.getElem?_map, hk]; rfl⟩
    exact ⟨idTys[k], .declared (by rw [List.getElem?_map, hz]; rfl)⟩
  obtain ⟨t, ht⟩ := hx i a hi
  obtain ⟨u, hu⟩ := hx j b hj
  rw [← hid] at hu
  exact C66_duplicate_rejected _ i j t u a.id hij ht hu

/-- Functions bound to 1 and 2; bound to 1 and 1; bound to an `int` and to a byte. -/
example : let f : Val → Binding Nat := fun v => .bind v [] (.void fun w _ => w + 1)
    (checkRpc [.scalar .int 4, .scalar .int 4] [f (.num 1), f (.num 2)]).isSome = true ∧
    (checkRpc [.scalar .int 4, .scalar .int 4] [f (.num 1), f (.num 1)]).isSome = false ∧
    (checkRpc [.scalar .int 4, .scalar .byte 1] [f (.num 1), f (.num 2)]).isSome = false := by decide +kernel

/-! ## Protobuf members -/

/-- C66. A message class whose members (explicitly, by `pb_map`, or by position) have the same number does not compile. -/
theorem C66_numbers (env : Nat → Ty) (maps : List (Nat × Nat)) (nums : List (Option Nat)) (fs : List Ty)
    (h : messageCompiles env maps nums fs = true) : nodup (fieldNumbers maps 0 nums) = true := by
  simp only [messageCompiles, Bool.and_eq_true, decide_eq_true_eq] at h
  obtain ⟨⟨⟨_, h2⟩, h3⟩, _⟩ := h
  rw [uniqueValues_eq_nodup, structNumbers_eq] at h3
  · exact h3
  · intro i n hn
    obtain ⟨hnz, hcount⟩ := (numbersOk_iff maps nums).mp h2
    cases n with
    | some x => rfl
    | none =>
      apply pbNumber_eq
      simp only [mapOnce, Bool.and_eq_true, decide_eq_true_eq]
      refine ⟨?_, fieldNumber_pos hnz i⟩
      have := hcount i none hn
      simp only at this
      rwa [filter_maps maps i hnz] at this

/-- Members numbered 2 (explicitly) and 2 (by position); members 1 and 2 (by `pb_map` from 3 and by position). -/
example : messageCompiles (fun _ => .empty) [] [some 2, none] [Checks.vint32, Checks.vint32] = false ∧
    messageCompiles (fun _ => .empty) [(3, 2)] [none, none, none] [Checks.vint32, Checks.vint32, Checks.vint32] = false ∧
    messageCompiles (fun _ => .empty) [(3, 2), (2, 3)] [none, none, none]
      [Checks.vint32, Checks.str, .seq .vector none Checks.str] = true := by decide +kernel

/-- C66. So do the message classes its members are made of: a class does not compile if one of these has two members with the
same number, or a member whose explicit number is 0. -/
theorem C66_numbers_nested (env : Nat → Ty) (maps : List (Nat × Nat)) (nums : List (Option Nat)) (fs : List Ty)
    (h : messageCompiles env maps nums fs = true) (t : Ty) (ht : t ∈ fs) (maps' : List (Nat × Nat)) (nums' : List (Option Nat))
    (hin : MessageIn env maps' nums' t) : nodup (fieldNumbers maps' 0 nums') = true ∧ some 0 ∉ nums' := by
  have hmem : checkType env t = true := by
    simp only [messageCompiles, Bool.and_eq_true, List.all_eq_true] at h
    have := h.2 t ht
    unfold memberCompiles at this
    split at this <;> simp only [Bool.and_eq_true] at this
    · exact this.1.1
    · exact this.1
    · exact this.1
    · exact this.1
  clear h ht
  have key : numbersOk maps' nums' = true ∧ uniqueValues (structNumbers maps' nums') = true := by
    induction hin with
    | here => simpa [checkType] using hmem
    | named he => simpa [checkType, he] using hmem
    | @element k t _ ih => cases k <;> simp only [checkType, Bool.false_eq_true] at hmem <;> exact ih hmem
    | @key _ _ k m _ ih =>
      cases m with
      | none => exact ih (by simpa [checkType] using hmem)
      | some m => simp only [checkType, Bool.and_eq_true] at hmem; exact ih hmem.1
    | mapped _ ih => simp only [checkType, Bool.and_eq_true] at hmem; exact ih hmem.2
  refine ⟨C66_numbers env maps' nums' (nums'.map fun _ => .bool) ?_, ?_⟩
  · simp [messageCompiles, key.1, key.2, memberCompiles, checkType, tagTypeOk]
  · intro h0
    obtain ⟨i, hi⟩ := List.getElem?_of_mem h0
    have := ((numbersOk_iff maps' nums').mp key.1).2 i _ hi
    simp at this

/-- A vector of messages with members 1 and 2, and one of messages whose members have the same number. -/
example : let sub : List (Option Nat) → Ty := fun nums => .seq .vector none (.msg none true [] nums [Checks.vint32, Checks.vint32])
    messageCompiles (fun _ => .empty) [] [none] [sub [some 1, some 2]] = true ∧
    messageCompiles (fun _ => .empty) [] [none] [sub [some 3, some 3]] = false ∧
    MessageIn (fun _ => .empty) [] [some 1, some 2] (sub [some 1, some 2]) :=
  ⟨by decide +kernel, by decide +kernel, .element .here⟩

/-- C67. Every message class that compiles is one the theorems about protobuf cover (`pbFieldsOk` and distinct numbers,
see C30, C31, C34, C35), if no member is one of the kinds listed in `oddMember`, no number exceeds 2^29 - 1, and no member
with explicit number is mapped twice by `pb_map`. -/
theorem C67_covered (env : Nat → Ty) (maps : List (Nat × Nat)) (nums : List (Option Nat)) (fs : List Ty)
    (h : messageCompiles env maps nums fs = true) (hw : ∀ t ∈ fs, cppScalars t = true)
    (hodd : ∀ (i : Nat) (n : Option Nat) (t : Ty), nums[i]? = some n → fs[i]? = some t → oddMember maps n i t = false)
    (hnum : ∀ (i : Nat) (n : Option Nat), nums[i]? = some n → fieldNumber maps n i < 2 ^ 29 ∧ fieldNumber maps none i < 2 ^ 29)
    (hmap : ∀ (i n : Nat), nums[i]? = some (some n) → (maps.filter fun m => m.1 == i + 1).length ≤ 1) :
    pbFieldsOk env maps 0 nums fs = true ∧ nodup (fieldNumbers maps 0 nums) = true := by
  refine ⟨?_, C66_numbers env maps nums fs h⟩
  simp only [messageCompiles, Bool.and_eq_true, decide_eq_true_eq, List.all_eq_true] at h
  obtain ⟨⟨⟨h1, h2⟩, -⟩, h4⟩ := h
  obtain ⟨hnz, hcount⟩ := (numbersOk_iff maps nums).mp h2
  rw [pbFieldsOk_iff]
  refine ⟨h1, fun i n t hn ht => ?_⟩
  have hmem := List.mem_of_getElem? ht
  obtain ⟨b1, b2⟩ := hnum i n hn
  refine ⟨member_covered (h4 t hmem) (hw t hmem) (hodd i n t hn ht), ?_, b1, ?_, b2⟩
  · cases n with
    | some x =>
      have := hcount i _ hn
      simp only at this
      simp only [fieldNumber]
      omega
    | none => exact fieldNumber_pos hnz i
  · simp only [mapOnce, Bool.and_eq_true, decide_eq_true_eq]
    refine ⟨?_, fieldNumber_pos hnz i⟩
    cases n with
    | some x => exact hmap i x hn
    | none =>
      have := hcount i none hn
      simp only at this
      rwa [filter_maps maps i hnz] at this

/-- C67. Conversely the covered message classes compile: the theorems about protobuf are about programs that exist. -/
theorem C67_compiles (env : Nat → Ty) (maps : List (Nat × Nat)) (nums : List (Option Nat)) (fs : List Ty)
    (h : pbFieldsOk env maps 0 nums fs = true) (hn : nodup (fieldNumbers maps 0 nums) = true)
    (hm : ∀ m ∈ maps, m.1 ≠ 0 ∧ m.2 ≠ 0) (hmsg : ∀ t, isMsg env t = true → checkType env t = true) :
    messageCompiles env maps nums fs = true := by
  obtain ⟨h1, h2⟩ := (pbFieldsOk_iff env maps nums fs 0).mp h
  have hlt : ∀ (i : Nat) (n : Option Nat), nums[i]? = some n → ∃ t, fs[i]? = some t := by
    intro i n hi
    exact ⟨_, List.getElem?_eq_getElem (h1 ▸ (List.getElem?_eq_some_iff.mp hi).1)⟩
  simp only [messageCompiles, Bool.and_eq_true, decide_eq_true_eq, List.all_eq_true]
  refine ⟨⟨⟨h1, ?_⟩, ?_⟩, ?_⟩
  · rw [numbersOk_iff]
    refine ⟨hm, fun i n hi => ?_⟩
    obtain ⟨t, ht⟩ := hlt i n hi
    obtain ⟨-, a, -, b, -⟩ := h2 i n t hi ht
    cases n with
    | some x => simp only [fieldNumber] at a; simp only; omega
    | none =>
      simp only
      rw [filter_maps maps i hm]
      simp only [mapOnce, Bool.and_eq_true, decide_eq_true_eq, Nat.add_zero] at b
      exact b.1
  · rw [uniqueValues_eq_nodup, structNumbers_eq]
    · exact hn
    · intro i n hi
      obtain ⟨t, ht⟩ := hlt i n hi
      obtain ⟨-, -, -, b, -⟩ := h2 i n t hi ht
      exact pbNumber_eq b n
  · intro t ht
    obtain ⟨i, hi⟩ := List.getElem?_of_mem ht
    have hlt' := (List.getElem?_eq_some_iff.mp hi).1
    obtain ⟨a, -⟩ := h2 i _ t (List.getElem?_eq_getElem (by omega)) hi
    exact covered_member hmsg a

/-- A class with a number, a string, a packed member and a map, all compiling and covered. -/
example : let fs : List Ty := [Checks.vint32, Checks.str, .seq .vector none (.scalar .int 4),
      .assoc false false none Checks.str (some Checks.vint32)]
    let nums : List (Option Nat) := [some 7, none, none, none]
    messageCompiles (fun _ => .empty) [(4, 1)] nums fs = true ∧
    pbFieldsOk (fun _ => .empty) [(4, 1)] 0 nums fs = true ∧ nodup (fieldNumbers [(4, 1)] 0 nums) = true ∧
    (∀ t ∈ fs, cppScalars t = true) ∧
    (List.range 4).all (fun i => !oddMember [(4, 1)] (nums[i]?.getD none) i (fs[i]?.getD .empty)) = true := by
  decide +kernel

/-- C67. Every kind of odd member does compile: the list excludes programs that exist. -/
theorem C67_odd_members_compile :
    let env : Nat → Ty := fun _ => .empty
    let str := Checks.str
    (∀ t ∈ [Ty.scalar .byte 1, .array 3 (.scalar .int 4), .seq .vector none (.seq .vector none Checks.vint32),
        .seq .vector none (.array 2 Checks.vint32), .seq .vector none .empty,
        .assoc false false none (.scalar .byte 1) (some str), .assoc false false none str (some (.array 2 (.scalar .int 4))),
        .assoc false false none str (some (.seq .vector none str))],
      messageCompiles env [] [none] [t] = true ∧ oddMember [] none 0 t = true) ∧
    messageCompiles env [] [some 5] [.seq .vector none str] = true ∧ oddMember [] (some 5) 0 (.seq .vector none str) = true ∧
    messageCompiles env [] [some (2 ^ 29)] [Checks.vint32] = true ∧
    messageCompiles env [(1, 2), (1, 3)] [some 5] [Checks.vint32] = true := by decide +kernel

/-- C67. Members refused by the compiler: 16 bit integers, spans, views, `std::optional`, `std::unique_ptr`, variants,
bitsets, containers with a size type of their own, classes without the protobuf protocol. -/
theorem C67_refused (env : Nat → Ty) (maps : List (Nat × Nat)) (num : Option Nat) (t u : Ty) (ts : List Ty) (ids : List Val)
    (dcs : List Bool) (s : SizeTy) (k : SeqKind) (b : Bool) (n : Nat) :
    ∀ x ∈ [Ty.scalar .int 1, .scalar .int 2, .scalar .chr 1, .seq .span none t, .seq .view none t, .optional b t, .optPtr t,
        .uptr t, .variant u ids dcs ts, .bitset n, .seq k (some s) t, .struct b ts, .seq .vector none (.struct b ts),
        .seq .vector none (.optional b t), .assoc b b none (.uptr t) (some u)],
      messageCompiles env maps [num] [x] = false := by
  intro x hx
  simp only [messageCompiles, List.all_cons, List.all_nil, Bool.and_true, Bool.and_eq_false_iff]
  right
  simp only [List.mem_cons, List.not_mem_nil, or_false] at hx
  rcases hx with rfl | rfl | rfl | rfl | rfl | rfl | rfl | rfl | rfl | rfl | rfl | rfl | rfl | rfl | rfl <;>
    simp [memberCompiles, checkType, tagTypeOk]

end Zpp.Props
