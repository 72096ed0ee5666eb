import Verif.Props.Rpc
import Verif.Spec.RpcArgs
/-!
# C85: the arguments of a remote call are converted like those of a local call
-/

namespace Zpp.Props
open Zpp.Spec

theorem castInt_number (s : Bool) (n x m : Nat) (hn : 0 < n) :
    castInt s n x m < 2 ^ (8 * m) ∧ ∃ k : Int, (castInt s n x m : Int) = numberOf s n x + k * 2 ^ (8 * m) := by
  have hm : 0 < 2 ^ (8 * m) := Nat.pow_pos (by decide)
  have key : ∀ y : Nat, ∃ k : Int, ((y % 2 ^ (8 * m) : Nat) : Int) = y + k * 2 ^ (8 * m) := by
    intro y
    refine ⟨-((y / 2 ^ (8 * m) : Nat) : Int), ?_⟩
    have h := Nat.mod_add_div y (2 ^ (8 * m))
    have h2 : ((y % 2 ^ (8 * m) : Nat) : Int) + ((2 ^ (8 * m) * (y / 2 ^ (8 * m)) : Nat) : Int) = (y : Int) := by
      exact_mod_cast h
    rw [Int.natCast_mul] at h2
    have hc : ((2 ^ (8 * m) : Nat) : Int) = (2 : Int) ^ (8 * m) := by norm_cast
    rw [hc, Int.mul_comm] at h2
    rw [Int.neg_mul]
    omega
  have hp : 2 ^ (8 * n) = 2 * 2 ^ (8 * n - 1) := by
    rw [← Nat.pow_succ']; congr 1; omega
  unfold castInt numberOf
  by_cases hs : (s && decide (2 ^ (8 * n - 1) ≤ x)) = true
  · rw [if_pos hs]
    have hs' : s = true ∧ 2 ^ (8 * n) ≤ 2 * x := by
      simp only [Bool.and_eq_true, decide_eq_true_eq] at hs
      exact ⟨hs.1, by omega⟩
    rw [if_pos hs']
    refine ⟨Nat.mod_lt _ hm, ?_⟩
    obtain ⟨k, hk⟩ := key (x + (2 ^ (8 * (m + n)) - 2 ^ (8 * n)))
    refine ⟨k + 2 ^ (8 * n), ?_⟩
    rw [hk]
    have hle : 2 ^ (8 * n) ≤ 2 ^ (8 * (m + n)) := Nat.pow_le_pow_right (by decide) (by omega)
    have e : (2 : Int) ^ (8 * (m + n)) = 2 ^ (8 * n) * 2 ^ (8 * m) := by
      rw [← Int.pow_add]; congr 1; omega
    have hc : ((x + (2 ^ (8 * (m + n)) - 2 ^ (8 * n)) : Nat) : Int) = x + (2 ^ (8 * n) * 2 ^ (8 * m) - 2 ^ (8 * n)) := by
      rw [← e, Int.natCast_add, Int.ofNat_sub hle]
      norm_cast
    rw [hc, Int.add_mul]
    omega
  · rw [if_neg hs]
    have hs' : ¬ (s = true ∧ 2 ^ (8 * n) ≤ 2 * x) := by
      rintro ⟨h1, h2⟩
      apply hs
      simp only [h1, Bool.true_and, decide_eq_true_eq]
      omega
    rw [if_neg hs']
    exact ⟨Nat.mod_lt _ hm, key x⟩


theorem same_iff {t u : ArgTy} : t.same u = true ↔ SameType t u := by
  cases t <;> cases u <;> simp [ArgTy.same, SameType, and_assoc]

theorem numberOf_object (s : Bool) (n x : Nat) :
    ∃ k : Int, numberOf s n x = (x : Int) + k * 2 ^ (8 * n) := by
  unfold numberOf
  split
  · exact ⟨-1, by omega⟩
  · exact ⟨0, by omega⟩

theorem argNumber_integer {a : CallArg} {s : Bool} {n x : Nat} (ho : IsObject a.ty a.v) (h : a.integer = some (s, n, x)) :
    0 < n ∧ x < 2 ^ (8 * n) ∧ ∃ z, argNumber a.ty a.v = some z ∧ z = numberOf s n x := by
  obtain ⟨t, cst, v⟩ := a
  cases t with
  | integer c s' n' =>
    obtain ⟨hn, y, rfl, hy⟩ := ho
    simp only [CallArg.integer, Option.some.injEq, Prod.mk.injEq] at h
    obtain ⟨rfl, rfl, rfl⟩ := h
    exact ⟨hn, hy, _, rfl, rfl⟩
  | bool =>
    obtain ⟨y, rfl, hy⟩ := ho
    simp only [CallArg.integer, Option.some.injEq, Prod.mk.injEq] at h
    obtain ⟨rfl, rfl, rfl⟩ := h
    exact ⟨by decide, by omega, _, rfl, by simp [numberOf]⟩
  | enum i cls s' n' =>
    obtain ⟨hn, y, rfl, hy⟩ := ho
    simp only [CallArg.integer, Option.some.injEq, Prod.mk.injEq] at h
    obtain ⟨rfl, rfl, rfl⟩ := h
    exact ⟨hn, hy, _, rfl, rfl⟩
  | other i t => simp [CallArg.integer] at h

/-- One argument. -/
theorem castArg_initializes {t : ArgTy} {a : CallArg} {v : Val} (ht : ∀ c s m, t = .integer c s m → 0 < m)
    (ho : IsObject a.ty a.v) (h : castArg t a = some v) : Initializes t a.ty a.v v := by
  cases t with
  | integer c s m =>
    simp only [castArg, Option.map_eq_some_iff] at h
    obtain ⟨⟨s', n, x⟩, hi, rfl⟩ := h
    obtain ⟨hn, hx, z, hz, rfl⟩ := argNumber_integer ho hi
    obtain ⟨hlt, k, hk⟩ := castInt_number s' n x m hn
    obtain ⟨k', hk'⟩ := numberOf_object s m (castInt s' n x m)
    refine .number (k := k + k') rfl hz ?_ ⟨ht _ _ _ rfl, _, rfl, hlt⟩
    simp only [argNumber, Option.some.injEq]
    rw [hk', hk, Int.add_mul]
    omega
  | bool =>
    simp only [castArg, Option.map_eq_some_iff] at h
    obtain ⟨⟨s', n, x⟩, hi, rfl⟩ := h
    obtain ⟨hn, hx, z, hz, rfl⟩ := argNumber_integer ho hi
    refine .bool rfl hz ?_
    have : numberOf s' n x = 0 ↔ x = 0 := by
      unfold numberOf
      have : ((2 ^ (8 * n) : Nat) : Int) = (2 : Int) ^ (8 * n) := by norm_cast
      split <;> omega
    by_cases h0 : x = 0
    · rw [if_pos h0, if_pos (this.2 h0)]
    · rw [if_neg h0, if_neg (fun e => h0 (this.1 e))]
  | enum i cls s n =>
    simp only [castArg] at h
    split at h
    · rename_i hs; cases h; exact .same (same_iff.1 hs) rfl
    · cases h
  | other i t =>
    simp only [castArg] at h
    split at h
    · rename_i hs
      simp only [Bool.and_eq_true] at hs
      cases h; exact .same (same_iff.1 hs.1) rfl
    · cases h

theorem mapM_get {α β : Type} {f : α → Option β} : ∀ {l : List α} {vs : List β}, l.mapM f = some vs →
    vs.length = l.length ∧ ∀ (i : Nat) x, l[i]? = some x → ∃ y, vs[i]? = some y ∧ f x = some y
  | [], vs, h => by
    simp only [List.mapM_nil] at h
    cases h
    exact ⟨rfl, fun i x h => by simp at h⟩
  | x :: l, vs, h => by
    simp only [List.mapM_cons] at h
    cases hx : f x with
    | none => rw [hx] at h; cases h
    | some y =>
      rw [hx] at h
      cases hl : l.mapM f with
      | none => rw [hl] at h; cases h
      | some ys =>
        rw [hl] at h
        cases h
        obtain ⟨h1, h2⟩ := mapM_get hl
        refine ⟨by simp [h1], ?_⟩
        intro i z hz
        cases i with
        | zero => simp at hz; subst hz; exact ⟨y, by simp, hx⟩
        | succ i => simpa using h2 i z (by simpa using hz)

/-- C85. If a remote call compiles, there is one argument for each parameter, and the objects sent for the arguments are, one by
one, what the parameters of an ordinary call with these arguments are initialized to. -/
theorem C85_converted (params : List ArgTy) (args : List CallArg) (vs : List Val)
    (hp : ∀ c s m, .integer c s m ∈ params → 0 < m) (ho : ∀ a ∈ args, IsObject a.ty a.v)
    (h : convertArgs params args = some vs) :
    args.length = params.length ∧ vs.length = params.length ∧
    ∀ (i : Nat) t a, params[i]? = some t → args[i]? = some a → ∃ v, vs[i]? = some v ∧ Initializes t a.ty a.v v := by
  unfold convertArgs at h
  split at h
  · rename_i he
    split at h
    · rename_i ha
      cases h
      simp only [List.isEmpty_iff] at he ha
      subst he; subst ha
      exact ⟨rfl, rfl, fun i t a h => by simp at h⟩
    · cases h
  · split at h
    · cases h
    rename_i hl
    have hl : params.length = args.length := Decidable.of_not_not hl
    have hz : ∀ (i : Nat) t a, params[i]? = some t → args[i]? = some a → (params.zip args)[i]? = some (t, a) := by
      intro i t a h1 h2
      rw [List.getElem?_zip_eq_some]
      exact ⟨h1, h2⟩
    split at h
    · rename_i hs
      cases h
      refine ⟨hl.symm, by simp [hl], ?_⟩
      intro i t a ht ha
      refine ⟨a.v, by simp [ha], ?_⟩
      rw [List.all_eq_true] at hs
      exact .same (same_iff.1 (hs (t, a) (List.mem_of_getElem? (hz i t a ht ha)))) rfl
    · split at h
      · obtain ⟨h1, h2⟩ := mapM_get h
        refine ⟨hl.symm, by simp [h1, hl], ?_⟩
        intro i t a ht ha
        obtain ⟨v, hv, hc⟩ := h2 i (t, a) (hz i t a ht ha)
        exact ⟨v, hv, castArg_initializes (fun c s m e => hp c s m (e ▸ List.mem_of_getElem? ht))
          (ho a (List.mem_of_getElem? ha)) hc⟩
      · cases h

/-- C85: a number that the type of the parameter can represent arrives unchanged. -/
theorem C85_preserved (c s : Bool) (n : Nat) (u : ArgTy) (a v : Val) (z : Int) (ho : IsObject u a) (hz : argNumber u a = some z)
    (hfit : ∃ x, x < 2 ^ (8 * n) ∧ numberOf s n x = z) (h : Initializes (.integer c s n) u a v) :
    argNumber (.integer c s n) v = some z := by
  have hb : ∀ x, x < 2 ^ (8 * n) → (s = true → -(2 ^ (8 * n) : Int) ≤ 2 * numberOf s n x ∧ 2 * numberOf s n x < 2 ^ (8 * n)) ∧
      (s = false → 0 ≤ numberOf s n x ∧ numberOf s n x < 2 ^ (8 * n)) := by
    intro x hx
    have : ((2 ^ (8 * n) : Nat) : Int) = (2 : Int) ^ (8 * n) := by norm_cast
    unfold numberOf
    refine ⟨fun e => ?_, fun e => ?_⟩
    · subst e
      by_cases hh : 2 ^ (8 * n) ≤ 2 * x
      · rw [if_pos ⟨rfl, hh⟩]; omega
      · rw [if_neg (fun h => hh h.2)]; omega
    · subst e; simp; omega
  cases h with
  | number ht hz' hv hi =>
    rename_i c' s' n' z' k
    cases ht
    rw [hz] at hz'
    cases hz'
    obtain ⟨_, y, rfl, hy⟩ := hi
    simp only [argNumber, Option.some.injEq] at hv ⊢
    obtain ⟨x, hx, hxz⟩ := hfit
    have h1 := hb x hx
    have h2 := hb y hy
    rw [hxz] at h1
    have hpos : (0 : Int) < 2 ^ (8 * n) := Int.pow_pos (by decide)
    have hk0 : k = 0 := by
      have : k * 2 ^ (8 * n) < 2 ^ (8 * n) ∧ -(2 ^ (8 * n) : Int) < k * 2 ^ (8 * n) := by
        cases s
        · have a1 := h1.2 rfl; have a2 := h2.2 rfl; omega
        · have a1 := h1.1 rfl; have a2 := h2.1 rfl; omega
      have l1 : k < 1 := by
        apply Int.lt_of_mul_lt_mul_right (a := 2 ^ (8 * n)) _ (Int.le_of_lt hpos)
        omega
      have l2 : -1 < k := by
        apply Int.lt_of_mul_lt_mul_right (a := 2 ^ (8 * n)) _ (Int.le_of_lt hpos)
        omega
      omega
    subst hk0
    omega
  | bool ht _ _ => cases ht
  | same hs hv =>
    subst hv
    cases u <;> simp only [SameType] at hs
    obtain ⟨rfl, rfl, rfl⟩ := hs
    exact hz


theorem same_passable {t u : ArgTy} (h : t.same u = true) : Passable t u := by
  cases t <;> cases u <;> simp_all [ArgTy.same, Passable]

theorem constructible_iff (t : ArgTy) (a : CallArg) : constructible t a = true ↔ Passable t a.ty := by
  obtain ⟨u, c, v⟩ := a
  cases t <;> cases u <;> simp [constructible, Passable, ArgTy.same]

theorem object_integer {a : CallArg} (ho : IsObject a.ty a.v) (hu : ∀ i t, a.ty ≠ .other i t) : ∃ r, a.integer = some r := by
  obtain ⟨t, c, v⟩ := a
  cases t with
  | integer c s n => obtain ⟨_, x, rfl, _⟩ := ho; exact ⟨_, rfl⟩
  | bool => obtain ⟨x, rfl, _⟩ := ho; exact ⟨_, rfl⟩
  | enum i cls s n => obtain ⟨_, x, rfl, _⟩ := ho; exact ⟨_, rfl⟩
  | other i t => exact (hu i t rfl).elim

theorem castArg_some_iff {t : ArgTy} {a : CallArg} (ho : IsObject a.ty a.v) (hp : Passable t a.ty) :
    (∃ v, castArg t a = some v) ↔ ((∃ i u, a.ty = .other i u) → a.const = false) := by
  obtain ⟨u, c, v⟩ := a
  cases t with
  | integer c' s m =>
    have hu : ∀ i t, u ≠ .other i t := by rintro i t rfl; exact hp
    obtain ⟨r, hr⟩ := object_integer (a := ⟨u, c, v⟩) ho hu
    exact ⟨fun _ ⟨i, t, e⟩ => (hu i t e).elim, fun _ => by simp [castArg, hr]⟩
  | bool =>
    have hu : ∀ i t, u ≠ .other i t := by rintro i t rfl; exact hp
    obtain ⟨r, hr⟩ := object_integer (a := ⟨u, c, v⟩) ho hu
    exact ⟨fun _ ⟨i, t, e⟩ => (hu i t e).elim, fun _ => by simp [castArg, hr]⟩
  | enum i cls s n =>
    cases u <;> simp only [Passable] at hp
    subst hp
    simp [castArg, ArgTy.same]
  | other i t =>
    cases u <;> simp only [Passable] at hp
    subst hp
    simp [castArg, ArgTy.same]

theorem mapM_some_iff {α β : Type} {f : α → Option β} : ∀ {l : List α},
    (∃ vs, l.mapM f = some vs) ↔ ∀ x ∈ l, ∃ y, f x = some y
  | [] => by simp
  | x :: l => by
    have ih := mapM_some_iff (f := f) (l := l)
    simp only [List.mapM_cons, List.mem_cons, forall_eq_or_imp, ← ih]
    cases f x <;> cases l.mapM f <;> simp

/-- C85. Which remote calls compile: there is one argument for each parameter, which an ordinary call could pass; and either all
types are those of the parameters, or no argument of a class is `const`. -/
theorem C85_accepted (params : List ArgTy) (args : List CallArg) (ho : ∀ a ∈ args, IsObject a.ty a.v) :
    (∃ vs, convertArgs params args = some vs) ↔
      params.length = args.length ∧ (∀ p ∈ params.zip args, Passable p.1 p.2.ty) ∧
      ((∀ p ∈ params.zip args, SameType p.1 p.2.ty) ∨
        ∀ a ∈ args, (∃ i u, a.ty = .other i u) → a.const = false) := by
  unfold convertArgs
  by_cases he : params.isEmpty = true
  · rw [if_pos he]
    simp only [List.isEmpty_iff] at he
    subst he
    cases args <;> simp
  rw [if_neg he]
  by_cases hl : params.length = args.length
  · rw [if_neg (fun h => h hl)]
    by_cases hs : (params.zip args).all (fun p => p.1.same p.2.ty) = true
    · rw [if_pos hs]
      rw [List.all_eq_true] at hs
      exact ⟨fun _ => ⟨hl, fun p hp => same_passable (hs p hp), .inl fun p hp => same_iff.1 (hs p hp)⟩, fun _ => ⟨_, rfl⟩⟩
    · rw [if_neg hs]
      rw [List.all_eq_true] at hs
      by_cases hc : (params.zip args).all (fun p => constructible p.1 p.2) = true
      · rw [if_pos hc, mapM_some_iff]
        rw [List.all_eq_true] at hc
        have hpass : ∀ p ∈ params.zip args, Passable p.1 p.2.ty := fun p hp => (constructible_iff _ _).1 (hc p hp)
        have hmem : ∀ a ∈ args, ∃ t, (t, a) ∈ params.zip args := by
          intro a ha
          obtain ⟨i, hi⟩ := List.mem_iff_getElem?.1 ha
          have hlt : i < params.length := by
            rw [hl]; exact (List.getElem?_eq_some_iff.1 hi).1
          exact ⟨params[i], List.mem_of_getElem? (i := i)
            (by rw [List.getElem?_zip_eq_some]; exact ⟨List.getElem?_eq_getElem hlt, hi⟩)⟩
        have hobj : ∀ p ∈ params.zip args, IsObject p.2.ty p.2.v := fun p hp => ho _ (List.of_mem_zip hp).2
        constructor
        · intro h
          refine ⟨hl, hpass, .inr ?_⟩
          intro a ha
          obtain ⟨t, ht⟩ := hmem a ha
          exact (castArg_some_iff (hobj _ ht) (hpass _ ht)).1 (h _ ht)
        · rintro ⟨_, _, h | h⟩
          · exact (hs fun p hp => same_iff.2 (h p hp)).elim
          · intro p hp
            exact (castArg_some_iff (hobj _ hp) (hpass _ hp)).2 (h _ (List.of_mem_zip hp).2)
      · rw [if_neg hc]
        rw [List.all_eq_true] at hc
        refine ⟨fun ⟨_, h⟩ => by simp at h, fun ⟨_, h, _⟩ => (hc fun p hp => ?_).elim⟩
        exact (constructible_iff _ _).2 (h p hp)
  · rw [if_pos hl]
    exact ⟨fun ⟨_, h⟩ => by simp at h, fun h => (hl h.1).elim⟩

/-- C85, end to end: a remote call whose arguments are converted to `vs` (see `C85_converted`) calls the function on `vs`, and the
response is its result. The other hypotheses are those of `C36_call`, for `vs`. -/
theorem C85_call {σ : Type} (n : Net σ) (fns : Fns σ) (d : Nat) (fm : Fmt) (i : Nat) (fn : Fn σ) (t : Ty)
    (f : σ → List Val → Val × σ) (params : List ArgTy) (args : List CallArg) (vs : List Val) (s : NetSt σ)
    (bs : Chan → List UInt8)
    (hconv : convertArgs params args = some vs) (hparams : fn.params = params.map ArgTy.ty) (hopaq : fn.opaq = false)
    (hd : n.d = d + 1) (hcf : fmtOf n.cc = fm) (hsf : fmtOf n.sc = fm)
    (hids : nodup (n.bindings.map Binding.id) = true)
    (hfns : ∀ i fn, fns i = some fn → ∃ b, n.bindings[i]? = some b ∧ Provides n.d n.sc fn b)
    (hi : fns i = some fn) (hf : fn.body = .value t f)
    (hempty : ∀ k, (s.buf k).rpos = (s.buf k).wpos ∧ (s.buf k).wpos ≤ (s.buf k).data.length ∧
      (s.buf k).data.length < 2 ^ 63)
    (hreq : MsgOk n fns (.req true i vs)) (hresp : MsgOk n fns (.resp i (f s.world vs).1))
    (hbs : ∀ k, wireItems fm (sentItems fns n.idTy k [(n.a, .req true i vs), (n.b, .resp i (f s.world vs).1)]) =
      some (bs k)) (hl : ∀ k, (bs k).length < 2 ^ 63)
    (hbits : ∀ k, BitsOk (sentItems fns n.idTy k [(n.a, .req true i vs), (n.b, .resp i (f s.world vs).1)])
      ⟨(s.buf k).data, (s.buf k).wpos⟩)
    (hra : RoomFor n.cc.g (s.buf n.a).data.length ((s.buf n.a).wpos + (bs n.a).length))
    (hrb : RoomFor n.sc.g (s.buf n.b).data.length ((s.buf n.b).wpos + (bs n.b).length)) :
    let r1 := netRequestArgs n true i params args s
    let r := netRun n [.serve, .response i] r1.2
    r1.1 = (.ok, none) ∧ r.1 = [(.ok, none), (.ok, some (f s.world vs).1)] ∧ r.2.world = (f s.world vs).2 := by
  have hlen : vs.length = fn.params.length := by
    rw [hparams, List.length_map]
    unfold convertArgs at hconv
    split at hconv
    · rename_i he
      split at hconv
      · cases hconv
        simp only [List.isEmpty_iff] at he
        simp [he]
      · cases hconv
    · split at hconv
      · cases hconv
      rename_i hl
      have hl : params.length = args.length := Decidable.of_not_not hl
      split at hconv
      · cases hconv; simp [hl]
      · split at hconv
        · simp [(mapM_get hconv).1, hl]
        · cases hconv
  have h := C36_call n fns d fm i fn t f vs s bs hd hcf hsf hids hfns hi hf hlen hempty hreq hresp hbs hl hbits hra hrb
  have e : askFor fn true i vs = .request true i vs := by simp [askFor, hopaq]
  simp only [e, netRun, netStep, netRequestArgs, hconv, List.cons.injEq] at h ⊢
  exact ⟨h.1.1, ⟨h.1.2.1, h.1.2.2⟩, h.2⟩

/-- `void f(uint16_t, std::string)` called with an `int` and a string: the number is reduced to 16 bits, as in a local call. -/
def exParams : List ArgTy := [.integer false false 2, .other 0 Checks.str]

/-- The arguments `-2` and `"A"`. -/
def exArgs (const : Bool) : List CallArg := [⟨.integer false true 4, false, .num 4294967294⟩, ⟨.other 0 Checks.str, const, Checks.strV [65]⟩]

example : exParams.map ArgTy.ty = [.scalar .int 2, Checks.str] ∧
    [ArgTy.integer true true 1, .integer false true 4, .enum 0 true false 2, .bool].map ArgTy.ty =
      [.scalar .chr 1, .scalar .int 4, .scalar .enum 2, .bool] := ⟨rfl, rfl⟩

example : convertArgs exParams (exArgs false) = some [.num 65534, Checks.strV [65]] ∧
    (∀ a ∈ exArgs false, IsObject a.ty a.v) ∧
    argNumber (.integer false true 4) (.num 4294967294) = some (-2) ∧
    argNumber (.integer false false 2) (.num 65534) = some ((-2) + 1 * 2 ^ (8 * 2)) ∧
    convertArgs [.integer false true 8] [⟨.integer false true 1, true, .num 255⟩] = some [.num (2 ^ 64 - 1)] ∧
    convertArgs [.bool] [⟨.integer false true 4, true, .num 256⟩] = some [.num 1] ∧
    convertArgs [.integer true false 1] [⟨.integer false true 4, true, .num 300⟩] = some [.num 44] := by
  refine ⟨by decide +kernel, ?_, by decide +kernel, by decide +kernel, by decide +kernel, by decide +kernel, by decide +kernel⟩
  intro a ha
  simp only [exArgs, List.mem_cons, List.not_mem_nil, or_false] at ha
  rcases ha with rfl | rfl
  · exact ⟨by decide, _, rfl, by decide⟩
  · trivial

/-- The call of the example of `C36_call` with an `int` for the `uint16_t`. -/
example : let r1 := netRequestArgs exNet1 true 0 exParams [⟨.integer false true 4, true, .num 258⟩, ⟨.other 0 Checks.str, false, Checks.strV [65]⟩] exStart
    r1.1 = (.ok, none) ∧ (netRun exNet1 [.serve, .response 0] r1.2).1 = [(.ok, none), (.ok, some (.num 1))] ∧
    (netRun exNet1 [.serve, .response 0] r1.2).2.world = [(1, [.num 258, Checks.strV [65]])] := by
  decide +kernel

/-- C85 fails for `const` objects: a local call that converts an integer and passes a `const` object of a class has no remote
counterpart, although each of the two alone can be passed. -/
theorem C85_const_object :
    (∀ p ∈ exParams.zip (exArgs true), Passable p.1 p.2.ty) ∧ convertArgs exParams (exArgs true) = none ∧
    convertArgs exParams (exArgs false) = some [.num 65534, Checks.strV [65]] ∧
    convertArgs [.other 0 Checks.str] [⟨.other 0 Checks.str, true, Checks.strV [65]⟩] = some [Checks.strV [65]] := by
  refine ⟨?_, by decide +kernel, by decide +kernel, by decide +kernel⟩
  intro p hp
  simp only [exParams, exArgs, List.zip_cons_cons, List.zip_nil_right, List.mem_cons, List.not_mem_nil, or_false] at hp
  rcases hp with rfl | rfl
  · trivial
  · rfl

end Zpp.Props
