import Verif.Proof.Proto
import Verif.Proof.Evolve
/-!
# Objects for parsed values
-/

namespace Zpp
open Spec

theorem fieldNumbers_get {maps : List (Nat × Nat)} : ∀ (nums : List (Option Nat)) (i m : Nat), m < nums.length →
    (fieldNumbers maps i nums)[m]? = some (fieldNumber maps (nums.getD m none) (i + m))
  | [], i, m, h => by simp at h
  | n :: ns, i, 0, h => by simp [fieldNumbers]
  | n :: ns, i, m + 1, h => by
    simp only [fieldNumbers, List.getElem?_cons_succ, List.getD_cons_succ]
    rw [fieldNumbers_get ns (i + 1) m (by simpa using h)]
    congr 2
    omega

theorem nodup_get {x : Nat} : ∀ {xs : List Nat} {i j : Nat}, nodup xs = true → xs[i]? = some x → xs[j]? = some x → i = j
  | [], _, _, _, h, _ => by simp at h
  | y :: ys, i, j, hn, hi, hj => by
    obtain ⟨h1, h2⟩ := nodup_cons hn
    cases i with
    | zero =>
      cases j with
      | zero => rfl
      | succ j =>
        simp only [List.getElem?_cons_zero, Option.some.injEq, List.getElem?_cons_succ] at hi hj
        subst hi
        exact absurd (List.mem_of_getElem? hj) h1
    | succ i =>
      cases j with
      | zero =>
        simp only [List.getElem?_cons_zero, Option.some.injEq, List.getElem?_cons_succ] at hi hj
        subst hj
        exact absurd (List.mem_of_getElem? hi) h1
      | succ j =>
        simp only [List.getElem?_cons_succ] at hi hj
        rw [nodup_get h2 hi hj]

theorem pbFieldsOk_get {env : Nat → Ty} {maps : List (Nat × Nat)} : ∀ (fs : List Ty) (i : Nat) (nums : List (Option Nat)) (m : Nat)
    (t : Ty), pbFieldsOk env maps i nums fs = true → fs[m]? = some t →
    m < nums.length ∧ pbFieldOk env maps (nums.getD m none) (i + m) t = true ∧
      0 < fieldNumber maps (nums.getD m none) (i + m) ∧ fieldNumber maps (nums.getD m none) (i + m) < 2 ^ 29
  | [], _, _, _, _, _, h => by simp at h
  | u :: us, i, [], m, t, h, _ => by simp [pbFieldsOk] at h
  | u :: us, i, n :: ns, 0, t, h, ht => by
    simp only [pbFieldsOk, Bool.and_eq_true, decide_eq_true_eq] at h
    simp only [List.getElem?_cons_zero, Option.some.injEq] at ht
    subst ht
    exact ⟨by simp, by simpa using h.1.1.1.1, by simpa using h.1.1.1.2.1, by simpa using h.1.1.1.2.2⟩
  | u :: us, i, n :: ns, m + 1, t, h, ht => by
    simp only [pbFieldsOk, Bool.and_eq_true, decide_eq_true_eq] at h
    simp only [List.getElem?_cons_succ] at ht
    have := pbFieldsOk_get us (i + 1) ns m t h.2 ht
    rw [show i + 1 + m = i + (m + 1) by omega] at this
    simpa using this

theorem goodL_get {c : Cfg} : ∀ {fs : List Ty} {m : Nat} {t : Ty}, GoodL c fs = true → fs[m]? = some t → Good c t = true
  | [], _, _, _, h => by simp at h
  | u :: us, 0, t, hg, h => by
    simp only [GoodL, Bool.and_eq_true] at hg
    simp only [List.getElem?_cons_zero, Option.some.injEq] at h
    subst h
    exact hg.1
  | u :: us, m + 1, t, hg, h => by
    simp only [GoodL, Bool.and_eq_true] at hg
    exact goodL_get hg.2 (by simpa using h)

theorem initialL_get {env : Nat → Ty} : ∀ {fs : List Ty} {os : List Val} {m : Nat} {t : Ty}, InitialL env fs os → fs[m]? = some t →
    ∃ o, os[m]? = some o ∧ Initial env t o
  | [], _, _, _, _, h => by simp at h
  | u :: us, _, 0, t, .cons (o := o) ho hs, h => by
    simp only [List.getElem?_cons_zero, Option.some.injEq] at h
    subst h
    exact ⟨o, rfl, ho⟩
  | u :: us, _, m + 1, t, .cons ho hs, h => by
    obtain ⟨o, h1, h2⟩ := initialL_get hs (by simpa using h)
    exact ⟨o, by simpa using h1, h2⟩

theorem initialL_len {env : Nat → Ty} : ∀ {fs : List Ty} {os : List Val}, InitialL env fs os → os.length = fs.length
  | [], _, .nil => rfl
  | t :: ts, _, .cons _ hs => by rw [List.length_cons, List.length_cons, initialL_len hs]

theorem emptied_initial {env : Nat → Ty} : ∀ {fs : List Ty} {os : List Val}, InitialL env fs os → emptied fs os = os
  | [], _, .nil => rfl
  | t :: ts, _, .cons (o := o) ho hs => by
    simp only [emptied, List.headD_cons, List.tail_cons, emptied_initial hs]
    congr 1
    cases ho <;> rfl

/-- The default object of a message class. -/
theorem initial_msg {env : Nat → Ty} {t : Ty} {maps : List (Nat × Nat)} {nums : List (Option Nat)} {fs : List Ty}
    (h : msgOf env t = some (maps, nums, fs)) {o : Val} (ho : Initial env t o) : ∃ os, o = .list os ∧ InitialL env fs os := by
  cases ho with
  | msg hs =>
    rename_i sz ok maps' nums' fs' os
    cases sz with
    | none =>
      simp only [msgOf, Option.some.injEq, Prod.mk.injEq] at h
      obtain ⟨_, _, rfl⟩ := h
      exact ⟨os, rfl, hs⟩
    | some sz => simp [msgOf] at h
  | ref hi ho =>
    rename_i i
    simp only [msgOf] at h
    split at h
    case h_1 ok maps' nums' fs' he =>
      simp only [Option.some.injEq, Prod.mk.injEq] at h
      obtain ⟨_, _, rfl⟩ := h
      rw [he] at ho
      cases ho with
      | msg hs => exact ⟨_, rfl, hs⟩
    case h_2 => cases h
  | _ => simp [msgOf] at h

/-! ### The relation -/

theorem addAll_append (c : Cfg) (t : Ty) (xs ys acc : List Val) :
    addAll c t ys (addAll c t xs acc) = addAll c t (xs ++ ys) acc := by
  cases t <;> simp [addAll]

theorem holdsAll_append {c : Cfg} {e : Ty} {b d : List Val} (h' : HoldsAll c e b d) : ∀ {a x : List Val},
    HoldsAll c e a x → HoldsAll c e (a ++ b) (x ++ d)
  | [], _, .nil => h'
  | _ :: _, _, .cons h hs => .cons h (holdsAll_append h' hs)

theorem holds_seq {c : Cfg} {k : SeqKind} {sz : Option SizeTy} {e : Ty} {w v : Val} (h : Holds c (.seq k sz e) w v) :
    HoldsAll c e w.elems v.elems := by
  cases h with
  | num => exact .nil
  | seq h => exact h
  | msg ht => simp [msgOf] at ht

theorem holds_set {c : Cfg} {multi hashed : Bool} {sz : Option SizeTy} {key : Ty} {w v : Val}
    (h : Holds c (.assoc multi hashed sz key none) w v) :
    ∃ es, HoldsAll c key w.elems es ∧ v.elems = addAll c (.assoc multi hashed sz key none) es [] := by
  cases h with
  | num => exact ⟨[], .nil, rfl⟩
  | set h => exact ⟨_, h, rfl⟩
  | msg ht => simp [msgOf] at ht

theorem holds_map {c : Cfg} {multi hashed : Bool} {sz : Option SizeTy} {key m : Ty} {w v : Val}
    (h : Holds c (.assoc multi hashed sz key (some m)) w v) :
    ∃ es, HoldsAll c (.msg none false [] [none, none] [key, m]) w.elems es ∧
      v.elems = addAll c (.assoc multi hashed sz key (some m)) es [] := by
  cases h with
  | num => exact ⟨[], .nil, rfl⟩
  | map h => exact ⟨_, h, rfl⟩
  | msg ht => simp [msgOf] at ht

theorem holdsEach_get {c : Cfg} : ∀ {fs : List Ty} {ws vs : List Val} {m : Nat} {t : Ty}, HoldsEach c fs ws vs → fs[m]? = some t →
    ∃ w v, ws[m]? = some w ∧ vs[m]? = some v ∧ Holds c t w v
  | [], _, _, _, _, _, h => by simp at h
  | u :: us, _, _, 0, t, .cons (w := w) (v := v) h hs, ht => by
    simp only [List.getElem?_cons_zero, Option.some.injEq] at ht
    subst ht
    exact ⟨w, v, rfl, rfl, h⟩
  | u :: us, _, _, m + 1, t, .cons h hs, ht => by
    obtain ⟨w, v, h1, h2, h3⟩ := holdsEach_get hs (by simpa using ht)
    exact ⟨w, v, by simpa using h1, by simpa using h2, h3⟩

theorem holdsEach_set {c : Cfg} : ∀ {fs : List Ty} {ws vs : List Val} {m : Nat} {t : Ty} {w v : Val}, HoldsEach c fs ws vs →
    fs[m]? = some t → Holds c t w v → HoldsEach c fs (ws.set m w) (vs.set m v)
  | [], _, _, _, _, _, _, _, h, _ => by simp at h
  | u :: us, _, _, 0, t, _, _, .cons h hs, ht, hw => by
    simp only [List.getElem?_cons_zero, Option.some.injEq] at ht
    subst ht
    exact .cons hw hs
  | u :: us, _, _, m + 1, t, _, _, .cons h hs, ht, hw => .cons h (holdsEach_set hs (by simpa using ht) hw)

theorem holdsEach_len {c : Cfg} : ∀ {fs : List Ty} {ws vs : List Val}, HoldsEach c fs ws vs →
    ws.length = fs.length ∧ vs.length = fs.length
  | [], _, _, .nil => ⟨rfl, rfl⟩
  | _ :: _, _, _, .cons _ hs => by
    obtain ⟨h1, h2⟩ := holdsEach_len hs
    simp [h1, h2]

/-- A new object of a member stands for itself. -/
theorem holds_initial {c : Cfg} (hc : insideMsg c = c) (henv : ∀ i, Good c (c.env i) = true) : ∀ (n : Nat) {o : Val} {t : Ty},
    sizeOf o < n → (∃ maps num i, pbFieldOk c.env maps num i t = true) → Good c t = true → Initial c.env t o → Holds c t o o
  | 0, _, _, h, _, _, _ => absurd h (Nat.not_lt_zero _)
  | n + 1, o, t, hn, hf, hg, ho => by
    have each : ∀ {fs os}, (∀ u ∈ fs, (∃ maps num i, pbFieldOk c.env maps num i u = true) ∧ Good c u = true) → sizeOf os < n →
        InitialL c.env fs os → HoldsEach c fs os os := by
      intro fs
      induction fs with
      | nil => intro os _ _ h; cases h; exact .nil
      | cons u us ih =>
        intro os hu hs h
        cases h with
        | cons h1 h2 =>
          rename_i o' os'
          simp only [List.cons.sizeOf_spec] at hs
          exact .cons (holds_initial hc henv n (by omega) (hu u (by simp)).1 (hu u (by simp)).2 h1)
            (ih (fun x hx => hu x (by simp [hx])) (by omega) h2)
    have inside : ∀ {maps nums fs}, MsgGood c maps nums fs →
        ∀ u ∈ fs, (∃ maps num i, pbFieldOk c.env maps num i u = true) ∧ Good c u = true := by
      intro maps nums fs hm u hu
      obtain ⟨m, hm'⟩ := List.getElem?_of_mem hu
      exact ⟨⟨_, _, _, (pbFieldsOk_get fs 0 nums m u hm.fields hm').2.1⟩, goodL_get hm.types hm'⟩
    have message : isMsg c.env t = true → Holds c t o o := by
      intro hm
      obtain ⟨maps, nums, fs, h1, h2, _⟩ := good_msg hc henv hm hg
      obtain ⟨os, rfl, hos⟩ := initial_msg h1 ho
      simp only [Val.list.sizeOf_spec] at hn
      exact .msg h1 (each (inside h2) (by omega) hos)
    obtain ⟨maps, num, i, hf⟩ := hf
    cases t with
    | scalar k m => cases ho; exact .num _ _
    | bool => cases ho; exact .num _ _
    | varint m zz => cases ho; exact .num _ _
    | empty => cases ho; exact .unit
    | seq k sz e => cases ho; exact .seq .nil
    | assoc multi hashed sz key mapped =>
      cases ho
      cases mapped with
      | none => exact .set .nil
      | some m => exact .map .nil
    | msg sz ok maps' nums' fs' =>
      simp only [pbFieldOk, pbScalarOk, Bool.false_or] at hf
      exact message hf
    | ref j =>
      simp only [pbFieldOk, pbScalarOk, Bool.false_or] at hf
      exact message hf
    | _ => simp [pbFieldOk, pbScalarOk, isMsg] at hf

theorem holdsEach_initial {c : Cfg} (hc : insideMsg c = c) (henv : ∀ i, Good c (c.env i) = true) {maps : List (Nat × Nat)} :
    ∀ {fs : List Ty} {os : List Val} {i : Nat} {nums : List (Option Nat)},
    pbFieldsOk c.env maps i nums fs = true → GoodL c fs = true → InitialL c.env fs os → HoldsEach c fs os os
  | [], _, _, _, _, _, .nil => .nil
  | t :: ts, _, i, [], hf, _, _ => by simp [pbFieldsOk] at hf
  | t :: ts, _, i, n :: ns, hf, hg, .cons ho hs => by
    simp only [pbFieldsOk, Bool.and_eq_true, decide_eq_true_eq] at hf
    simp only [GoodL, Bool.and_eq_true] at hg
    exact .cons (holds_initial hc henv _ (Nat.lt_succ_self _) ⟨_, _, _, hf.1.1.1.1⟩ hg.1 ho) (holdsEach_initial hc henv hf.2 hg.2 hs)

/-! ### Objects that can be written stand for themselves -/

/-- Objects of messages written with fewer than `L` bytes stand for themselves. -/
def SubHolds (c : Cfg) (L : Nat) : Prop :=
  ∀ maps nums fs vs body, MsgGood c maps nums fs → pbFields c.env maps 0 nums fs vs = some body → body.length < L →
    LoadablePb c fs vs → HoldsEach c fs vs vs

theorem holdsAll_nums {c : Cfg} {f : Fmt} {t e : Ty} : ∀ {vs : List Val} {b : List UInt8}, wireNums f t vs = some b → HoldsAll c e vs vs
  | [], _, _ => .nil
  | v :: vs, b, h => by
    obtain ⟨x, rfl⟩ := wireNums_append_pos h
    simp only [wireNums, cat_eq_some] at h
    obtain ⟨_, _, _, h2, _⟩ := h
    exact .cons (.num _ _) (holdsAll_nums h2)

theorem holdsAll_packed {c : Cfg} {num : Nat} {t e : Ty} {vs : List Val} {b : List UInt8}
    (h : pbPackedField c.env num t vs = some b) : HoldsAll c e vs vs := by
  unfold pbPackedField at h
  split at h
  · exact .nil
  · split at h
    case h_1 hw => exact holdsAll_nums hw
    case h_2 => cases h

theorem holds_message {c : Cfg} (hc : insideMsg c = c) (henv : ∀ i, Good c (c.env i) = true) {L : Nat} (hsub : SubHolds c L)
    {t : Ty} (hm : isMsg c.env t = true) (hg : Good c t = true) {num : Nat} {v : Val} {b : List UInt8}
    (h : pbField c.env num t v = some b ∨ pbPayload c.env num t v = some b) (hL : b.length ≤ L)
    (hl : LoadablePbField c t v ∨ Loadable c t v) : Holds c t v v := by
  obtain ⟨maps, nums, fs, h1, h2, h3, h4⟩ := good_msg hc henv hm hg
  have h5 : ∃ vs, v = .list vs ∧ pbLen num (pbFields c.env maps 0 nums fs vs) = some b := by
    rcases h with h | h
    · exact h4 _ _ _ h
    · exact h3 _ _ _ h
  obtain ⟨vs, rfl, h6⟩ := h5
  obtain ⟨body, h7, h8, rfl⟩ := pbLen_some h6
  refine .msg h1 (hsub maps nums fs vs body h2 h7 (Nat.lt_of_lt_of_le (pbRecord_length_len num body) hL) ?_)
  rcases msgOf_msg h1 with ⟨ok, rfl⟩ | ⟨i, ok, rfl, hi⟩
  · simp only [LoadablePbField, Loadable, hc] at hl
    rcases hl with hl | hl
    · exact hl
    · exact hl.2
  · simp only [LoadablePbField, Loadable, hc, hi] at hl
    rcases hl with hl | hl
    · exact hl
    · exact hl.2

theorem holds_elem {c : Cfg} (hc : insideMsg c = c) (henv : ∀ i, Good c (c.env i) = true) {L : Nat} (hsub : SubHolds c L)
    {e : Ty} (hp : isPacked e = false) (he : pbElemOk c.env e = true) (hg : Good c e = true) {num : Nat} {v : Val} {b : List UInt8}
    (h : pbPayload c.env num e v = some b) (hL : b.length ≤ L) (hl : Loadable c e v) : Holds c e v v := by
  by_cases hm : isMsg c.env e = true
  · exact holds_message hc henv hsub hm hg (.inr h) hL (.inr hl)
  · have hn : numTy (packedElem e) = false := by
      cases e with
      | scalar k n => simp [isPacked] at hp
      | bool => simp [isPacked] at hp
      | varint n zz => simp [isPacked] at hp
      | _ => rfl
    simp only [Bool.not_eq_true] at hm
    simp only [pbElemOk, hn, hm, Bool.false_or] at he
    cases e with
    | seq k sz ch =>
      cases v <;> simp only [pbPayload, reduceCtorEq] at h
      obtain ⟨body, h5, h6, rfl⟩ := pbLen_some h
      exact .seq (holdsAll_nums h5)
    | _ => simp [isStr] at he

theorem holdsAll_repeated {c : Cfg} (hc : insideMsg c = c) (henv : ∀ i, Good c (c.env i) = true) {L : Nat} (hsub : SubHolds c L)
    {e : Ty} (hp : isPacked e = false) (he : pbElemOk c.env e = true) (hg : Good c e = true) {num : Nat} : ∀ {vs : List Val} {b : List UInt8},
    pbRepeated c.env num e vs = some b → b.length ≤ L → LoadableL c e vs → HoldsAll c e vs vs
  | [], _, _, _, _ => .nil
  | v :: vs, b, h, hL, hl => by
    simp only [pbRepeated, cat_eq_some] at h
    obtain ⟨x, y, hx, hy, rfl⟩ := h
    rw [List.length_append] at hL
    simp only [LoadableL] at hl
    exact .cons (holds_elem hc henv hsub hp he hg hx (by omega) hl.1) (holdsAll_repeated hc henv hsub hp he hg hy (by omega) hl.2)

theorem entry_good {c : Cfg} (hc : insideMsg c = c) {key m : Ty} (hk : (pbScalarOk key || isStr key) = true)
    (hm : (pbScalarOk m || isStr m || isMsg c.env m) = true) (gk : Good c key = true) (gm : Good c m = true) :
    Good c (.msg none false [] [none, none] [key, m]) = true := by
  have hk' : ∀ j, pbFieldOk c.env [] none j key = true := fun j => entry_ok (by
    rcases Bool.or_eq_true _ _ ▸ hk with e | e <;> simp [e])
  have hm' : ∀ j, pbFieldOk c.env [] none j m = true := fun j => entry_ok hm
  have hdsz : c.dsz = .varint := by rw [← hc]; rfl
  have haw : c.aware = (c.host == .big) := by
    have := congrArg Cfg.aware hc
    exact this.symm
  rw [Good, hc]
  simp only [nodeOk, GoodL, gk, gm, pbFieldsOk, hk', hm', Bool.and_eq_true]
  refine ⟨⟨⟨⟨?_, by decide⟩, ?_⟩, ?_⟩, by decide⟩
  · decide
  · simp [msgSzOk, hdsz]
  · rw [haw]; cases c.host <;> simp

/-- Elements of containers that can be written stand for themselves. -/
theorem holdsAll_field {c : Cfg} (hc : insideMsg c = c) (henv : ∀ i, Good c (c.env i) = true) {L : Nat} (hsub : SubHolds c L)
    {maps : List (Nat × Nat)} {n : Option Nat} {i : Nat} {t : Ty} (hf : pbFieldOk c.env maps n i t = true) (hg : Good c t = true)
    {num : Nat} {vs : List Val} {b : List UInt8} (h : pbField c.env num t (.list vs) = some b) (hL : b.length ≤ L)
    (hl : LoadableRec c t (.list vs)) :
    (∀ k sz e, t = .seq k sz e → HoldsAll c e vs vs) ∧
    (∀ multi hashed sz key, t = .assoc multi hashed sz key none → HoldsAll c key vs vs) ∧
    (∀ multi hashed sz key m, t = .assoc multi hashed sz key (some m) →
      HoldsAll c (.msg none false [] [none, none] [key, m]) vs vs) := by
  refine ⟨?_, ?_, ?_⟩
  · rintro k sz e rfl
    simp only [pbFieldOk, Bool.and_eq_true] at hf
    simp only [Good, Bool.and_eq_true] at hg
    simp only [pbField] at h
    simp only [LoadableRec, LoadablePbField] at hl
    split at h
    case isTrue hp => exact holdsAll_packed h
    case isFalse hp =>
      simp only [hp, Bool.false_eq_true, if_false] at hl
      exact holdsAll_repeated hc henv hsub (by simpa using hp) hf.1.2 hg.2 h hL hl
  · rintro multi hashed sz key rfl
    simp only [pbFieldOk, Bool.and_eq_true] at hf
    simp only [Good] at hg
    simp only [pbField] at h
    simp only [LoadableRec] at hl
    split at h
    case isTrue hp => exact holdsAll_packed h
    case isFalse hp =>
      simp only [hp, Bool.false_eq_true, if_false] at hl
      exact holdsAll_repeated hc henv hsub (by simpa using hp) hf.1.2 hg h hL hl
  · rintro multi hashed sz key m rfl
    simp only [pbFieldOk, Bool.and_eq_true] at hf
    simp only [Good, Bool.and_eq_true] at hg
    simp only [pbField] at h
    simp only [LoadableRec] at hl
    exact holdsAll_repeated hc henv hsub rfl rfl (entry_good hc hf.1.2 hf.2 hg.1 hg.2) h hL hl

theorem holds_field {c : Cfg} (hc : insideMsg c = c) (henv : ∀ i, Good c (c.env i) = true) {L : Nat} (hsub : SubHolds c L)
    {maps : List (Nat × Nat)} {n : Option Nat} {i : Nat} {t : Ty} (hf : pbFieldOk c.env maps n i t = true) (hg : Good c t = true)
    {num : Nat} {v : Val} {b : List UInt8} (h : pbField c.env num t v = some b) (hL : b.length ≤ L)
    (hl : LoadablePbField c t v) : Holds c t v v := by
  have hr := loadableRec_of hl
  cases t with
  | empty =>
    cases v <;> simp only [pbField, pbScalar, reduceCtorEq, Option.some.injEq] at h
    exact .unit
  | seq k sz e =>
    cases v <;> simp only [pbField, pbScalar, reduceCtorEq] at h
    exact .seq ((holdsAll_field hc henv hsub hf hg (by simpa only [pbField] using h) hL hr).1 _ _ _ rfl)
  | assoc multi hashed sz key mapped =>
    cases mapped with
    | none =>
      cases v <;> simp only [pbField, pbScalar, reduceCtorEq] at h
      rename_i vs
      have hs := (holdsAll_field hc henv hsub hf hg (by simpa only [pbField] using h) hL hr).2.1 _ _ _ _ rfl
      simp only [LoadablePbField] at hl
      have e := addAll_nil (c := c) (pushOk_assoc (c := c) (sz := sz) (mapped := none) hl.1)
      have := Holds.set (c := c) (multi := multi) (hashed := hashed) (sz := sz) hs
      rwa [e] at this
    | some m =>
      cases v <;> simp only [pbField, pbScalar, reduceCtorEq] at h
      rename_i vs
      have hs := (holdsAll_field hc henv hsub hf hg (by simpa only [pbField] using h) hL hr).2.2 _ _ _ _ _ rfl
      simp only [LoadablePbField] at hl
      have e := addAll_nil (c := c) (pushOk_assoc (c := c) (sz := sz) (mapped := some m) hl.1)
      have := Holds.map (c := c) (multi := multi) (hashed := hashed) (sz := sz) hs
      rwa [e] at this
  | scalar k n => cases v <;> simp only [pbField, reduceCtorEq] at h; exact .num _ _
  | bool => cases v <;> simp only [pbField, reduceCtorEq] at h; exact .num _ _
  | varint n zz => cases v <;> simp only [pbField, reduceCtorEq] at h; exact .num _ _
  | msg sz ok maps' nums' fs' =>
    simp only [pbFieldOk, pbScalarOk, Bool.false_or] at hf
    exact holds_message hc henv hsub hf hg (.inl h) hL (.inl hl)
  | ref j =>
    simp only [pbFieldOk, pbScalarOk, Bool.false_or] at hf
    exact holds_message hc henv hsub hf hg (.inl h) hL (.inl hl)
  | _ => simp [pbFieldOk, pbScalarOk, isMsg] at hf

theorem holdsEach_fields {c : Cfg} (hc : insideMsg c = c) (henv : ∀ i, Good c (c.env i) = true) {L : Nat} (hsub : SubHolds c L)
    {maps : List (Nat × Nat)} : ∀ {fs : List Ty} {i : Nat} {nums : List (Option Nat)} {vs : List Val} {body : List UInt8},
    pbFieldsOk c.env maps i nums fs = true → GoodL c fs = true → pbFields c.env maps i nums fs vs = some body → body.length ≤ L →
    LoadablePb c fs vs → HoldsEach c fs vs vs
  | [], i, nums, [], _, _, _, _, _, _ => .nil
  | [], i, [], v :: vs, _, _, _, h, _, _ => by simp [pbFields] at h
  | [], i, n :: ns, v :: vs, _, hf, _, _, _, _ => by simp [pbFieldsOk] at hf
  | t :: ts, i, [], vs, _, hf, _, _, _, _ => by simp [pbFieldsOk] at hf
  | t :: ts, i, n :: ns, [], _, _, _, h, _, _ => by simp [pbFields] at h
  | t :: ts, i, n :: ns, v :: vs, _, hf, hg, h, hL, hl => by
    simp only [pbFields, cat_eq_some] at h
    obtain ⟨a, b, ha, hb, rfl⟩ := h
    rw [List.length_append] at hL
    simp only [pbFieldsOk, Bool.and_eq_true, decide_eq_true_eq] at hf
    simp only [GoodL, Bool.and_eq_true] at hg
    simp only [LoadablePb] at hl
    exact .cons (holds_field hc henv hsub hf.1.1.1.1 hg.1 ha (by omega) hl.1)
      (holdsEach_fields hc henv hsub hf.2 hg.2 hb (by omega) hl.2)

theorem subHolds {c : Cfg} (hc : insideMsg c = c) (henv : ∀ i, Good c (c.env i) = true) : ∀ L, SubHolds c L
  | 0 => fun _ _ _ _ _ _ _ h => absurd h (Nat.not_lt_zero _)
  | L + 1 => fun _ _ _ _ _ hm h hL hl =>
    holdsEach_fields hc henv (subHolds hc henv L) hm.fields hm.types h (by omega) hl

end Zpp
