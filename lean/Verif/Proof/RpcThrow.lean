import Verif.Spec.RpcThrow
import Verif.Props.Rpc2
/-!
# Servers of functions that throw: lemmas
-/

namespace Zpp
open Zpp.Spec Zpp.Props

theorem readParams_eq {d : Nat} {c : Cfg} {params : List Ty} {data : List UInt8} {p : Nat} {s : Status} {vs : List Val} {p' : Nat}
    (h : decMany d c data (fresh c d params) p = ⟨s, vs, p'⟩) : readParams (d + 1) c params data p = (s, vs, p') := by
  cases params with
  | nil =>
    simp only [fresh, List.map_nil, decMany, ResL.mk.injEq] at h
    obtain ⟨rfl, rfl, rfl⟩ := h
    rfl
  | cons t ts =>
    simp only [readParams]
    rw [decode_tuple]
    unfold fresh at h
    rw [h]
    rfl

/-- The matching branch of a binding. -/
def callT {σ : Type} (d : Nat) (c : Cfg) (noFit : Bool) (w : σ) (data : List UInt8) (p : Nat) (o : OutSt) : TBinding σ → TServed σ
  | .bind _ params body => callBindT d c noFit params body w data p o
  | .opaque _ fn => callOpaqueT d c noFit fn w data p o

theorem callBindingT_nth {σ : Type} {d : Nat} {c : Cfg} {noFit : Bool} {w : σ} {data : List UInt8} {p : Nat} {o : OutSt}
    {bs : List (TBinding σ)} (hn : nodup (bs.map TBinding.id) = true) {i : Nat} {b : TBinding σ} (hi : bs[i]? = some b) :
    callBindingT d c noFit b.id w data p o bs = callT d c noFit w data p o b := by
  induction bs generalizing i with
  | nil => simp at hi
  | cons x xs ih =>
    simp only [List.map_cons, nodup, Bool.and_eq_true, Bool.not_eq_true'] at hn
    cases i with
    | zero =>
      simp only [List.getElem?_cons_zero, Option.some.injEq] at hi
      subst hi
      rw [callBindingT.eq_def]
      simp only [if_true]
      cases x <;> rfl
    | succ i =>
      simp only [List.getElem?_cons_succ] at hi
      have hne : x.id ≠ b.id := by
        intro he
        have : (xs.map TBinding.id).contains x.id = true := by
          rw [List.contains_iff_mem, he]
          exact List.mem_map.mpr ⟨_, List.mem_of_getElem? hi, rfl⟩
        rw [this] at hn
        exact absurd hn.1 (by simp)
      rw [callBindingT.eq_def]
      simp only
      rw [if_neg hne]
      exact ih hn.2 hi

theorem callBindingT_unknown {σ : Type} {d : Nat} {c : Cfg} {noFit : Bool} {id : Val} {w : σ} {data : List UInt8} {p : Nat} {o : OutSt}
    {bs : List (TBinding σ)} (h : ∀ b ∈ bs, b.id ≠ id) :
    callBindingT d c noFit id w data p o bs = ⟨.thrown (.code (some .notSupported)), w, p, o⟩ := by
  induction bs with
  | nil => rfl
  | cons x xs ih =>
    rw [callBindingT.eq_def]
    simp only
    rw [if_neg (h x List.mem_cons_self)]
    exact ih fun b hb => h b (List.mem_cons_of_mem _ hb)

theorem serveT_bound {σ : Type} {d : Nat} {c : Cfg} {noFit : Bool} {idTy : Ty} {bs : List (TBinding σ)} {w : σ}
    {data : List UInt8} {p : Nat} {o : OutSt} {id : Val} {p' : Nat} {i : Nat} {params : List Ty} {body : TBody σ}
    (hn : nodup (bs.map TBinding.id) = true)
    (hid : decMany d c data (fresh c d [idTy]) p = ⟨.ok, [id], p'⟩) (hi : bs[i]? = some (.bind id params body)) :
    serveT d c noFit idTy bs w data p o = callBindT d c noFit params body w data p' o := by
  simp only [fresh, List.map_cons, List.map_nil] at hid
  simp only [serveT, hid, List.headD_cons]
  exact callBindingT_nth hn hi

theorem awaitErrc_eq (s : Status) (h : s ≠ .ok) : yieldCode s = awaitErrc s := by
  cases s <;> first | rfl | exact absurd rfl h

theorem callBindT_refused {σ : Type} {d : Nat} {c : Cfg} {noFit : Bool} {w : σ} {data : List UInt8} {p : Nat} {o : OutSt}
    {params : List Ty} {body : TBody σ} {s : Status} {vs : List Val} {p' : Nat}
    (h : decMany d c data (fresh c d params) p = ⟨s, vs, p'⟩) (hs : s ≠ .ok) :
    callBindT (d + 1) c noFit params body w data p o = ⟨awaitErrc s, w, p', o⟩ := by
  have hp : params ≠ [] := by
    rintro rfl
    simp only [fresh, List.map_nil, decMany, ResL.mk.injEq] at h
    exact hs h.1.symm
  have hr := readParams_eq h
  unfold callBindT
  cases body with
  | plain b =>
    simp only [applyT, C38_refused d c params b data p w s vs p' hp h hs]
    cases b <;> simp only [awaitErrc_eq s hs]
  | throwsVoid f =>
    simp only [applyT, hr]
    cases s <;> first | exact absurd rfl hs | rfl
  | throws t f =>
    simp only [applyT, hr]
    cases s <;> first | exact absurd rfl hs | rfl

theorem awaitOut_eq {σ : Type} {d : Nat} {c : Cfg} {noFit : Bool} {o : OutSt} {w : σ} {p : Nat} {t : Ty} {v : Val} :
    awaitOut d c noFit o w p t v =
      ⟨(replyT d c noFit o (.ok (some (t, v)))).1, w, p, (replyT d c noFit o (.ok (some (t, v)))).2⟩ := by
  simp only [awaitOut, replyT]
  rcases outCall d c noFit [(t, v)] o with ⟨s, o'⟩
  cases s <;> rfl

theorem callBindT_called {σ : Type} {d : Nat} {c : Cfg} {noFit : Bool} {w : σ} {data : List UInt8} {p : Nat} {o : OutSt}
    {params : List Ty} {body : TBody σ} {args : List Val} {p' : Nat}
    (h : decMany d c data (fresh c d params) p = ⟨.ok, args, p'⟩) (hm : ¬ Misreported params body w args) :
    callBindT (d + 1) c noFit params body w data p o =
      ⟨(replyT (d + 1) c noFit o (outcome body w args).1).1, (outcome body w args).2, p',
        (replyT (d + 1) c noFit o (outcome body w args).1).2⟩ := by
  have hr := readParams_eq h
  unfold callBindT
  cases body with
  | plain b =>
    by_cases hp : params = []
    · subst hp
      simp only [fresh, List.map_nil, decMany, ResL.mk.injEq, true_and] at h
      obtain ⟨rfl, rfl⟩ := h
      simp only [applyT, C38_no_parameters]
      cases b with
      | void f => rfl
      | errc f =>
        simp only [outcome]
        rcases f w [] with ⟨e, w'⟩
        cases e <;> rfl
      | value t f => exact awaitOut_eq
    · simp only [applyT, C38_called d c params b data p w args p' hp h]
      cases b with
      | void f => rfl
      | errc f =>
        simp only [outcome]
        rcases hf : f w args with ⟨e, w'⟩
        cases e with
        | none => exact absurd ⟨hp, Or.inl ⟨f, rfl, by rw [hf]⟩⟩ hm
        | some e => rfl
      | value t f => exact awaitOut_eq
  | throwsVoid f =>
    simp only [applyT, hr, outcome]
    rcases hf : f w args with ⟨e, w'⟩
    cases e with
    | none => cases params <;> rfl
    | some e =>
      cases params with
      | nil => rfl
      | cons t ts => exact absurd ⟨by simp, Or.inr ⟨f, e, rfl, by rw [hf]⟩⟩ hm
  | throws t f =>
    simp only [applyT, hr, outcome]
    rcases hf : f w args with ⟨e, w'⟩
    cases e with
    | error e => rfl
    | ok v => exact awaitOut_eq

theorem opaqueReply_eq {σ : Type} {d : Nat} {c : Cfg} {noFit : Bool} {o : OutSt} {w : σ} {p : Nat} (r : TOpaqueRet) :
    (match r with
    | .plain .void => ⟨.done, w, p, o⟩
    | .plain (.errc e) => ⟨awaitErrc (codeStatus e), w, p, o⟩
    | .plain (.value t v) => awaitOut d c noFit o w p t v
    | .awaitVoid none => ⟨.done, w, p, o⟩
    | .awaitVoid (some e) => ⟨.thrown e, w, p, o⟩
    | .await _ (.error e) => ⟨.thrown e, w, p, o⟩
    | .await t (.ok v) => awaitOut d c noFit o w p t v : TServed σ) =
      ⟨(replyT d c noFit o (opaqueOutcome r)).1, w, p, (replyT d c noFit o (opaqueOutcome r)).2⟩ := by
  cases r with
  | plain r =>
    cases r with
    | void => rfl
    | errc e => cases e <;> rfl
    | value t v => exact awaitOut_eq
  | awaitVoid e => cases e <;> rfl
  | await t e =>
    cases e with
    | ok v => exact awaitOut_eq
    | error e => rfl

theorem asThrown_eq (s : Status) : asThrown s = awaitErrc s := by cases s <;> rfl

theorem callOpaqueT_like {σ : Type} {d : Nat} {c : Cfg} {noFit : Bool} {w : σ} {data : List UInt8} {p : Nat} {o : OutSt}
    {id : Val} {ret : Ret} {fn : TOpaqueFn σ} {g : OpaqueFn σ} (h : PlainBinding (.opaque id fn) (.opaque id ret g)) :
    let r := callOpaque d c noFit g w data p o
    callOpaqueT d c noFit fn w data p o = ⟨asThrown r.s, r.w, r.p, r.o⟩ := by
  obtain ⟨_, _, e, h⟩ := h
  cases e
  cases fn with
  | archives f =>
    cases g with
    | bytes g => exact h.elim
    | archives g =>
      simp only [callOpaqueT, callOpaque, h]
      rcases g w data p o with ⟨r, w', p', o'⟩
      cases r with
      | void => rfl
      | errc e => simp only [asThrown_eq]
      | value t v => simp only [asThrown_eq]; rfl
  | bytes f =>
    cases g with
    | archives g => exact h.elim
    | bytes g =>
      simp only [callOpaqueT, callOpaque, h]
      split
      · rfl
      · rcases g w (data.drop p) with ⟨r, w', k⟩
        cases r with
        | void => rfl
        | errc e => simp only [asThrown_eq]
        | value t v => simp only [asThrown_eq]; rfl

theorem callBindT_like {σ : Type} {d : Nat} {c : Cfg} {noFit : Bool} {w : σ} {data : List UInt8} {p : Nat} {o : OutSt}
    {params : List Ty} {body : TBody σ} (h1 : NeverThrows body) (h2 : params = [] ∨ ¬ ReturnsErrc body) :
    let r := callBind (d + 1) c noFit params (plainOf body) w data p o
    callBindT (d + 1) c noFit params body w data p o = ⟨asThrown r.s, r.w, r.p, r.o⟩ := by
  intro r
  rcases ha : decMany d c data (fresh c d params) p with ⟨s, args, p'⟩
  by_cases hs : s = .ok
  · subst hs
    have hm : ¬ Misreported params body w args := by
      rintro ⟨hp, ⟨f, rfl, _⟩ | ⟨f, e, rfl, he⟩⟩
      · exact h2.elim hp fun h => h trivial
      · rw [h1 w args] at he; cases he
    rw [callBindT_called ha hm]
    have hr : r = match plainOf body with
        | .void f => ⟨.ok, f w args, p', o⟩
        | .errc f => ⟨match (f w args).1 with | none => .ok | some e => .err e, (f w args).2, p', o⟩
        | .value t f => ⟨(outCall (d + 1) c noFit [(t, (f w args).1)] o).1, (f w args).2, p',
            (outCall (d + 1) c noFit [(t, (f w args).1)] o).2⟩ := by
      by_cases hp : params = []
      · subst hp
        simp only [fresh, List.map_nil, decMany, ResL.mk.injEq, true_and] at ha
        obtain ⟨rfl, rfl⟩ := ha
        simp only [r, callBind, C38_no_parameters]
        cases plainOf body <;> rfl
      · simp only [r, callBind, C38_called d c params _ data p w args p' hp ha]
        cases plainOf body <;> rfl
    rw [hr]
    have out : ∀ (t : Ty) (v : Val) (w' : σ), (⟨(replyT (d + 1) c noFit o (.ok (some (t, v)))).1, w', p',
        (replyT (d + 1) c noFit o (.ok (some (t, v)))).2⟩ : TServed σ) =
        ⟨asThrown (outCall (d + 1) c noFit [(t, v)] o).1, w', p', (outCall (d + 1) c noFit [(t, v)] o).2⟩ := by
      intro t v w'
      simp only [replyT]
      rcases outCall (d + 1) c noFit [(t, v)] o with ⟨s, o'⟩
      cases s <;> rfl
    cases body with
    | plain b =>
      cases b with
      | void f => rfl
      | errc f =>
        simp only [outcome, plainOf]
        rcases f w args with ⟨e, w'⟩
        cases e <;> rfl
      | value t f => exact out _ _ _
    | throwsVoid f =>
      have := h1 w args
      simp only [outcome, plainOf]
      rcases hf : f w args with ⟨e, w'⟩
      rw [hf] at this
      cases this
      rfl
    | throws t f =>
      obtain ⟨v, hv⟩ := h1 w args
      simp only [outcome, plainOf]
      rcases hf : f w args with ⟨e, w'⟩
      rw [hf] at hv
      cases hv
      exact out _ _ _
  · rw [callBindT_refused ha hs]
    have hp : params ≠ [] := by
      rintro rfl
      simp only [fresh, List.map_nil, decMany, ResL.mk.injEq] at ha
      exact hs ha.1.symm
    simp only [r, callBind, C38_refused d c params _ data p w s args p' hp ha hs]
    cases plainOf body <;> simp only [answer, asThrown_eq]

theorem callBindingT_like {σ : Type} {d : Nat} {c : Cfg} {noFit : Bool} {id : Val} {w : σ} {data : List UInt8} {p : Nat} {o : OutSt} :
    ∀ (bs : List (TBinding σ)) (bs' : List (Binding σ)), bs'.length = bs.length →
    (∀ (i : Nat) (b : TBinding σ), bs[i]? = some b → ∃ b', bs'[i]? = some b' ∧ PlainBinding b b') →
    (∀ id params body, .bind id params body ∈ bs → NeverThrows body ∧ (params = [] ∨ ¬ ReturnsErrc body)) →
    let r := callBinding (d + 1) c noFit id w data p o bs'
    callBindingT (d + 1) c noFit id w data p o bs = ⟨asThrown r.s, r.w, r.p, r.o⟩
  | [], [], _, _, _ => rfl
  | [], _ :: _, h, _, _ => by simp at h
  | _ :: _, [], h, _, _ => by simp at h
  | b :: bs, b' :: bs', hl, h, hf => by
    intro r
    have ih := callBindingT_like (d := d) (c := c) (noFit := noFit) (id := id) (w := w) (data := data) (p := p) (o := o) bs bs'
      (by simpa using hl) (fun i x hx => by simpa using h (i + 1) x (by simpa using hx))
      fun i ps bd hm => hf i ps bd (List.mem_cons_of_mem _ hm)
    obtain ⟨b0, e0, hb⟩ := h 0 b (by simp)
    simp only [List.getElem?_cons_zero, Option.some.injEq] at e0
    subst e0
    cases b with
    | bind id' params body =>
      have hb' : b' = .bind id' params (plainOf body) := hb
      subst hb'
      simp only [r, callBinding, callBindingT, Binding.id, TBinding.id]
      by_cases e : id' = id
      · simp only [e, if_true]
        obtain ⟨f1, f2⟩ := hf _ _ _ List.mem_cons_self
        exact callBindT_like f1 f2
      · simp only [e, if_false]
        exact ih
    | «opaque» id' fn =>
      have hb2 := hb
      obtain ⟨ret, g, e, _⟩ := hb2
      subst e
      simp only [r, callBinding, callBindingT, Binding.id, TBinding.id]
      by_cases e : id' = id
      · simp only [e, if_true]
        exact callOpaqueT_like hb
      · simp only [e, if_false]
        exact ih

end Zpp
