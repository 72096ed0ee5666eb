import Verif.Spec.RpcVersions
import Verif.Proof.Duplex
/-! # Calls and remote calls -/

namespace Zpp
open Spec Props

/-- Reading a tuple is reading its members by one call. -/
theorem decFields_zip {d : Nat} {c : Cfg} {data : List UInt8} :
    ∀ (ts : List Ty) (os : List Val) (p : Nat), os.length = ts.length →
      decFields (fun t v p => decode d c t v data p) ts os p = decMany d c data (ts.zip os) p := by
  intro ts
  induction ts with
  | nil => intro os p h; rfl
  | cons t ts ih =>
    intro os p h
    cases os with
    | nil => simp at h
    | cons o os =>
      simp only [List.length_cons, Nat.add_right_cancel_iff] at h
      simp only [decFields, List.headD_cons, List.tail_cons, List.zip_cons_cons, decMany]
      generalize decode d c t o data p = r
      obtain ⟨s, v, p'⟩ := r
      have hm : (ts.zip os).map Prod.snd = os := List.map_snd_zip (by omega)
      cases s <;> simp [ih os _ h, hm]

theorem decode_tuple {d : Nat} {c : Cfg} {data : List UInt8} (ts : List Ty) (p : Nat) :
    decode (d + 1) c (.struct false ts) (dflt c (d + 1) (.struct false ts)) data p =
      (decMany d c data (ts.map fun t => (t, dflt c d t)) p).toRes := by
  have h1 : asBytes c (.struct false ts) = false := by simp [asBytes, Ty.endianIndep, Ty.byteSer]
  have h2 : ts.zip (ts.map (dflt c d)) = ts.map fun t => (t, dflt c d t) := by
    induction ts with
    | nil => rfl
    | cons t ts ih => simp [ih (by simp [asBytes, Ty.endianIndep, Ty.byteSer])]
  simp only [decode, h1, dflt, Val.elems]
  rw [if_neg (by simp), decFields_zip _ _ _ (by simp), h2]

/-- `apply` in terms of reading the parameters by one call. -/
theorem apply_eq {σ : Type} {d : Nat} {c : Cfg} {params : List Ty} {body : Body σ} {data : List UInt8} {p : Nat} {w : σ}
    (hp : params ≠ []) :
    apply (d + 1) c params body data p w =
      match decMany d c data (params.map fun t => (t, dflt c d t)) p with
      | ⟨.ok, vs, p'⟩ => ((finish true body w vs).1, (finish true body w vs).2, p')
      | ⟨s, _, p'⟩ => (refused body s, w, p') := by
  cases params with
  | nil => exact absurd rfl hp
  | cons t ts =>
    simp only [apply]
    rw [decode_tuple]
    generalize decMany d c data ((t :: ts).map fun t => (t, dflt c d t)) p = r
    obtain ⟨s, vs, p'⟩ := r
    cases s <;> simp [ResL.toRes, Val.elems]

/-- Arguments standing encoded at the position. -/
theorem apply_front {σ : Type} {d : Nat} {c : Cfg} {params : List Ty} {args : List Val} {body : Body σ}
    {data : List UInt8} {p : Nat} {w : σ} {bs tail : List UInt8} (hlen : data.length < 2 ^ 64)
    (ha : args.length = params.length) (hw : wireItems (fmtOf c) (params.zip args) = some bs)
    (hr : Readable c (params.zip args)) (hd : StackOk d (params.zip args)) (hp : p ≤ data.length)
    (hdr : data.drop p = bs ++ tail) :
    ∃ b, apply (d + 1) c params body data p w = ((finish b body w args).1, (finish b body w args).2, p + bs.length) := by
  cases params with
  | nil =>
    have : args = [] := List.eq_nil_of_length_eq_zero (by simpa using ha)
    subst this
    cases hw
    exact ⟨false, rfl⟩
  | cons t ts =>
    refine ⟨true, ?_⟩
    rw [apply_eq (by simp)]
    have hsnd : ((t :: ts).zip args).map Prod.snd = args := List.map_snd_zip (by omega)
    have hfst : ((t :: ts).zip args).map Prod.fst = t :: ts := List.map_fst_zip (by omega)
    have := decMany_rd hr.abi hr.env hlen ((t :: ts).zip args) ((t :: ts).map fun t => (t, dflt c d t)) bs hw hr.types
      hr.load hd (by rw [hfst, List.map_map]; simp [Function.comp_def]) p tail hp hdr
    rw [this, hsnd]

theorem callBinding_opaque {σ : Type} {d : Nat} {c : Cfg} {noFit : Bool} {w : σ} {data : List UInt8} {p : Nat} {o : OutSt}
    {bs : List (Binding σ)} (hn : nodup (bs.map Binding.id) = true) {i : Nat} {id : Val} {ret : Ret} {fn : OpaqueFn σ}
    (hi : bs[i]? = some (.opaque id ret fn)) :
    callBinding d c noFit id w data p o bs = callOpaque d c noFit fn w data p o := by
  induction bs generalizing i with
  | nil => simp at hi
  | cons x xs ih =>
    simp only [List.map_cons, nodup, Bool.and_eq_true, Bool.not_eq_true'] at hn
    cases i with
    | zero => simp at hi; subst hi; simp [callBinding, Binding.id]
    | succ i =>
      simp at hi
      have hmem : id ∈ xs.map Binding.id := by
        rw [List.mem_map]
        exact ⟨_, List.mem_of_getElem? hi, rfl⟩
      have hne : ¬ x.id = id := by
        rintro rfl
        have := hn.1
        simp at this
        rw [List.mem_map] at hmem
        obtain ⟨b, hb, e⟩ := hmem
        exact this b hb e
      cases x <;> simp only [callBinding] <;> rw [if_neg hne] <;> exact ih hn.2 hi

theorem callBinding_nth {σ : Type} {d : Nat} {c : Cfg} {noFit : Bool} {w : σ} {data : List UInt8} {p : Nat} {o : OutSt}
    {bs : List (Binding σ)} (hn : nodup (bs.map Binding.id) = true) {i : Nat} {id : Val} {params : List Ty} {body : Body σ}
    (hi : bs[i]? = some (.bind id params body)) :
    callBinding d c noFit id w data p o bs = callBind d c noFit params body w data p o := by
  induction bs generalizing i with
  | nil => simp at hi
  | cons x xs ih =>
    simp only [List.map_cons, nodup, Bool.and_eq_true, Bool.not_eq_true'] at hn
    cases i with
    | zero => simp at hi; subst hi; simp [callBinding, Binding.id]
    | succ i =>
      simp only [List.getElem?_cons_succ] at hi
      have hne : x.id ≠ id := by
        intro he
        have hm : Binding.bind id params body ∈ xs := List.mem_of_getElem? hi
        have : (xs.map Binding.id).contains x.id = true := by
          rw [List.contains_iff_mem, he]
          exact List.mem_map.mpr ⟨_, hm, rfl⟩
        rw [this] at hn
        exact absurd hn.1 (by simp)
      have : callBinding d c noFit id w data p o (x :: xs) = callBinding d c noFit id w data p o xs := by
        cases x <;> simp only [callBinding] <;> rw [if_neg hne]
      rw [this]
      exact ih hn.2 hi

/-- Objects of a queue of messages. -/
def queueItems {σ : Type} (n : Net σ) (fns : Fns σ) (ms : List Msg) : List (Ty × Val) :=
  (ms.map (msgItems fns n.idTy)).flatten

/-- A request has as many arguments as its function has parameters. -/
def MsgLen {σ : Type} (fns : Fns σ) : Msg → Prop
  | .req _ i args => ∀ fn, fns i = some fn → args.length = fn.params.length
  | .resp _ _ => True

/-- Invariant between connection and ideal connection. -/
structure Sim {σ : Type} (n : Net σ) (fns : Fns σ) (f : Fmt) (q : Queues) (s : NetSt σ) (noB : Chan → Bool) : Prop where
  holds : ∀ k, Holds f (queueItems n fns (q k)) (s.buf k)
  msgs : ∀ k, ∀ m ∈ q k, MsgOk n fns m
  lens : ∀ k, ∀ m ∈ q k, MsgLen fns m
  bits : ∀ k, noB k = true ∨ ∀ b ∈ (s.buf k).data.drop (s.buf k).wpos, b = 0

theorem queueItems_append {σ : Type} {n : Net σ} {fns : Fns σ} {a b : List Msg} :
    queueItems n fns (a ++ b) = queueItems n fns a ++ queueItems n fns b := by simp [queueItems]

theorem Spec.StackOk.of_le {d d' : Nat} {items : List (Ty × Val)} (h : StackOk d items) (hd : d ≤ d') : StackOk d' items :=
  fun x hx => Nat.le_trans (h x hx) hd

/-- Sending a message through the buffer `k`. -/
theorem Sim.send {σ : Type} {n : Net σ} {fns : Fns σ} {f : Fmt} {q : Queues} {s : NetSt σ} {noB : Chan → Bool}
    (h : Sim n fns f q s noB) {c : Cfg} (hf : fmtOf c = f) {k : Chan} {m : Msg} (hm : MsgOk n fns m) (hml : MsgLen fns m)
    (hs : Supported c (msgItems fns n.idTy m)) {bs : List UInt8}
    (hw : wireItems f (msgItems fns n.idTy m) = some bs) (hl : bs.length < 2 ^ 63)
    (hb : noB k = true → ∀ x ∈ msgItems fns n.idTy m, noBits x.2 = true)
    (hroom : RoomFor c.g (s.buf k).data.length ((s.buf k).wpos + bs.length)) :
    ∃ y, (s.buf k).write n.d c n.noFit (msgItems fns n.idTy m) = (.ok, y) ∧
      Sim n fns f (push k [m] q) (s.set k y) noB ∧ y.wpos = (s.buf k).wpos + bs.length ∧
      (s.buf k).data.length ≤ y.data.length := by
  have hbits : BitsOk (msgItems fns n.idTy m) ⟨(s.buf k).data, (s.buf k).wpos⟩ :=
    (h.bits k).imp hb id
  obtain ⟨y, h1, h2, h3, h4, h5⟩ := (h.holds k).write (noFit := n.noFit) hf hs (StackOk.of_le hm.1 (Nat.sub_le _ _)) hbits hw hl
    hroom
  refine ⟨y, h1, ⟨?_, ?_, ?_, ?_⟩, h3, h4⟩
  · intro k'
    by_cases e : k' = k
    · subst e
      simp only [push, NetSt.set, if_true, queueItems_append]
      simpa [queueItems] using h2
    · simp only [push, NetSt.set, if_neg e]; exact h.holds k'
  · intro k' m' hm'
    simp only [push] at hm'
    split at hm'
    · rcases List.mem_append.mp hm' with hm' | hm'
      · exact h.msgs k' m' hm'
      · simp only [List.mem_singleton] at hm'; subst hm'; exact hm
    · exact h.msgs k' m' hm'
  · intro k' m' hm'
    simp only [push] at hm'
    split at hm'
    · rcases List.mem_append.mp hm' with hm' | hm'
      · exact h.lens k' m' hm'
      · simp only [List.mem_singleton] at hm'; subst hm'; exact hml
    · exact h.lens k' m' hm'
  · intro k'
    by_cases e : k' = k
    · subst e
      simp only [NetSt.set, if_true]
      exact (h.bits k').imp_right fun hz b hb => (h5 b hb).elim id (hz b)
    · simp only [NetSt.set, if_neg e]; exact h.bits k'

/-- Receiving: the position has moved behind the first message of the queue `k`. -/
theorem Sim.pop {σ : Type} {n : Net σ} {fns : Fns σ} {f : Fmt} {q : Queues} {s : NetSt σ} {noB : Chan → Bool}
    (h : Sim n fns f q s noB) {k : Chan} {rest : List Msg} {x : Duplex} (hsub : ∀ m ∈ rest, m ∈ q k)
    (hx : Holds f (queueItems n fns rest) x) (hd : x.data = (s.buf k).data) (hp : x.wpos = (s.buf k).wpos) :
    Sim n fns f (setQueue k rest q) (s.set k x) noB := by
  refine ⟨?_, ?_, ?_, ?_⟩
  · intro k'
    by_cases e : k' = k
    · subst e; simp only [setQueue, NetSt.set, if_true]; exact hx
    · simp only [setQueue, NetSt.set, if_neg e]; exact h.holds k'
  · intro k' m hm
    simp only [setQueue] at hm
    split at hm
    · rename_i e; subst e; exact h.msgs k' m (hsub m hm)
    · exact h.msgs k' m hm
  · intro k' m hm
    simp only [setQueue] at hm
    split at hm
    · rename_i e; subst e; exact h.lens k' m (hsub m hm)
    · exact h.lens k' m hm
  · intro k'
    by_cases e : k' = k
    · subst e; simp only [NetSt.set, if_true, hd, hp]; exact h.bits k'
    · simp only [NetSt.set, if_neg e]; exact h.bits k'

/-- A world change does not matter for the buffers. -/
theorem Sim.world {σ : Type} {n : Net σ} {fns : Fns σ} {f : Fmt} {q : Queues} {s : NetSt σ} {noB : Chan → Bool}
    (h : Sim n fns f q s noB) (w : σ) : Sim n fns f q { s with world := w } noB := ⟨h.holds, h.msgs, h.lens, h.bits⟩

theorem Spec.Provides.id {σ : Type} {d : Nat} {c : Cfg} {fn : Fn σ} {b : Binding σ} (h : Provides d c fn b) :
    b.id = fn.id := by
  cases ho : fn.opaq with
  | false => simp only [Provides, ho] at h; subst h; rfl
  | true => simp only [Provides, ho] at h; obtain ⟨g, rfl, -⟩ := h; rfl

theorem Spec.Provides.ret {σ : Type} {d : Nat} {c : Cfg} {fn : Fn σ} {b : Binding σ} (h : Provides d c fn b) :
    b.ret = fn.body.ret := by
  cases ho : fn.opaq with
  | false => simp only [Provides, ho] at h; subst h; rfl
  | true => simp only [Provides, ho] at h; obtain ⟨g, rfl, -⟩ := h; rfl

theorem Spec.Declares.id {σ : Type} {fn : Fn σ} {b : Binding σ} (h : Declares fn b) : b.id = fn.id := by
  cases ho : fn.opaq with
  | false => simp only [Declares, ho] at h; obtain ⟨g, rfl, -⟩ := h; rfl
  | true => simp only [Declares, ho] at h; obtain ⟨g, rfl⟩ := h; rfl

theorem Spec.Declares.ret {σ : Type} {fn : Fn σ} {b : Binding σ} (h : Declares fn b) : b.ret = fn.body.ret := by
  cases ho : fn.opaq with
  | false => simp only [Declares, ho] at h; obtain ⟨g, rfl, h⟩ := h; exact h
  | true => simp only [Declares, ho] at h; obtain ⟨g, rfl⟩ := h; rfl

theorem Spec.Provides.declares {σ : Type} {d : Nat} {c : Cfg} {fn : Fn σ} {b : Binding σ} (h : Provides d c fn b) :
    Declares fn b := by
  cases ho : fn.opaq with
  | false => simp only [Provides, ho] at h; simp only [Declares, ho]; exact ⟨_, h, rfl⟩
  | true => simp only [Provides, ho] at h; simp only [Declares, ho]; obtain ⟨g, h, -⟩ := h; exact ⟨_, h⟩

/-- With one list of bindings. -/
theorem stepBetween_same {σ : Type} (n : Net σ) (op : NetOp) (s : NetSt σ) : stepBetween n n.bindings op s = netStep n op s := by
  cases op <;> rfl

theorem runBetween_same {σ : Type} (n : Net σ) (ops : List NetOp) (s : NetSt σ) :
    runBetween n n.bindings ops s = netRun n ops s := by
  induction ops generalizing s with
  | nil => rfl
  | cons op ops ih => simp only [runBetween, netRun, stepBetween_same, ih]

/-- What the server makes of a call of a function with this body, for a request that ends at `p`. -/
def replied {σ : Type} (d : Nat) (c : Cfg) (noFit : Bool) (body : Body σ) (w : σ) (args : List Val) (p : Nat) (o : OutSt) :
    Served σ :=
  match body with
  | .void f => ⟨.ok, f w args, p, o⟩
  | .errc f => ⟨codeStatus (f w args).1, (f w args).2, p, o⟩
  | .value t f => ⟨(outCall d c noFit [(t, (f w args).1)] o).1, (f w args).2, p, (outCall d c noFit [(t, (f w args).1)] o).2⟩

/-- The arguments of a function stand at the position: it is called with them, bound either way. -/
theorem call_provided {σ : Type} {d : Nat} {c : Cfg} {noFit : Bool} {bindings : List (Binding σ)}
    (hn : nodup (bindings.map Binding.id) = true) {i : Nat} {fn : Fn σ} {b : Binding σ} (hi : bindings[i]? = some b)
    (hb : Provides (d + 1) c fn b) {args : List Val} {data bs tail : List UInt8} {p : Nat} {w : σ} {o : OutSt}
    (hlen : data.length < 2 ^ 64) (hargs : args.length = fn.params.length)
    (hw : wireItems (fmtOf c) (fn.params.zip args) = some bs) (hr : Readable c (fn.params.zip args))
    (hd : StackOk d (fn.params.zip args)) (hp : p ≤ data.length) (hdr : data.drop p = bs ++ tail) :
    callBinding (d + 1) c noFit fn.id w data p o bindings = replied (d + 1) c noFit fn.body w args (p + bs.length) o := by
  obtain ⟨id, params, body, opaq⟩ := fn
  cases opaq with
  | false =>
    simp only [Provides] at hb
    subst hb
    rw [callBinding_nth hn hi]
    obtain ⟨hb, ha⟩ := apply_front (σ := σ) (body := body) (w := w) (data := data) (p := p) hlen hargs hw hr hd hp hdr
    unfold callBind
    simp only [ha]
    cases body with
    | void f => rfl
    | errc f => cases hb <;> rfl
    | value t f => rfl
  | true =>
    simp only [Provides] at hb
    obtain ⟨f, rfl, hf⟩ := hb
    rw [callBinding_opaque hn hi]
    simp only at hargs hw hr hd
    have hsnd : (params.zip args).map Prod.snd = args := List.map_snd_zip (by omega)
    have hfst : (params.zip args).map Prod.fst = params := List.map_fst_zip (by omega)
    have := decMany_rd (d := d + 1) hr.abi hr.env hlen (params.zip args) (fresh c (d + 1) params) bs hw hr.types
      hr.load (hd.of_le (Nat.le_succ _)) (by rw [hfst, fresh, List.map_map]; simp [Function.comp_def]) p tail hp hdr
    rw [hsnd] at this
    have hf := hf w data p o args _ this
    unfold callOpaque
    simp only [hf]
    cases body with
    | void f => rfl
    | errc f => rfl
    | value t f => rfl

/-- The request at the front of queue `a` (its id already read): calling the function. -/
theorem serve_call {σ : Type} {n : Net σ} {served : List (Binding σ)} {fns : Fns σ} {d : Nat} (hdn : n.d = d + 1) {f : Fmt} (hsf : fmtOf n.sc = f)
    (hn : nodup (served.map Binding.id) = true)
    (hprov : ∀ i fn, fns i = some fn → ∃ b ∈ served, Provides n.d n.sc fn b) {q : Queues} {s : NetSt σ}
    {noB : Chan → Bool} (h : Sim n fns f q s noB) {i : Nat} {args : List Val} {fn : Fn σ} {rest : List Msg}
    (hi : fns i = some fn) (hargs : args.length = fn.params.length)
    (hrest : ∀ m ∈ rest, m ∈ q n.a) {p : Nat} {x : Duplex} (hx : x = { s.buf n.a with rpos := p })
    (hfront : Holds f (fn.params.zip args ++ queueItems n fns rest) x) (hrd : Readable n.sc (fn.params.zip args))
    (hst : StackOk d (fn.params.zip args)) {bsL : List UInt8}
    (hresp : ∀ m ∈ (idealCall i fn.body s.world args).2.2, MsgOk n fns m)
    (hbn : noB n.b = true → ∀ m ∈ (idealCall i fn.body s.world args).2.2, ∀ x ∈ msgItems fns n.idTy m,
      noBits x.2 = true)
    (hw : wireItems f (queueItems n fns (idealCall i fn.body s.world args).2.2) = some bsL) (hl : bsL.length < 2 ^ 63)
    (hroom : RoomFor n.sc.g (s.buf n.b).data.length ((s.buf n.b).wpos + bsL.length)) :
    ∃ s', netServed n s (callBinding n.d n.sc n.noFit fn.id s.world (s.buf n.a).data p
        ⟨(s.buf n.b).data, (s.buf n.b).wpos⟩ served) = (((idealCall i fn.body s.world args).1, none), s') ∧
      s'.world = (idealCall i fn.body s.world args).2.1 ∧
      Sim n fns f (push n.b (idealCall i fn.body s.world args).2.2 (setQueue n.a rest q)) s' noB ∧
      (∀ k, (s'.buf k).wpos = (s.buf k).wpos + (if k = n.b then bsL.length else 0)) ∧
      (∀ k, (s.buf k).data.length ≤ (s'.buf k).data.length) := by
  subst hx
  obtain ⟨b1, tail, e1, e2, e3, e4⟩ := hfront.front
  simp only at e2 e3 e4
  have hlen := (h.holds n.a).len_lt
  obtain ⟨bd, hmem, hpr⟩ := hprov i fn hi
  obtain ⟨j, hbd⟩ := List.getElem?_of_mem hmem
  rw [hdn] at hpr ⊢
  rw [call_provided hn hbd hpr (w := s.world) (o := ⟨(s.buf n.b).data, (s.buf n.b).wpos⟩) (by omega) hargs (hsf ▸ e1) hrd hst
    e3 e2]
  have hpop : Sim n fns f (setQueue n.a rest q) (s.set n.a { s.buf n.a with rpos := p + b1.length }) noB :=
    h.pop hrest e4 rfl rfl
  have hset : ∀ (t : NetSt σ) (k : Chan), t.set k (t.buf k) = t := by
    intro t k
    cases t
    simp only [NetSt.set, NetSt.mk.injEq, true_and]
    funext k'
    split
    · rename_i e; rw [e]
    · rfl
  have hquiet : ∀ (st : Status) (w' : σ),
      netServed n s ⟨st, w', p + b1.length, ⟨(s.buf n.b).data, (s.buf n.b).wpos⟩⟩ =
        ((st, none), { s.set n.a { s.buf n.a with rpos := p + b1.length } with world := w' }) := by
    intro st w'
    unfold netServed
    simp only
    have : ({ (s.set n.a { s.buf n.a with rpos := p + b1.length }).buf n.b with
        data := (s.buf n.b).data, wpos := (s.buf n.b).wpos } : Duplex) =
        (s.set n.a { s.buf n.a with rpos := p + b1.length }).buf n.b := by
      simp only [NetSt.set]
      split
      · rename_i e; rw [e]
      · rfl
    rw [this, hset]
  have hpush : push n.b [] (setQueue n.a rest q) = setQueue n.a rest q := by
    funext k; simp [push]
  have hbufs : ∀ k, ((s.set n.a { s.buf n.a with rpos := p + b1.length }).buf k).wpos = (s.buf k).wpos ∧
      ((s.set n.a { s.buf n.a with rpos := p + b1.length }).buf k).data = (s.buf k).data := by
    intro k
    simp only [NetSt.set]
    split
    · rename_i e; rw [e]; exact ⟨rfl, rfl⟩
    · exact ⟨rfl, rfl⟩
  obtain ⟨id, params, body, opaq⟩ := fn
  cases body with
  | void g =>
    simp only [idealCall, queueItems, List.map_nil, List.flatten_nil] at hw ⊢
    cases hw
    simp only [replied, hquiet, hpush]
    refine ⟨_, rfl, rfl, hpop.world _, fun k => ?_, fun k => ?_⟩
    · simp only [List.length_nil, ite_self, Nat.add_zero]; exact (hbufs k).1
    · simp only [(hbufs k).2, Nat.le_refl]
  | errc g =>
    have hic : (idealCall i (.errc g) s.world args).2.2 = [] ∧
        (idealCall i (.errc g) s.world args).1 = codeStatus (g s.world args).1 ∧
        (idealCall i (.errc g) s.world args).2.1 = (g s.world args).2 := by
      simp only [idealCall]
      generalize g s.world args = r
      obtain ⟨_ | e, w'⟩ := r <;> exact ⟨rfl, rfl, rfl⟩
    obtain ⟨i1, i2, i3⟩ := hic
    simp only [i1, queueItems, List.map_nil, List.flatten_nil] at hw
    cases hw
    simp only [i1, i2, i3, hpush, replied, hquiet]
    refine ⟨_, rfl, rfl, hpop.world _, fun k => ?_, fun k => ?_⟩
    · simp only [List.length_nil, ite_self, Nat.add_zero]; exact (hbufs k).1
    · simp only [(hbufs k).2, Nat.le_refl]
  | value t g =>
    simp only [idealCall, List.mem_singleton, forall_eq] at hw hresp hbn ⊢
    simp only [queueItems, List.map_cons, List.map_nil, List.flatten_cons, List.flatten_nil, List.append_nil] at hw
    have hit : msgItems fns n.idTy (.resp i (g s.world args).1) = [(t, (g s.world args).1)] := by
      simp [msgItems, hi]
    obtain ⟨y, y1, y2, y3, y4⟩ := hpop.send (c := n.sc) hsf (k := n.b) hresp trivial hresp.2.1 hw hl hbn
      (by rw [(hbufs n.b).1, (hbufs n.b).2]; exact hroom)
    rw [hit, hdn] at y1
    simp only [Duplex.write, (hbufs n.b).1, (hbufs n.b).2, Prod.mk.injEq] at y1
    obtain ⟨y1, rfl⟩ := y1
    simp only [replied]
    generalize outCall (d + 1) n.sc n.noFit [(t, (g s.world args).1)] ⟨(s.buf n.b).data, (s.buf n.b).wpos⟩ = r at *
    obtain ⟨st, o⟩ := r
    simp only at y1 y2 y3 y4
    subst y1
    refine ⟨_, rfl, rfl, y2.world (g s.world args).2, ?_, ?_⟩
    · intro k
      simp only [NetSt.set] at y3 ⊢
      by_cases e : k = n.b
      · subst e; simp only [if_true]; rw [y3]; exact congrArg (· + bsL.length) (hbufs n.b).1
      · simp only [if_neg e, Nat.add_zero]; exact (hbufs k).1
    · intro k
      simp only [NetSt.set] at y4 ⊢
      by_cases e : k = n.b
      · subst e; simp only [if_true]; exact Nat.le_trans (Nat.le_of_eq (congrArg List.length (hbufs n.b).2).symm) y4
      · simp only [if_neg e]; exact Nat.le_of_eq (congrArg List.length (hbufs k).2).symm

theorem sentItems_append {σ : Type} {bs : Fns σ} {idTy : Ty} {k : Chan} {a b : List (Chan × Msg)} :
    sentItems bs idTy k (a ++ b) = sentItems bs idTy k a ++ sentItems bs idTy k b := by
  simp [sentItems]

theorem sentItems_map {σ : Type} {n : Net σ} {fns : Fns σ} {k k' : Chan} {ms : List Msg} :
    sentItems fns n.idTy k (ms.map fun m => (k', m)) = if k = k' then queueItems n fns ms else [] := by
  simp only [sentItems, List.filter_map, List.map_map, Function.comp_def]
  by_cases e : k = k'
  · subst e
    have : ms.filter (fun _ => true) = ms := List.filter_eq_self.mpr (by simp)
    simp [queueItems, this]
  · have : ¬ k' = k := fun h => e h.symm
    simp [this, e]

theorem mem_sentItems {σ : Type} {bs : Fns σ} {idTy : Ty} {k : Chan} {sent : List (Chan × Msg)} {m : Msg}
    (h : (k, m) ∈ sent) {x : Ty × Val} (hx : x ∈ msgItems bs idTy m) : x ∈ sentItems bs idTy k sent := by
  simp only [sentItems, List.mem_flatten, List.mem_map, List.mem_filter]
  exact ⟨_, ⟨(k, m), ⟨h, by simp⟩, rfl⟩, hx⟩

theorem Spec.Readable.sub {c : Cfg} {a b : List (Ty × Val)} (h : Readable c b) (hs : ∀ x ∈ a, x ∈ b) : Readable c a :=
  ⟨h.abi, h.env, fun x hx => h.types x (hs x hx), fun x hx => h.load x (hs x hx)⟩

/-- One operation. -/
theorem step_sim {σ : Type} {n : Net σ} {served : List (Binding σ)} {fns : Fns σ} {d : Nat} (hdn : n.d = d + 1) {f : Fmt} (hcf : fmtOf n.cc = f)
    (hsf : fmtOf n.sc = f) (hn : nodup (served.map Binding.id) = true)
    (hdecl : ∀ i fn, fns i = some fn → ∃ b, n.bindings[i]? = some b ∧ Declares fn b)
    (hprov : ∀ i fn, fns i = some fn → ∃ b ∈ served, Provides n.d n.sc fn b) {op : NetOp} {w w' : σ} {q q' : Queues}
    {r : NetRes} {sent : List (Chan × Msg)} (hstep : IdealStep fns n.a n.b op w q r sent w' q') {s : NetSt σ}
    {noB : Chan → Bool} (hw : s.world = w) (h : Sim n fns f q s noB) (hok : ∀ km ∈ sent, MsgOk n fns km.2)
    {bs : Chan → List UInt8} (hbs : ∀ k, wireItems f (sentItems fns n.idTy k sent) = some (bs k))
    (hl : ∀ k, (bs k).length < 2 ^ 63)
    (hbits : ∀ k, noB k = true → ∀ x ∈ sentItems fns n.idTy k sent, noBits x.2 = true)
    (hra : RoomFor n.cc.g (s.buf n.a).data.length ((s.buf n.a).wpos + (bs n.a).length))
    (hrb : RoomFor n.sc.g (s.buf n.b).data.length ((s.buf n.b).wpos + (bs n.b).length)) :
    ∃ s', stepBetween n served op s = (r, s') ∧ s'.world = w' ∧ Sim n fns f q' s' noB ∧
      (∀ k, (s'.buf k).wpos = (s.buf k).wpos + (bs k).length) ∧
      (∀ k, (s.buf k).data.length ≤ (s'.buf k).data.length) := by
  subst hw
  cases hstep with
  | @request withId i args fn _ _ hi hlen =>
    have hm := hok (n.a, .req withId i args) (by simp)
    have hitems : sentItems fns n.idTy n.a [(n.a, .req withId i args)] =
        msgItems fns n.idTy (.req withId i args) := by simp [sentItems]
    have hwa := hbs n.a
    rw [hitems] at hwa
    obtain ⟨y, y1, y2, y3, y4⟩ := h.send (c := n.cc) hcf (k := n.a) hm
      (by intro fn' hi'; rw [hi] at hi'; cases hi'; exact hlen) hm.2.1 hwa (hl _)
      (by intro hb; have := hbits n.a hb; rwa [hitems] at this) hra
    have hri : msgItems fns n.idTy (.req withId i args) =
        (if withId then [(n.idTy, fn.id)] else []) ++ fn.params.zip args := by simp [msgItems, hi]
    rw [hri] at y1
    have hask : stepBetween n served (askFor fn withId i args) s = ((.ok, none), s.set n.a y) := by
      obtain ⟨bd, hbd, hpr⟩ := hdecl i fn hi
      unfold askFor
      cases ho : fn.opaq with
      | false =>
        simp only [Declares, ho] at hpr
        obtain ⟨g, rfl, -⟩ := hpr
        simp [stepBetween, netRequest, hbd, requestItems, y1]
      | true =>
        simp only [Declares, ho] at hpr
        obtain ⟨g, rfl⟩ := hpr
        simp [stepBetween, netRequestOpaque, hbd, y1]
    refine ⟨s.set n.a y, hask, rfl, y2, ?_, ?_⟩
    · intro k
      simp only [NetSt.set]
      by_cases e : k = n.a
      · subst e; simp only [if_true]; exact y3
      · simp only [if_neg e]
        have := hbs k
        have hk : sentItems fns n.idTy k [(n.a, .req withId i args)] = [] := by
          have : ¬ n.a = k := fun h => e h.symm
          simp [sentItems, this]
        rw [hk] at this
        have e0 : bs k = [] := by simpa [wireItems] using this.symm
        simp [e0]
    · intro k
      simp only [NetSt.set]
      by_cases e : k = n.a
      · subst e; simp only [if_true]; exact y4
      · simp only [if_neg e]; exact Nat.le_refl _
  | @serve i args fn _ _ rest hi hq =>
    have hm := h.msgs n.a _ (hq ▸ List.mem_cons_self)
    have hml : MsgLen fns _ := h.lens n.a _ (hq ▸ List.mem_cons_self)
    have hml := hml fn hi
    have hit : msgItems fns n.idTy (.req true i args) = (n.idTy, fn.id) :: fn.params.zip args := by
      simp [msgItems, hi]
    have hh := h.holds n.a
    rw [hq] at hh
    have hqi : queueItems n fns (.req true i args :: rest) = [(n.idTy, fn.id)] ++ (fn.params.zip args ++ queueItems n fns rest) := by
      simp [queueItems, hit]
    rw [hqi] at hh
    have hrd := hm.2.2
    have hst := hm.1
    rw [hit] at hrd hst
    rw [hdn] at hst
    simp only [Nat.add_sub_cancel] at hst
    obtain ⟨b0, tail, e1, e2, e3, e4⟩ := hh.front
    have hlen := (h.holds n.a).len_lt
    have hid := decMany_rd (d := n.d) hrd.abi hrd.env (data := (s.buf n.a).data) (by omega) [(n.idTy, fn.id)]
      [(n.idTy, dflt n.sc n.d n.idTy)] b0 (hsf ▸ e1) (fun x hx => hrd.types x (by simp at hx; simp [hx]))
      (fun x hx => hrd.load x (by simp at hx; simp [hx]))
      (fun x hx => by have := hst x (by simp at hx; simp [hx]); rw [hdn]; omega) rfl (s.buf n.a).rpos tail e3 e2
    have hwb := hbs n.b
    rw [sentItems_map, if_pos rfl] at hwb
    obtain ⟨s', g1, g2, g3, g4, g5⟩ := serve_call hdn hsf hn hprov h hi hml (rest := rest)
      (fun m hm => hq ▸ List.mem_cons_of_mem _ hm) (p := (s.buf n.a).rpos + b0.length) rfl e4
      (hrd.sub fun x hx => List.mem_cons_of_mem _ hx) (fun x hx => hst x (List.mem_cons_of_mem _ hx))
      (fun m hm => hok (n.b, m) (List.mem_map.mpr ⟨m, hm, rfl⟩))
      (fun hb m hm x hx => hbits n.b hb x (mem_sentItems (List.mem_map.mpr ⟨m, hm, rfl⟩) hx)) hwb (hl _) hrb
    refine ⟨s', ?_, g2, g3, ?_, g5⟩
    · simp only [stepBetween, netServe, serve, hid, List.map_cons, List.map_nil, List.headD_cons]
      exact g1
    · intro k
      rw [g4 k]
      by_cases e : k = n.b
      · rw [if_pos e, e]
      · have := hbs k
        rw [sentItems_map, if_neg e] at this
        have e0 : bs k = [] := by simpa [wireItems, queueItems] using this.symm
        rw [if_neg e]; simp [e0]
  | @serveId i args fn _ _ rest hi hq =>
    have hm := h.msgs n.a _ (hq ▸ List.mem_cons_self)
    have hml : MsgLen fns _ := h.lens n.a _ (hq ▸ List.mem_cons_self)
    have hml := hml fn hi
    have hit : msgItems fns n.idTy (.req false i args) = fn.params.zip args := by
      simp [msgItems, hi]
    have hh := h.holds n.a
    rw [hq] at hh
    have hqi : queueItems n fns (.req false i args :: rest) = fn.params.zip args ++ queueItems n fns rest := by
      simp [queueItems, hit]
    rw [hqi] at hh
    have hrd := hm.2.2
    have hst := hm.1
    rw [hit] at hrd hst
    rw [hdn] at hst
    simp only [Nat.add_sub_cancel] at hst
    have hwb := hbs n.b
    rw [sentItems_map, if_pos rfl] at hwb
    obtain ⟨s', g1, g2, g3, g4, g5⟩ := serve_call hdn hsf hn hprov h hi hml (rest := rest)
      (fun m hm => hq ▸ List.mem_cons_of_mem _ hm) (p := (s.buf n.a).rpos) rfl hh hrd hst
      (fun m hm => hok (n.b, m) (List.mem_map.mpr ⟨m, hm, rfl⟩))
      (fun hb m hm x hx => hbits n.b hb x (mem_sentItems (List.mem_map.mpr ⟨m, hm, rfl⟩) hx)) hwb (hl _) hrb
    refine ⟨s', ?_, g2, g3, ?_, g5⟩
    · obtain ⟨bd, hbd, hpr⟩ := hdecl i fn hi
      simp only [stepBetween, hbd, hpr.id]
      exact g1
    · intro k
      rw [g4 k]
      by_cases e : k = n.b
      · rw [if_pos e, e]
      · have := hbs k
        rw [sentItems_map, if_neg e] at this
        have e0 : bs k = [] := by simpa [wireItems, queueItems] using this.symm
        rw [if_neg e]; simp [e0]
  | @response i v fn t g _ _ rest hi hb hq =>
    have hm := h.msgs n.b _ (hq ▸ List.mem_cons_self)
    have hit : msgItems fns n.idTy (.resp i v) = [(t, v)] := by simp [msgItems, hi, hb]
    obtain ⟨bd, hbd, hpr⟩ := hdecl i fn hi
    have hret : bd.ret = .value t := by rw [hpr.ret, hb]; rfl
    have hh := h.holds n.b
    rw [hq] at hh
    have hqi : queueItems n fns (.resp i v :: rest) = [(t, v)] ++ queueItems n fns rest := by
      simp [queueItems, hit]
    rw [hqi] at hh
    have hrd := hm.2.2
    have hst := hm.1
    rw [hit] at hrd hst
    obtain ⟨y, y1, y2, y3, y4⟩ := hh.read (d := n.d) (dests := [(t, dflt n.cc n.d t)]) hcf hrd
      (StackOk.of_le hst (Nat.sub_le _ _)) rfl
    refine ⟨s.set n.b y, by simp [stepBetween, netResponse, hbd, hret, y1], rfl,
      h.pop (fun m hm => hq ▸ List.mem_cons_of_mem _ hm) y2 y3 y4, ?_, ?_⟩
    · intro k
      have := hbs k
      simp only [sentItems, List.filter_nil, List.map_nil, List.flatten_nil] at this
      have e0 : bs k = [] := by simpa [wireItems] using this.symm
      simp only [NetSt.set, e0]
      split
      · rename_i e; subst e; rw [y4]; rfl
      · rfl
    · intro k
      simp only [NetSt.set]
      split
      · rename_i e; subst e; rw [y3]; exact Nat.le_refl _
      · exact Nat.le_refl _
  | responseVoid hi hb =>
    obtain ⟨bd, hbd, hpr⟩ := hdecl _ _ hi
    have hret : bd.ret = .void := by rw [hpr.ret, hb]; rfl
    refine ⟨s, by simp only [stepBetween, netResponse, hbd, Option.map_some, hret], rfl, h, ?_, fun k => Nat.le_refl _⟩
    intro k
    have := hbs k
    simp only [sentItems, List.filter_nil, List.map_nil, List.flatten_nil] at this
    have e0 : bs k = [] := by simpa [wireItems] using this.symm
    simp [e0]

/-- A history. -/
theorem run_sim {σ : Type} {n : Net σ} {served : List (Binding σ)} {fns : Fns σ} {d : Nat} (hdn : n.d = d + 1) {f : Fmt} (hcf : fmtOf n.cc = f)
    (hsf : fmtOf n.sc = f) (hn : nodup (served.map Binding.id) = true)
    (hdecl : ∀ i fn, fns i = some fn → ∃ b, n.bindings[i]? = some b ∧ Declares fn b)
    (hprov : ∀ i fn, fns i = some fn → ∃ b ∈ served, Provides n.d n.sc fn b) {ops : List NetOp} {w w' : σ} {q q' : Queues}
    {rs : List NetRes} {sent : List (Chan × Msg)} (hrun : IdealRun fns n.a n.b ops w q rs sent w' q') :
    ∀ {s : NetSt σ} {noB : Chan → Bool} {bs : Chan → List UInt8}, s.world = w → Sim n fns f q s noB →
    (∀ km ∈ sent, MsgOk n fns km.2) → (∀ k, wireItems f (sentItems fns n.idTy k sent) = some (bs k)) →
    (∀ k, (bs k).length < 2 ^ 63) →
    (∀ k, noB k = true → ∀ x ∈ sentItems fns n.idTy k sent, noBits x.2 = true) →
    RoomFor n.cc.g (s.buf n.a).data.length ((s.buf n.a).wpos + (bs n.a).length) →
    RoomFor n.sc.g (s.buf n.b).data.length ((s.buf n.b).wpos + (bs n.b).length) →
    ∃ s', runBetween n served ops s = (rs, s') ∧ s'.world = w' ∧ Sim n fns f q' s' noB := by
  induction hrun with
  | done w q => intro s noB bs hw h _ _ _ _ _ _; exact ⟨s, rfl, hw, h⟩
  | @step op ops w w1 w2 q q1 q2 r rs s1 ss hstep _ ih =>
    intro s noB bs hw h hok hbs hl hbits hra hrb
    have hsplit : ∀ k, ∃ z : List UInt8 × List UInt8, wireItems f (sentItems fns n.idTy k s1) = some z.1 ∧
        wireItems f (sentItems fns n.idTy k ss) = some z.2 ∧ bs k = z.1 ++ z.2 := by
      intro k
      have := hbs k
      rw [sentItems_append] at this
      obtain ⟨x, y, h1, h2, h3⟩ := wireItems_append this
      exact ⟨(x, y), h1, h2, h3⟩
    obtain ⟨z, hz⟩ := Classical.axiomOfChoice hsplit
    have hx := fun k => (hz k).1
    have hy := fun k => (hz k).2.1
    have hxy := fun k => (hz k).2.2
    have hlx : ∀ k, (bs k).length = (z k).1.length + (z k).2.length := by intro k; rw [hxy, List.length_append]
    rw [hlx] at hra hrb
    have hm1 : ∀ k, ∀ z ∈ sentItems fns n.idTy k s1, z ∈ sentItems fns n.idTy k (s1 ++ ss) := by
      intro k z hz; rw [sentItems_append]; exact List.mem_append_left _ hz
    have hm2 : ∀ k, ∀ z ∈ sentItems fns n.idTy k ss, z ∈ sentItems fns n.idTy k (s1 ++ ss) := by
      intro k z hz; rw [sentItems_append]; exact List.mem_append_right _ hz
    obtain ⟨s', e1, e2, e3, e4, e5⟩ := step_sim hdn hcf hsf hn hdecl hprov hstep hw h
      (fun km hk => hok km (List.mem_append_left _ hk)) hx (fun k => by have := hl k; rw [hlx] at this; omega)
      (fun k hb z hz => hbits k hb z (hm1 k z hz)) (hra.mono (by omega)) (hrb.mono (by omega))
    obtain ⟨s'', i1, i2, i3⟩ := ih e2 e3 (fun km hk => hok km (List.mem_append_right _ hk)) hy
      (fun k => by have := hl k; rw [hlx] at this; omega) (fun k hb z hz => hbits k hb z (hm2 k z hz))
      (by rw [e4]; exact (hra.mono (by omega)).grow (e5 _)) (by rw [e4]; exact (hrb.mono (by omega)).grow (e5 _))
    exact ⟨s'', by simp only [runBetween, e1, i1], i2, i3⟩

end Zpp
