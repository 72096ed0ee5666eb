import Verif.Spec.RpcShared
import Verif.Proof.Rpc
/-! # Several services over the same archives: simulated by ideal queues of tagged messages -/

namespace Zpp
open Spec Props

/-- Invariant between the buffers and the ideal queues. -/
structure SSim {σ : Type} (ns : Nat → Net σ) (fns : Nat → Fns σ) (f : Fmt) (q : SharedQueues) (s : NetSt σ) (noB : Chan → Bool) : Prop where
  holds : ∀ k, Holds f (sharedItems fns (fun j => (ns j).idTy) (q k)) (s.buf k)
  msgs : ∀ k, ∀ m ∈ q k, MsgOk (ns m.1) (fns m.1) m.2
  lens : ∀ k, ∀ m ∈ q k, MsgLen (fns m.1) m.2
  bits : ∀ k, noB k = true ∨ ∀ b ∈ (s.buf k).data.drop (s.buf k).wpos, b = 0

theorem sharedItems_append {σ : Type} {fns : Nat → Fns σ} {idTy : Nat → Ty} {a b : List (Nat × Msg)} :
    sharedItems fns idTy (a ++ b) = sharedItems fns idTy a ++ sharedItems fns idTy b := by simp [sharedItems]

/-- Sending a message through the buffer `k`. -/
theorem SSim.send {σ : Type} {ns : Nat → Net σ} {fns : Nat → Fns σ} {f : Fmt} {q : SharedQueues} {s : NetSt σ} {noB : Chan → Bool}
    (h : SSim ns fns f q s noB) {c : Cfg} (hf : fmtOf c = f) {k : Chan} {j : Nat} {m : Msg} (hm : MsgOk (ns j) (fns j) m) (hml : MsgLen (fns j) m)
    (hs : Supported c (msgItems (fns j) (ns j).idTy m)) {bs : List UInt8}
    (hw : wireItems f (msgItems (fns j) (ns j).idTy m) = some bs) (hl : bs.length < 2 ^ 63)
    (hb : noB k = true → ∀ x ∈ msgItems (fns j) (ns j).idTy m, noBits x.2 = true)
    (hroom : RoomFor c.g (s.buf k).data.length ((s.buf k).wpos + bs.length)) :
    ∃ y, (s.buf k).write (ns j).d c (ns j).noFit (msgItems (fns j) (ns j).idTy m) = (.ok, y) ∧
      SSim ns fns f (sharedPush k [(j, m)] q) (s.set k y) noB ∧ y.wpos = (s.buf k).wpos + bs.length ∧
      (s.buf k).data.length ≤ y.data.length := by
  have hbits : BitsOk (msgItems (fns j) (ns j).idTy m) ⟨(s.buf k).data, (s.buf k).wpos⟩ :=
    (h.bits k).imp hb id
  obtain ⟨y, h1, h2, h3, h4, h5⟩ := (h.holds k).write (noFit := (ns j).noFit) hf hs (StackOk.of_le hm.1 (Nat.sub_le _ _)) hbits hw hl
    hroom
  refine ⟨y, h1, ⟨?_, ?_, ?_, ?_⟩, h3, h4⟩
  · intro k'
    by_cases e : k' = k
    · subst e
      simp only [sharedPush, NetSt.set, if_true, sharedItems_append]
      simpa [sharedItems] using h2
    · simp only [sharedPush, NetSt.set, if_neg e]; exact h.holds k'
  · intro k' m' hm'
    simp only [sharedPush] at hm'
    split at hm'
    · rcases List.mem_append.mp hm' with hm' | hm'
      · exact h.msgs k' m' hm'
      · simp only [List.mem_singleton] at hm'; subst hm'; exact hm
    · exact h.msgs k' m' hm'
  · intro k' m' hm'
    simp only [sharedPush] at hm'
    split at hm'
    · rcases List.mem_append.mp hm' with hm' | hm'
      · exact h.lens k' m' hm'
      · simp only [List.mem_singleton] at hm'; subst hm'; exact hml
    · exact h.lens k' m' hm'
  · intro k'
    by_cases e : k' = k
    · subst e
      simp only [NetSt.set, if_true]
      exact (h.bits k').imp_right fun hz b hb => (h5 b hb).elim id (hz b)
    · simp only [NetSt.set, if_neg e]; exact h.bits k'

/-- Receiving: the position has moved behind the first message of the queue `k`. -/
theorem SSim.pop {σ : Type} {ns : Nat → Net σ} {fns : Nat → Fns σ} {f : Fmt} {q : SharedQueues} {s : NetSt σ} {noB : Chan → Bool}
    (h : SSim ns fns f q s noB) {k : Chan} {rest : List (Nat × Msg)} {x : Duplex} (hsub : ∀ m ∈ rest, m ∈ q k)
    (hx : Holds f (sharedItems fns (fun j => (ns j).idTy) rest) x) (hd : x.data = (s.buf k).data) (hp : x.wpos = (s.buf k).wpos) :
    SSim ns fns f (sharedSet k rest q) (s.set k x) noB := by
  refine ⟨?_, ?_, ?_, ?_⟩
  · intro k'
    by_cases e : k' = k
    · subst e; simp only [sharedSet, NetSt.set, if_true]; exact hx
    · simp only [sharedSet, NetSt.set, if_neg e]; exact h.holds k'
  · intro k' m hm
    simp only [sharedSet] at hm
    split at hm
    · rename_i e; subst e; exact h.msgs k' m (hsub m hm)
    · exact h.msgs k' m hm
  · intro k' m hm
    simp only [sharedSet] at hm
    split at hm
    · rename_i e; subst e; exact h.lens k' m (hsub m hm)
    · exact h.lens k' m hm
  · intro k'
    by_cases e : k' = k
    · subst e; simp only [NetSt.set, if_true, hd, hp]; exact h.bits k'
    · simp only [NetSt.set, if_neg e]; exact h.bits k'

/-- A world change does not matter for the buffers. -/
theorem SSim.world {σ : Type} {ns : Nat → Net σ} {fns : Nat → Fns σ} {f : Fmt} {q : SharedQueues} {s : NetSt σ} {noB : Chan → Bool}
    (h : SSim ns fns f q s noB) (w : σ) : SSim ns fns f q { s with world := w } noB := ⟨h.holds, h.msgs, h.lens, h.bits⟩

/-- The request at the front of queue `a` (its id already read): calling the function. -/
theorem shared_call {σ : Type} {ns : Nat → Net σ} {served : Nat → List (Binding σ)} {fns : Nat → Fns σ} {j d : Nat} (hdn : (ns j).d = d + 1) {f : Fmt} (hsf : fmtOf (ns j).sc = f)
    (hn : nodup ((served j).map Binding.id) = true)
    (hprov : ∀ i fn, fns j i = some fn → ∃ b ∈ served j, Provides (ns j).d (ns j).sc fn b) {q : SharedQueues} {s : NetSt σ}
    {noB : Chan → Bool} (h : SSim ns fns f q s noB) {i : Nat} {args : List Val} {fn : Fn σ} {rest : List (Nat × Msg)}
    (hi : fns j i = some fn) (hargs : args.length = fn.params.length)
    (hrest : ∀ m ∈ rest, m ∈ q (ns j).a) {p : Nat} {x : Duplex} (hx : x = { s.buf (ns j).a with rpos := p })
    (hfront : Holds f (fn.params.zip args ++ sharedItems fns (fun j => (ns j).idTy) rest) x) (hrd : Readable (ns j).sc (fn.params.zip args))
    (hst : StackOk d (fn.params.zip args)) {bsL : List UInt8}
    (hresp : ∀ m ∈ (idealCall i fn.body s.world args).2.2, MsgOk (ns j) (fns j) m)
    (hbn : noB (ns j).b = true → ∀ m ∈ (idealCall i fn.body s.world args).2.2, ∀ x ∈ msgItems (fns j) (ns j).idTy m,
      noBits x.2 = true)
    (hw : wireItems f (sharedItems fns (fun j => (ns j).idTy) ((idealCall i fn.body s.world args).2.2.map fun m => (j, m))) = some bsL) (hl : bsL.length < 2 ^ 63)
    (hroom : RoomFor (ns j).sc.g (s.buf (ns j).b).data.length ((s.buf (ns j).b).wpos + bsL.length)) :
    ∃ s', netServed (ns j) s (callBinding (ns j).d (ns j).sc (ns j).noFit fn.id s.world (s.buf (ns j).a).data p
        ⟨(s.buf (ns j).b).data, (s.buf (ns j).b).wpos⟩ (served j)) = (((idealCall i fn.body s.world args).1, none), s') ∧
      s'.world = (idealCall i fn.body s.world args).2.1 ∧
      SSim ns fns f (sharedPush (ns j).b ((idealCall i fn.body s.world args).2.2.map fun m => (j, m)) (sharedSet (ns j).a rest q)) s' noB ∧
      (∀ k, (s'.buf k).wpos = (s.buf k).wpos + (if k = (ns j).b then bsL.length else 0)) ∧
      (∀ k, (s.buf k).data.length ≤ (s'.buf k).data.length) := by
  subst hx
  obtain ⟨b1, tail, e1, e2, e3, e4⟩ := hfront.front
  simp only at e2 e3 e4
  have hlen := (h.holds (ns j).a).len_lt
  obtain ⟨bd, hmem, hpr⟩ := hprov i fn hi
  obtain ⟨i', hbd⟩ := List.getElem?_of_mem hmem
  rw [hdn] at hpr ⊢
  rw [call_provided hn hbd hpr (w := s.world) (o := ⟨(s.buf (ns j).b).data, (s.buf (ns j).b).wpos⟩) (by omega) hargs (hsf ▸ e1) hrd hst
    e3 e2]
  have hpop : SSim ns fns f (sharedSet (ns j).a rest q) (s.set (ns j).a { s.buf (ns j).a with rpos := p + b1.length }) noB :=
    h.pop hrest e4 rfl rfl
  have hset : ∀ (t : NetSt σ) (k : Chan), t.set k (t.buf k) = t := by
    intro t k
    cases t
    simp only [NetSt.set, NetSt.mk.injEq, true_and]
    funext k'
    split
    · rename_i e; rw [e]
    · rfl
  have hquiet : ∀ (st : Status) (w' : σ),
      netServed (ns j) s ⟨st, w', p + b1.length, ⟨(s.buf (ns j).b).data, (s.buf (ns j).b).wpos⟩⟩ =
        ((st, none), { s.set (ns j).a { s.buf (ns j).a with rpos := p + b1.length } with world := w' }) := by
    intro st w'
    unfold netServed
    simp only
    have : ({ (s.set (ns j).a { s.buf (ns j).a with rpos := p + b1.length }).buf (ns j).b with
        data := (s.buf (ns j).b).data, wpos := (s.buf (ns j).b).wpos } : Duplex) =
        (s.set (ns j).a { s.buf (ns j).a with rpos := p + b1.length }).buf (ns j).b := by
      simp only [NetSt.set]
      split
      · rename_i e; rw [e]
      · rfl
    rw [this, hset]
  have hpush : sharedPush (ns j).b [] (sharedSet (ns j).a rest q) = sharedSet (ns j).a rest q := by
    funext k; simp [sharedPush]
  have hbufs : ∀ k, ((s.set (ns j).a { s.buf (ns j).a with rpos := p + b1.length }).buf k).wpos = (s.buf k).wpos ∧
      ((s.set (ns j).a { s.buf (ns j).a with rpos := p + b1.length }).buf k).data = (s.buf k).data := by
    intro k
    simp only [NetSt.set]
    split
    · rename_i e; rw [e]; exact ⟨rfl, rfl⟩
    · exact ⟨rfl, rfl⟩
  obtain ⟨id, params, body, opaq⟩ := fn
  cases body with
  | void g =>
    simp only [idealCall, sharedItems, List.map_nil, List.flatten_nil] at hw ⊢
    cases hw
    simp only [replied, hquiet, hpush]
    refine ⟨_, rfl, rfl, hpop.world _, fun k => ?_, fun k => ?_⟩
    · simp only [List.length_nil, ite_self, Nat.add_zero]; exact (hbufs k).1
    · simp only [(hbufs k).2, Nat.le_refl]
  | errc g =>
    have hic : (idealCall i (.errc g) s.world args).2.2 = [] ∧
        (idealCall i (.errc g) s.world args).1 = codeStatus (g s.world args).1 ∧
        (idealCall i (.errc g) s.world args).2.1 = (g s.world args).2 := by
      simp only [idealCall]
      generalize g s.world args = r
      obtain ⟨_ | e, w'⟩ := r <;> exact ⟨rfl, rfl, rfl⟩
    obtain ⟨i1, i2, i3⟩ := hic
    simp only [i1, sharedItems, List.map_nil, List.flatten_nil] at hw
    cases hw
    simp only [i1, i2, i3, List.map_nil, hpush, replied, hquiet]
    refine ⟨_, rfl, rfl, hpop.world _, fun k => ?_, fun k => ?_⟩
    · simp only [List.length_nil, ite_self, Nat.add_zero]; exact (hbufs k).1
    · simp only [(hbufs k).2, Nat.le_refl]
  | value t g =>
    simp only [idealCall, List.mem_singleton, forall_eq] at hw hresp hbn ⊢
    simp only [sharedItems, List.map_cons, List.map_nil, List.flatten_cons, List.flatten_nil, List.append_nil] at hw
    have hit : msgItems (fns j) (ns j).idTy (.resp i (g s.world args).1) = [(t, (g s.world args).1)] := by
      simp [msgItems, hi]
    obtain ⟨y, y1, y2, y3, y4⟩ := hpop.send (c := (ns j).sc) hsf (k := (ns j).b) hresp trivial hresp.2.1 hw hl hbn
      (by rw [(hbufs (ns j).b).1, (hbufs (ns j).b).2]; exact hroom)
    rw [hit, hdn] at y1
    simp only [Duplex.write, (hbufs (ns j).b).1, (hbufs (ns j).b).2, Prod.mk.injEq] at y1
    obtain ⟨y1, rfl⟩ := y1
    simp only [replied]
    generalize outCall (d + 1) (ns j).sc (ns j).noFit [(t, (g s.world args).1)] ⟨(s.buf (ns j).b).data, (s.buf (ns j).b).wpos⟩ = r at *
    obtain ⟨st, o⟩ := r
    simp only at y1 y2 y3 y4
    subst y1
    refine ⟨_, rfl, rfl, y2.world (g s.world args).2, ?_, ?_⟩
    · intro k
      simp only [NetSt.set] at y3 ⊢
      by_cases e : k = (ns j).b
      · subst e; simp only [if_true]; rw [y3]; exact congrArg (· + bsL.length) (hbufs (ns j).b).1
      · simp only [if_neg e, Nat.add_zero]; exact (hbufs k).1
    · intro k
      simp only [NetSt.set] at y4 ⊢
      by_cases e : k = (ns j).b
      · subst e; simp only [if_true]; exact Nat.le_trans (Nat.le_of_eq (congrArg List.length (hbufs (ns j).b).2).symm) y4
      · simp only [if_neg e]; exact Nat.le_of_eq (congrArg List.length (hbufs k).2).symm

theorem sentThrough_append {k : Chan} {a b : List (Chan × Nat × Msg)} :
    sentThrough k (a ++ b) = sentThrough k a ++ sentThrough k b := by
  simp [sentThrough]

theorem sentThrough_map {k k' : Chan} {j : Nat} {ms : List Msg} :
    sentThrough k (ms.map fun m => (k', j, m)) = if k = k' then ms.map fun m => (j, m) else [] := by
  simp only [sentThrough, List.filter_map, List.map_map, Function.comp_def]
  by_cases e : k = k'
  · subst e
    have : ms.filter (fun _ => true) = ms := List.filter_eq_self.mpr (by simp)
    simp [this]
  · have : ¬ k' = k := fun h => e h.symm
    simp [this, e]

theorem mem_sentThrough {σ : Type} {fns : Nat → Fns σ} {idTy : Nat → Ty} {k : Chan} {j : Nat} {sent : List (Chan × Nat × Msg)} {m : Msg}
    (h : (k, j, m) ∈ sent) {x : Ty × Val} (hx : x ∈ msgItems (fns j) (idTy j) m) : x ∈ sharedItems fns idTy (sentThrough k sent) := by
  simp only [sharedItems, sentThrough, List.mem_flatten, List.mem_map, List.mem_filter]
  exact ⟨_, ⟨(j, m), ⟨(k, j, m), ⟨h, by simp⟩, rfl⟩, rfl⟩, hx⟩

/-- One operation. -/
theorem sharedStep_sim {σ : Type} {ns : Nat → Net σ} {served : Nat → List (Binding σ)} {fns : Nat → Fns σ} {j d : Nat} (hdn : (ns j).d = d + 1) {f : Fmt} (hcf : fmtOf (ns j).cc = f)
    (hsf : fmtOf (ns j).sc = f) (hn : nodup ((served j).map Binding.id) = true)
    (hdecl : ∀ i fn, fns j i = some fn → ∃ b, (ns j).bindings[i]? = some b ∧ Declares fn b)
    (hprov : ∀ i fn, fns j i = some fn → ∃ b ∈ served j, Provides (ns j).d (ns j).sc fn b) {op : NetOp} {w w' : σ} {q q' : SharedQueues}
    {r : NetRes} {sent : List (Chan × Nat × Msg)} (hstep : SharedStep fns (fun j => (ns j).a) (fun j => (ns j).b) j op w q r sent w' q') {s : NetSt σ}
    {noB : Chan → Bool} (hw : s.world = w) (h : SSim ns fns f q s noB) (hok : ∀ km ∈ sent, MsgOk (ns km.2.1) (fns km.2.1) km.2.2)
    {bs : Chan → List UInt8} (hbs : ∀ k, wireItems f (sharedItems fns (fun j => (ns j).idTy) (sentThrough k sent)) = some (bs k))
    (hl : ∀ k, (bs k).length < 2 ^ 63)
    (hbits : ∀ k, noB k = true → ∀ x ∈ sharedItems fns (fun j => (ns j).idTy) (sentThrough k sent), noBits x.2 = true)
    (hra : RoomFor (ns j).cc.g (s.buf (ns j).a).data.length ((s.buf (ns j).a).wpos + (bs (ns j).a).length))
    (hrb : RoomFor (ns j).sc.g (s.buf (ns j).b).data.length ((s.buf (ns j).b).wpos + (bs (ns j).b).length)) :
    ∃ s', stepBetween (ns j) (served j) op s = (r, s') ∧ s'.world = w' ∧ SSim ns fns f q' s' noB ∧
      (∀ k, (s'.buf k).wpos = (s.buf k).wpos + (bs k).length) ∧
      (∀ k, (s.buf k).data.length ≤ (s'.buf k).data.length) := by
  subst hw
  cases hstep with
  | @request withId i args fn _ _ hi hlen =>
    have hm := hok ((ns j).a, j, .req withId i args) (by simp)
    have hitems : sharedItems fns (fun j => (ns j).idTy) (sentThrough (ns j).a [((ns j).a, j, .req withId i args)]) =
        msgItems (fns j) (ns j).idTy (.req withId i args) := by simp [sharedItems, sentThrough]
    have hwa := hbs (ns j).a
    rw [hitems] at hwa
    obtain ⟨y, y1, y2, y3, y4⟩ := h.send (c := (ns j).cc) hcf (k := (ns j).a) hm
      (by intro fn' hi'; rw [hi] at hi'; cases hi'; exact hlen) hm.2.1 hwa (hl _)
      (by intro hb; have := hbits (ns j).a hb; rwa [hitems] at this) hra
    have hri : msgItems (fns j) (ns j).idTy (.req withId i args) =
        (if withId then [((ns j).idTy, fn.id)] else []) ++ fn.params.zip args := by simp [msgItems, hi]
    rw [hri] at y1
    have hask : stepBetween (ns j) (served j) (askFor fn withId i args) s = ((.ok, none), s.set (ns j).a y) := by
      obtain ⟨bd, hbd, hpr⟩ := hdecl i fn hi
      unfold askFor
      cases ho : fn.opaq with
      | false =>
        simp only [Declares, ho] at hpr
        obtain ⟨g, rfl, -⟩ := hpr
        simp [stepBetween, netRequest, hbd, requestItems, y1]
      | true =>
        simp only [Declares, ho] at hpr
        obtain ⟨g, rfl⟩ := hpr
        simp [stepBetween, netRequestOpaque, hbd, y1]
    refine ⟨s.set (ns j).a y, hask, rfl, y2, ?_, ?_⟩
    · intro k
      simp only [NetSt.set]
      by_cases e : k = (ns j).a
      · subst e; simp only [if_true]; exact y3
      · simp only [if_neg e]
        have := hbs k
        have hk : sharedItems fns (fun j => (ns j).idTy) (sentThrough k [((ns j).a, j, .req withId i args)]) = [] := by
          have : ¬ (ns j).a = k := fun h => e h.symm
          simp [sharedItems, sentThrough, this]
        rw [hk] at this
        have e0 : bs k = [] := by simpa [wireItems] using this.symm
        simp [e0]
    · intro k
      simp only [NetSt.set]
      by_cases e : k = (ns j).a
      · subst e; simp only [if_true]; exact y4
      · simp only [if_neg e]; exact Nat.le_refl _
  | @serve i args fn _ _ rest hi hq =>
    have hm := h.msgs (ns j).a _ (hq ▸ List.mem_cons_self)
    have hml : MsgLen (fns j) _ := h.lens (ns j).a _ (hq ▸ List.mem_cons_self)
    have hml := hml fn hi
    have hit : msgItems (fns j) (ns j).idTy (.req true i args) = ((ns j).idTy, fn.id) :: fn.params.zip args := by
      simp [msgItems, hi]
    have hh := h.holds (ns j).a
    rw [hq] at hh
    have hqi : sharedItems fns (fun j => (ns j).idTy) ((j, .req true i args) :: rest) = [((ns j).idTy, fn.id)] ++ (fn.params.zip args ++ sharedItems fns (fun j => (ns j).idTy) rest) := by
      simp [sharedItems, hit]
    rw [hqi] at hh
    have hrd := hm.2.2
    have hst := hm.1
    rw [hit] at hrd hst
    rw [hdn] at hst
    simp only [Nat.add_sub_cancel] at hst
    obtain ⟨b0, tail, e1, e2, e3, e4⟩ := hh.front
    have hlen := (h.holds (ns j).a).len_lt
    have hid := decMany_rd (d := (ns j).d) hrd.abi hrd.env (data := (s.buf (ns j).a).data) (by omega) [((ns j).idTy, fn.id)]
      [((ns j).idTy, dflt (ns j).sc (ns j).d (ns j).idTy)] b0 (hsf ▸ e1) (fun x hx => hrd.types x (by simp at hx; simp [hx]))
      (fun x hx => hrd.load x (by simp at hx; simp [hx]))
      (fun x hx => by have := hst x (by simp at hx; simp [hx]); rw [hdn]; omega) rfl (s.buf (ns j).a).rpos tail e3 e2
    have hwb := hbs (ns j).b
    rw [sentThrough_map, if_pos rfl] at hwb
    obtain ⟨s', g1, g2, g3, g4, g5⟩ := shared_call hdn hsf hn hprov h hi hml (rest := rest)
      (fun m hm => hq ▸ List.mem_cons_of_mem _ hm) (p := (s.buf (ns j).a).rpos + b0.length) rfl e4
      (hrd.sub fun x hx => List.mem_cons_of_mem _ hx) (fun x hx => hst x (List.mem_cons_of_mem _ hx))
      (fun m hm => hok ((ns j).b, j, m) (List.mem_map.mpr ⟨m, hm, rfl⟩))
      (fun hb m hm x hx => hbits (ns j).b hb x (mem_sentThrough (List.mem_map.mpr ⟨m, hm, rfl⟩) hx)) hwb (hl _) hrb
    refine ⟨s', ?_, g2, g3, ?_, g5⟩
    · simp only [stepBetween, netServe, serve, hid, List.map_cons, List.map_nil, List.headD_cons]
      exact g1
    · intro k
      rw [g4 k]
      by_cases e : k = (ns j).b
      · rw [if_pos e, e]
      · have := hbs k
        rw [sentThrough_map, if_neg e] at this
        have e0 : bs k = [] := by simpa [wireItems, sharedItems] using this.symm
        rw [if_neg e]; simp [e0]
  | @serveId i args fn _ _ rest hi hq =>
    have hm := h.msgs (ns j).a _ (hq ▸ List.mem_cons_self)
    have hml : MsgLen (fns j) _ := h.lens (ns j).a _ (hq ▸ List.mem_cons_self)
    have hml := hml fn hi
    have hit : msgItems (fns j) (ns j).idTy (.req false i args) = fn.params.zip args := by
      simp [msgItems, hi]
    have hh := h.holds (ns j).a
    rw [hq] at hh
    have hqi : sharedItems fns (fun j => (ns j).idTy) ((j, .req false i args) :: rest) = fn.params.zip args ++ sharedItems fns (fun j => (ns j).idTy) rest := by
      simp [sharedItems, hit]
    rw [hqi] at hh
    have hrd := hm.2.2
    have hst := hm.1
    rw [hit] at hrd hst
    rw [hdn] at hst
    simp only [Nat.add_sub_cancel] at hst
    have hwb := hbs (ns j).b
    rw [sentThrough_map, if_pos rfl] at hwb
    obtain ⟨s', g1, g2, g3, g4, g5⟩ := shared_call hdn hsf hn hprov h hi hml (rest := rest)
      (fun m hm => hq ▸ List.mem_cons_of_mem _ hm) (p := (s.buf (ns j).a).rpos) rfl hh hrd hst
      (fun m hm => hok ((ns j).b, j, m) (List.mem_map.mpr ⟨m, hm, rfl⟩))
      (fun hb m hm x hx => hbits (ns j).b hb x (mem_sentThrough (List.mem_map.mpr ⟨m, hm, rfl⟩) hx)) hwb (hl _) hrb
    refine ⟨s', ?_, g2, g3, ?_, g5⟩
    · obtain ⟨bd, hbd, hpr⟩ := hdecl i fn hi
      simp only [stepBetween, hbd, hpr.id]
      exact g1
    · intro k
      rw [g4 k]
      by_cases e : k = (ns j).b
      · rw [if_pos e, e]
      · have := hbs k
        rw [sentThrough_map, if_neg e] at this
        have e0 : bs k = [] := by simpa [wireItems, sharedItems] using this.symm
        rw [if_neg e]; simp [e0]
  | @response i v fn t g _ _ rest hi hb hq =>
    have hm := h.msgs (ns j).b _ (hq ▸ List.mem_cons_self)
    have hit : msgItems (fns j) (ns j).idTy (.resp i v) = [(t, v)] := by simp [msgItems, hi, hb]
    obtain ⟨bd, hbd, hpr⟩ := hdecl i fn hi
    have hret : bd.ret = .value t := by rw [hpr.ret, hb]; rfl
    have hh := h.holds (ns j).b
    rw [hq] at hh
    have hqi : sharedItems fns (fun j => (ns j).idTy) ((j, .resp i v) :: rest) = [(t, v)] ++ sharedItems fns (fun j => (ns j).idTy) rest := by
      simp [sharedItems, hit]
    rw [hqi] at hh
    have hrd := hm.2.2
    have hst := hm.1
    rw [hit] at hrd hst
    obtain ⟨y, y1, y2, y3, y4⟩ := hh.read (d := (ns j).d) (dests := [(t, dflt (ns j).cc (ns j).d t)]) hcf hrd
      (StackOk.of_le hst (Nat.sub_le _ _)) rfl
    refine ⟨s.set (ns j).b y, by simp [stepBetween, netResponse, hbd, hret, y1], rfl,
      h.pop (fun m hm => hq ▸ List.mem_cons_of_mem _ hm) y2 y3 y4, ?_, ?_⟩
    · intro k
      have := hbs k
      simp only [sharedItems, sentThrough, List.filter_nil, List.map_nil, List.flatten_nil] at this
      have e0 : bs k = [] := by simpa [wireItems] using this.symm
      simp only [NetSt.set, e0]
      split
      · rename_i e; subst e; rw [y4]; rfl
      · rfl
    · intro k
      simp only [NetSt.set]
      split
      · rename_i e; subst e; rw [y3]; exact Nat.le_refl _
      · exact Nat.le_refl _
  | responseVoid hi hb =>
    obtain ⟨bd, hbd, hpr⟩ := hdecl _ _ hi
    have hret : bd.ret = .void := by rw [hpr.ret, hb]; rfl
    refine ⟨s, by simp only [stepBetween, netResponse, hbd, Option.map_some, hret], rfl, h, ?_, fun k => Nat.le_refl _⟩
    intro k
    have := hbs k
    simp only [sharedItems, sentThrough, List.filter_nil, List.map_nil, List.flatten_nil] at this
    have e0 : bs k = [] := by simpa [wireItems] using this.symm
    simp [e0]

/-- A history. -/
theorem sharedRun_sim {σ : Type} {ns : Nat → Net σ} {served : Nat → List (Binding σ)} {fns : Nat → Fns σ} {f : Fmt} (hdn : ∀ j, 0 < (ns j).d) (hcf : ∀ j, fmtOf (ns j).cc = f)
    (hsf : ∀ j, fmtOf (ns j).sc = f) (hn : ∀ j, nodup ((served j).map Binding.id) = true)
    (hdecl : ∀ j i fn, fns j i = some fn → ∃ b, (ns j).bindings[i]? = some b ∧ Declares fn b)
    (hprov : ∀ j i fn, fns j i = some fn → ∃ b ∈ served j, Provides (ns j).d (ns j).sc fn b) {ops : List (Nat × NetOp)} {w w' : σ} {q q' : SharedQueues}
    {rs : List NetRes} {sent : List (Chan × Nat × Msg)} (hrun : IdealShared fns (fun j => (ns j).a) (fun j => (ns j).b) ops w q rs sent w' q') :
    ∀ {s : NetSt σ} {noB : Chan → Bool} {bs : Chan → List UInt8}, s.world = w → SSim ns fns f q s noB →
    (∀ km ∈ sent, MsgOk (ns km.2.1) (fns km.2.1) km.2.2) → (∀ k, wireItems f (sharedItems fns (fun j => (ns j).idTy) (sentThrough k sent)) = some (bs k)) →
    (∀ k, (bs k).length < 2 ^ 63) →
    (∀ k, noB k = true → ∀ x ∈ sharedItems fns (fun j => (ns j).idTy) (sentThrough k sent), noBits x.2 = true) →
    (∀ j, RoomFor (ns j).cc.g (s.buf (ns j).a).data.length ((s.buf (ns j).a).wpos + (bs (ns j).a).length)) →
    (∀ j, RoomFor (ns j).sc.g (s.buf (ns j).b).data.length ((s.buf (ns j).b).wpos + (bs (ns j).b).length)) →
    ∃ s', sharedRun ns served ops s = (rs, s') ∧ s'.world = w' ∧ SSim ns fns f q' s' noB := by
  induction hrun with
  | done w q => intro s noB bs hw h _ _ _ _ _ _; exact ⟨s, rfl, hw, h⟩
  | @step j op ops w w1 w2 q q1 q2 r rs s1 ss hstep _ ih =>
    intro s noB bs hw h hok hbs hl hbits hra hrb
    have hsplit : ∀ k, ∃ z : List UInt8 × List UInt8, wireItems f (sharedItems fns (fun j => (ns j).idTy) (sentThrough k s1)) = some z.1 ∧
        wireItems f (sharedItems fns (fun j => (ns j).idTy) (sentThrough k ss)) = some z.2 ∧ bs k = z.1 ++ z.2 := by
      intro k
      have := hbs k
      rw [sentThrough_append, sharedItems_append] at this
      obtain ⟨x, y, h1, h2, h3⟩ := wireItems_append this
      exact ⟨(x, y), h1, h2, h3⟩
    obtain ⟨z, hz⟩ := Classical.axiomOfChoice hsplit
    have hx := fun k => (hz k).1
    have hy := fun k => (hz k).2.1
    have hxy := fun k => (hz k).2.2
    have hlx : ∀ k, (bs k).length = (z k).1.length + (z k).2.length := by intro k; rw [hxy, List.length_append]
    have hra' : ∀ j, RoomFor (ns j).cc.g (s.buf (ns j).a).data.length ((s.buf (ns j).a).wpos + ((z (ns j).a).1.length + (z (ns j).a).2.length)) := by
      intro j; rw [← hlx]; exact hra j
    have hrb' : ∀ j, RoomFor (ns j).sc.g (s.buf (ns j).b).data.length ((s.buf (ns j).b).wpos + ((z (ns j).b).1.length + (z (ns j).b).2.length)) := by
      intro j; rw [← hlx]; exact hrb j
    have hd1 : (ns j).d = ((ns j).d - 1) + 1 := by have := hdn j; omega
    have hm1 : ∀ k, ∀ z ∈ sharedItems fns (fun j => (ns j).idTy) (sentThrough k s1), z ∈ sharedItems fns (fun j => (ns j).idTy) (sentThrough k (s1 ++ ss)) := by
      intro k z hz; rw [sentThrough_append, sharedItems_append]; exact List.mem_append_left _ hz
    have hm2 : ∀ k, ∀ z ∈ sharedItems fns (fun j => (ns j).idTy) (sentThrough k ss), z ∈ sharedItems fns (fun j => (ns j).idTy) (sentThrough k (s1 ++ ss)) := by
      intro k z hz; rw [sentThrough_append, sharedItems_append]; exact List.mem_append_right _ hz
    obtain ⟨s', e1, e2, e3, e4, e5⟩ := sharedStep_sim hd1 (hcf j) (hsf j) (hn j) (hdecl j) (hprov j) hstep hw h
      (fun km hk => hok km (List.mem_append_left _ hk)) hx (fun k => by have := hl k; rw [hlx] at this; omega)
      (fun k hb z hz => hbits k hb z (hm1 k z hz)) ((hra' j).mono (by omega)) ((hrb' j).mono (by omega))
    obtain ⟨s'', i1, i2, i3⟩ := ih e2 e3 (fun km hk => hok km (List.mem_append_right _ hk)) hy
      (fun k => by have := hl k; rw [hlx] at this; omega) (fun k hb z hz => hbits k hb z (hm2 k z hz))
      (fun j => by rw [e4]; exact ((hra' j).mono (by omega)).grow (e5 _)) (fun j => by rw [e4]; exact ((hrb' j).mono (by omega)).grow (e5 _))
    exact ⟨s'', by simp only [sharedRun, e1, i1], i2, i3⟩

end Zpp
