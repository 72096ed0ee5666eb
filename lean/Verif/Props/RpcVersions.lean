import Verif.Props.Rpc
/-!
# C105: services with more functions than their clients know

The server's list of bindings need not be the client's.
-/

namespace Zpp.Props
open Zpp Zpp.Spec

theorem callBinding_mem {σ : Type} {d : Nat} {c : Cfg} {noFit : Bool} {w : σ} {data : List UInt8} {p : Nat} {o : OutSt}
    {bs : List (Binding σ)} (hn : nodup (bs.map Binding.id) = true) {b : Binding σ} (hb : b ∈ bs) :
    callBinding d c noFit b.id w data p o bs = callBinding d c noFit b.id w data p o [b] := by
  obtain ⟨i, hi⟩ := List.getElem?_of_mem hb
  cases b with
  | bind id params body =>
    rw [show (Binding.bind id params body).id = id from rfl, callBinding_nth hn hi]
    simp only [callBinding, Binding.id, if_true]
  | «opaque» id ret fn =>
    rw [show (Binding.opaque id ret fn).id = id from rfl, callBinding_opaque hn hi]
    simp only [callBinding, Binding.id, if_true]

/-- C105, arbitrary requests. A server gets more functions, and the old ones may be listed in another order. Whatever the bytes of a
request are: if the id in front is the id of one of the old functions, `serve` does exactly what it did: same outcome, same calls,
same bytes read and written. -/
theorem C105_serve {σ : Type} (d : Nat) (c : Cfg) (noFit : Bool) (idTy : Ty) (old new : List (Binding σ)) (w : σ)
    (data : List UInt8) (p : Nat) (o : OutSt) (id : Val) (p' : Nat)
    (hold : nodup (old.map Binding.id) = true) (hnew : nodup (new.map Binding.id) = true) (hsub : ∀ b ∈ old, b ∈ new)
    (hid : decMany d c data (fresh c d [idTy]) p = ⟨.ok, [id], p'⟩) (hknown : ∃ b ∈ old, b.id = id) :
    serve d c noFit idTy new w data p o = serve d c noFit idTy old w data p o := by
  simp only [fresh, List.map_cons, List.map_nil] at hid
  simp only [serve, hid, List.headD_cons]
  obtain ⟨b, hb, rfl⟩ := hknown
  rw [callBinding_mem hnew (hsub b hb), callBinding_mem hold hb]

/-- C105, order. The order of the bindings of a server does not matter, for any request and any bytes. -/
theorem C105_order {σ : Type} (d : Nat) (c : Cfg) (noFit : Bool) (idTy : Ty) (old new : List (Binding σ)) (w : σ)
    (data : List UInt8) (p : Nat) (o : OutSt) (hold : nodup (old.map Binding.id) = true)
    (hnew : nodup (new.map Binding.id) = true) (hsame : ∀ b, b ∈ old ↔ b ∈ new) :
    serve d c noFit idTy new w data p o = serve d c noFit idTy old w data p o := by
  simp only [serve]
  generalize decMany d c data [(idTy, dflt c d idTy)] p = r
  obtain ⟨s, vs, p'⟩ := r
  cases s <;> try rfl
  simp only
  by_cases hk : ∃ b ∈ old, b.id = vs.headD .unit
  · obtain ⟨b, hb, e⟩ := hk
    rw [← e, callBinding_mem hnew ((hsame b).mp hb), callBinding_mem hold hb]
  · rw [callBinding_none (bs := old), callBinding_none (bs := new)]
    · rw [List.mem_map]; rintro ⟨b, hb, e⟩; exact hk ⟨b, (hsame b).mpr hb, e⟩
    · rw [List.mem_map]; rintro ⟨b, hb, e⟩; exact hk ⟨b, hb, e⟩

/-- C105, histories. The client is compiled with the bindings of `n`, the server with the bindings `served`, whose ids are distinct:
any list that has, for every function the client asks for, a binding of the same id, parameters and return type, at any place, with
any body, beside any other functions. Then every history of operations gives what it gives on the ideal connection, with the functions of
the server: the same outcomes and results, the same calls, and what is left in the buffers is the encoding of the messages under
way. (As in C36, functions that return `errc` send no response.) -/
theorem C105_history {σ : Type} (n : Net σ) (served : List (Binding σ)) (fns : Fns σ) (d : Nat) (f : Fmt) (ops : List NetOp)
    (rs : List NetRes) (sent : List (Chan × Msg)) (w' : σ) (q' : Queues) (s : NetSt σ) (bs : Chan → List UInt8)
    (hd : n.d = d + 1) (hcf : fmtOf n.cc = f) (hsf : fmtOf n.sc = f)
    (hids : nodup (served.map Binding.id) = true)
    (hclient : ∀ i fn, fns i = some fn → ∃ b, n.bindings[i]? = some b ∧ Declares fn b)
    (hserver : ∀ i fn, fns i = some fn → ∃ b ∈ served, Provides n.d n.sc fn b)
    (hrun : IdealRun fns n.a n.b ops s.world (fun _ => []) rs sent w' q')
    (hempty : ∀ k, (s.buf k).rpos = (s.buf k).wpos ∧ (s.buf k).wpos ≤ (s.buf k).data.length ∧
      (s.buf k).data.length < 2 ^ 63)
    (hmsgs : ∀ km ∈ sent, MsgOk n fns km.2)
    (hbs : ∀ k, wireItems f (sentItems fns n.idTy k sent) = some (bs k)) (hl : ∀ k, (bs k).length < 2 ^ 63)
    (hbits : ∀ k, BitsOk (sentItems fns n.idTy k sent) ⟨(s.buf k).data, (s.buf k).wpos⟩)
    (hra : RoomFor n.cc.g (s.buf n.a).data.length ((s.buf n.a).wpos + (bs n.a).length))
    (hrb : RoomFor n.sc.g (s.buf n.b).data.length ((s.buf n.b).wpos + (bs n.b).length)) :
    (runBetween n served ops s).1 = rs ∧ (runBetween n served ops s).2.world = w' ∧
    ∀ k, wireItems f ((q' k).map (msgItems fns n.idTy)).flatten =
      some ((((runBetween n served ops s).2.buf k).data.take ((runBetween n served ops s).2.buf k).wpos).drop
        ((runBetween n served ops s).2.buf k).rpos) := by
  classical
  let noB : Chan → Bool := fun k => decide (∀ x ∈ sentItems fns n.idTy k sent, noBits x.2 = true)
  have hsim : Sim n fns f (fun _ => []) s noB := by
    refine ⟨fun k => ⟨(hempty k).2.1, (hempty k).2.2, [], rfl, ?_, ?_⟩, by simp, by simp, ?_⟩
    · simp [(hempty k).1]
    · rw [(hempty k).1]
      exact List.drop_eq_nil_of_le (by rw [List.length_take]; omega)
    · intro k
      rcases hbits k with h | h
      · exact Or.inl (by simp only [noB, decide_eq_true_eq]; exact h)
      · exact Or.inr h
  obtain ⟨s', e1, e2, e3⟩ := run_sim hd hcf hsf hids hclient hserver hrun rfl hsim hmsgs hbs hl
    (fun k hb => by simp only [noB, decide_eq_true_eq] at hb; exact hb) hra hrb
  rw [e1]
  refine ⟨rfl, e2, fun k => ?_⟩
  obtain ⟨b, h1, _, h3⟩ := (e3.holds k).body
  rw [h3]
  exact h1

/-- C105, functions the server does not have. A client asks an older server for a function it does not have, over two buffers: the
request is sent, `serve` fails with `not_supported`, calls nothing and writes nothing; the arguments stay unread in the buffer of
requests. -/
theorem C105_not_offered {σ : Type} (n : Net σ) (served : List (Binding σ)) (i : Nat) (id : Val) (params : List Ty)
    (body : Body σ) (args : List Val) (f : Fmt) (s : NetSt σ) (bs : List UInt8)
    (hcf : fmtOf n.cc = f) (hsf : fmtOf n.sc = f) (hab : n.b ≠ n.a)
    (hi : n.bindings[i]? = some (.bind id params body)) (hmiss : ∀ b ∈ served, b.id ≠ id)
    (hempty : (s.buf n.a).rpos = (s.buf n.a).wpos ∧ (s.buf n.a).wpos ≤ (s.buf n.a).data.length ∧
      (s.buf n.a).data.length < 2 ^ 63)
    (hs : Supported n.cc ((n.idTy, id) :: params.zip args)) (hr : Readable n.sc [(n.idTy, id)])
    (hst : StackOk n.d ((n.idTy, id) :: params.zip args))
    (hw : wireItems f ((n.idTy, id) :: params.zip args) = some bs) (hl : bs.length < 2 ^ 63)
    (hbits : BitsOk ((n.idTy, id) :: params.zip args) ⟨(s.buf n.a).data, (s.buf n.a).wpos⟩)
    (hra : RoomFor n.cc.g (s.buf n.a).data.length ((s.buf n.a).wpos + bs.length)) :
    let r := runBetween n served [.request true i args, .serve] s
    r.1 = [(.ok, none), (.err .notSupported, none)] ∧ r.2.world = s.world ∧ r.2.buf n.b = s.buf n.b ∧
    wireItems f (params.zip args) = some (((r.2.buf n.a).data.take (r.2.buf n.a).wpos).drop (r.2.buf n.a).rpos) := by
  have h0 : Holds f [] (s.buf n.a) := ⟨hempty.2.1, hempty.2.2, [], rfl, by simp [hempty.1], by
    rw [hempty.1]; exact List.drop_eq_nil_of_le (by rw [List.length_take]; omega)⟩
  obtain ⟨y, h1, h2, h3, h4, h5⟩ := h0.write (noFit := n.noFit) hcf hs hst hbits hw hl hra
  rw [List.nil_append, ← List.singleton_append] at h2
  obtain ⟨b1, tail, e1, e2, e3, e4⟩ := h2.front
  have hlen := h2.len_lt
  have hid := decMany_rd (d := n.d) hr.abi hr.env (data := y.data) (by omega) [(n.idTy, id)]
    [(n.idTy, dflt n.sc n.d n.idTy)] b1 (hsf ▸ e1) hr.types hr.load
    (fun x hx => hst x (by simp only [List.mem_singleton] at hx; simp [hx])) rfl y.rpos tail e3 e2
  have hreq : stepBetween n served (.request true i args) s = ((.ok, none), s.set n.a y) := by
    simp only [stepBetween, netRequest, hi, requestItems, if_true, List.singleton_append, h1]
  have hba : ∀ x : Duplex, (s.set n.a x).buf n.b = s.buf n.b := fun x => by simp only [NetSt.set, if_neg hab]
  have hserve : stepBetween n served .serve (s.set n.a y) =
      ((.err .notSupported, none), s.set n.a { y with rpos := y.rpos + b1.length }) := by
    simp only [stepBetween, netServe]
    have hsv : serve n.d n.sc n.noFit n.idTy served (s.set n.a y).world ((s.set n.a y).buf n.a).data
        ((s.set n.a y).buf n.a).rpos ⟨((s.set n.a y).buf n.b).data, ((s.set n.a y).buf n.b).wpos⟩ =
        ⟨.err .notSupported, s.world, y.rpos + b1.length, ⟨(s.buf n.b).data, (s.buf n.b).wpos⟩⟩ := by
      have hy : (s.set n.a y).buf n.a = y := by simp only [NetSt.set, if_true]
      rw [hy, hba]
      exact C37_unknown_id n.d n.sc n.noFit n.idTy served s.world y.data y.rpos _ id _ hid hmiss
    rw [hsv]
    simp only [netServed, NetSt.set]
    congr 1
    simp only [NetSt.mk.injEq, true_and]
    funext k
    by_cases ekb : k = n.b
    · subst ekb
      simp only [if_true, if_neg hab]
    · simp only [if_neg ekb]
      by_cases eka : k = n.a
      · subst eka; simp only [if_true]
      · simp only [if_neg eka]
  simp only [runBetween, hreq, hserve]
  refine ⟨trivial, rfl, hba _, ?_⟩
  obtain ⟨b2, g1, g2, g3⟩ := e4.body
  simp only [NetSt.set, if_true]
  rw [g1, g3]

/-- The bindings of a newer server: another order, a new function, and another body for function 1. -/
def exNewer : List (Binding (List (Nat × List Val))) := [
  .bind (.num 9) [.bool] (.void fun w a => w ++ [(9, a)]),
  .bind (.num 2) [.bool] (.void fun w a => w ++ [(2, a)]),
  .bind (.num 1) [.scalar .int 2, Checks.str] (.value (.scalar .int 4) fun w a => (.num (w.length + 100), w ++ [(1, a)]))]

/-- The functions of that server that clients of `exNet` know, with the indexes of the client. -/
def exKnown : Fns (List (Nat × List Val))
  | 0 => some ⟨.num 1, [.scalar .int 2, Checks.str], .value (.scalar .int 4) fun w a => (.num (w.length + 100), w ++ [(1, a)]), false⟩
  | 1 => some ⟨.num 2, [.bool], .void fun w a => w ++ [(2, a)], false⟩
  | _ => none

/-- A client of `exNet` and that server meet the hypotheses about bindings; a call gives what the newer body gives. -/
example :
    nodup (exNewer.map Binding.id) = true ∧
    (∀ i fn, exKnown i = some fn → ∃ b, exNet.bindings[i]? = some b ∧ Declares fn b) ∧
    (∀ i fn, exKnown i = some fn → ∃ b ∈ exNewer, Provides exNet.d exNet.sc fn b) ∧
    (runBetween exNet exNewer [.request true 1 [.num 1], .request true 0 [.num 5, Checks.strV []], .serve, .serve, .response 1,
      .response 0] exStart).1 = [(.ok, none), (.ok, none), (.ok, none), (.ok, none), (.ok, none), (.ok, some (.num 101))] := by
  refine ⟨by decide, ?_, ?_, by decide +kernel⟩
  · intro i fn h
    match i, h with
    | 0, h => cases h; exact ⟨_, rfl, _, rfl, rfl⟩
    | 1, h => cases h; exact ⟨_, rfl, _, rfl, rfl⟩
    | _ + 2, h => cases h
  · intro i fn h
    match i, h with
    | 0, h => cases h; exact ⟨_, List.mem_cons_of_mem _ (List.mem_cons_of_mem _ List.mem_cons_self), rfl⟩
    | 1, h => cases h; exact ⟨_, List.mem_cons_of_mem _ List.mem_cons_self, rfl⟩
    | _ + 2, h => cases h

/-- The arguments of a request the server does not know are taken for the next request. The client asks for function 1 with the
argument 0x0102; a server that has only function 2 refuses it, and serving again calls function 2, which nobody has asked for. -/
theorem C105_unread_arguments :
    let served : List (Binding (List (Nat × List Val))) := [.bind (.num 2) [.bool] (.void fun w a => w ++ [(2, a)])]
    let r := runBetween exNet served [.request true 0 [.num 0x0102, Checks.strV []], .serve, .serve] exStart
    (∀ b ∈ served, b.id ≠ .num 1) ∧
    r.1 = [(.ok, none), (.err .notSupported, none), (.ok, none)] ∧ r.2.world = [(2, [.num 1])] := by
  decide +kernel

/-- The request of `C105_unread_arguments` meets the hypotheses of `C105_not_offered`, the bindings of `exBindings` in another order
with a further one those of `C105_serve`. -/
example :
    let items : List (Ty × Val) := (exNet.idTy, .num 1) :: [Ty.scalar .int 2, Checks.str].zip [Val.num 0x0102, Checks.strV []]
    Supported exNet.cc items ∧ Readable exNet.sc [(exNet.idTy, .num 1)] ∧ StackOk exNet.d items ∧
    wireItems (fmtOf exNet.cc) items = some [1, 2, 1, 0] ∧ BitsOk items ⟨[], 0⟩ ∧ RoomFor exNet.cc.g 0 4 ∧ exNet.b ≠ exNet.a ∧
    (let new := .bind (.num 9) [] (.void fun w _ => w) :: exBindings.reverse
     nodup (exBindings.map Binding.id) = true ∧ nodup (new.map Binding.id) = true ∧ ∀ b ∈ exBindings, b ∈ new) := by
  refine ⟨⟨grow_ok, so_abi, fun _ => ⟨rfl, rfl⟩, ?_⟩, ⟨so_abi, fun _ => ⟨rfl, rfl⟩, ?_, ?_⟩, ?_, by decide +kernel, Or.inl ?_, ?_,
    by decide, by decide, by decide, ?_⟩
  · intro x hx; simp [exNet] at hx; rcases hx with rfl | rfl | rfl <;> rfl
  · intro x hx; simp [exNet] at hx; subst hx; rfl
  · intro x hx; simp [exNet] at hx; subst hx; simp [Loadable]
  · intro x hx; simp [exNet] at hx; rcases hx with rfl | rfl | rfl <;> decide
  · intro x hx; simp [exNet] at hx; rcases hx with rfl | rfl | rfl <;> rfl
  · simp [RoomFor, LimitRoom, MemRoom, exNet, Checks.le, Checks.grow, sizeMax]
  · intro b hb; exact List.mem_cons_of_mem _ (List.mem_reverse.mpr hb)

end Zpp.Props
