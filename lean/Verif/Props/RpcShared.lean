import Verif.Proof.RpcShared
import Verif.Props.RpcVersions
/-! # C108: several services over the same archives; peers that call each other -/

namespace Zpp.Props
open Zpp Zpp.Spec

/-- C108. Clients and servers of several services over the same two buffers: each service `j` says which buffer its requests and which one its
responses go through, so two peers may call each other (`a 0 = b 1` and `b 0 = a 1`), or share both directions, or use one buffer for everything. Take any
history of operations, of the services in any order, that makes sense on ideal queues, where the messages of all services line up and nothing is
encoded: a server serves when a request of its service is next, a client asks for a response when that response is next. If the objects sent
are supported by the archives and the buffers have room for them, then every operation returns what it returns on the ideal queues, the
functions were called in the same order with the same arguments, and what is left in each buffer is the encoding of the messages
under way in it. (As in C36, functions that return `errc` send no response.) -/
theorem C108_shared {σ : Type} (ns : Nat → Net σ) (served : Nat → List (Binding σ)) (fns : Nat → Fns σ) (f : Fmt)
    (ops : List (Nat × NetOp)) (rs : List NetRes) (sent : List (Chan × Nat × Msg)) (w' : σ) (q' : SharedQueues) (s : NetSt σ)
    (bs : Chan → List UInt8)
    (hd : ∀ j, 0 < (ns j).d) (hcf : ∀ j, fmtOf (ns j).cc = f) (hsf : ∀ j, fmtOf (ns j).sc = f)
    (hids : ∀ j, nodup ((served j).map Binding.id) = true)
    (hclient : ∀ j i fn, fns j i = some fn → ∃ b, (ns j).bindings[i]? = some b ∧ Declares fn b)
    (hserver : ∀ j i fn, fns j i = some fn → ∃ b ∈ served j, Provides (ns j).d (ns j).sc fn b)
    (hrun : IdealShared fns (fun j => (ns j).a) (fun j => (ns j).b) ops s.world (fun _ => []) rs sent w' q')
    (hempty : ∀ k, (s.buf k).rpos = (s.buf k).wpos ∧ (s.buf k).wpos ≤ (s.buf k).data.length ∧ (s.buf k).data.length < 2 ^ 63)
    (hmsgs : ∀ km ∈ sent, MsgOk (ns km.2.1) (fns km.2.1) km.2.2)
    (hbs : ∀ k, wireItems f (sharedItems fns (fun j => (ns j).idTy) (sentThrough k sent)) = some (bs k))
    (hl : ∀ k, (bs k).length < 2 ^ 63)
    (hbits : ∀ k, BitsOk (sharedItems fns (fun j => (ns j).idTy) (sentThrough k sent)) ⟨(s.buf k).data, (s.buf k).wpos⟩)
    (hra : ∀ j, RoomFor (ns j).cc.g (s.buf (ns j).a).data.length ((s.buf (ns j).a).wpos + (bs (ns j).a).length))
    (hrb : ∀ j, RoomFor (ns j).sc.g (s.buf (ns j).b).data.length ((s.buf (ns j).b).wpos + (bs (ns j).b).length)) :
    (sharedRun ns served ops s).1 = rs ∧ (sharedRun ns served ops s).2.world = w' ∧
    ∀ k, wireItems f (sharedItems fns (fun j => (ns j).idTy) (q' k)) =
      some ((((sharedRun ns served ops s).2.buf k).data.take ((sharedRun ns served ops s).2.buf k).wpos).drop
        ((sharedRun ns served ops s).2.buf k).rpos) := by
  classical
  let noB : Chan → Bool := fun k =>
    decide (∀ x ∈ sharedItems fns (fun j => (ns j).idTy) (sentThrough k sent), noBits x.2 = true)
  have hsim : SSim ns fns f (fun _ => []) s noB := by
    refine ⟨fun k => ⟨(hempty k).2.1, (hempty k).2.2, [], rfl, ?_, ?_⟩, by simp, by simp, ?_⟩
    · simp [(hempty k).1]
    · rw [(hempty k).1]
      exact List.drop_eq_nil_of_le (by rw [List.length_take]; omega)
    · intro k
      rcases hbits k with h | h
      · exact Or.inl (by simp only [noB, decide_eq_true_eq]; exact h)
      · exact Or.inr h
  obtain ⟨s', e1, e2, e3⟩ := sharedRun_sim hd hcf hsf hids hclient hserver hrun rfl hsim hmsgs hbs hl
    (fun k hb => by simp only [noB, decide_eq_true_eq] at hb; exact hb) hra hrb
  rw [e1]
  refine ⟨rfl, e2, fun k => ?_⟩
  obtain ⟨b, h1, _, h3⟩ := (e3.holds k).body
  rw [h3]
  exact h1

/-- Two peers, each with `client_server` of `exBindings`: what one of them writes to, the other one reads from. -/
def exPeers : Nat → Net (List (Nat × List Val))
  | 1 => { exNet with a := .two, b := .one }
  | _ => exNet

/-- Both peers ask for function 1, which returns how often it was called. Each of them has to serve the request of the other before its own
response is next. The run on ideal queues, and the run. -/
example :
    let ops : List (Nat × NetOp) := [(0, .request true 0 [.num 5, Checks.strV []]), (1, .request true 0 [.num 6, Checks.strV []]),
      (0, .serve), (1, .serve), (0, .response 0), (1, .response 0)]
    let rs : List NetRes := [(.ok, none), (.ok, none), (.ok, none), (.ok, none), (.ok, some (.num 1)), (.ok, some (.num 2))]
    let w : List (Nat × List Val) := [(1, [.num 5, Checks.strV []]), (1, [.num 6, Checks.strV []])]
    (∃ sent q', IdealShared (fun _ => boundFns exBindings) (fun j => (exPeers j).a) (fun j => (exPeers j).b) ops [] (fun _ => [])
      rs sent w q' ∧ ∀ k, q' k = []) ∧
    (sharedRun exPeers (fun _ => exBindings) ops exStart).1 = rs ∧
    (sharedRun exPeers (fun _ => exBindings) ops exStart).2.world = w := by
  refine ⟨?_, by decide +kernel, by decide +kernel⟩
  let fn : Fn (List (Nat × List Val)) := ⟨.num 1, [.scalar .int 2, Checks.str],
    .value (.scalar .int 4) fun w a => (.num (w.length + 1), w ++ [(1, a)]), false⟩
  have hfn : boundFns exBindings 0 = some fn := rfl
  refine ⟨_, _, .step (.request (fn := fn) hfn rfl) (.step (.request (fn := fn) hfn rfl)
    (.step (.serve (fn := fn) (i := 0) (args := [.num 5, Checks.strV []]) (rest := []) hfn rfl)
    (.step (.serve (fn := fn) (i := 0) (args := [.num 6, Checks.strV []]) (rest := [(0, .resp 0 (.num 1))]) hfn rfl)
    (.step (.response (fn := fn) (v := .num 1) (rest := []) hfn rfl rfl)
    (.step (.response (fn := fn) (v := .num 2) (rest := []) hfn rfl rfl) (.done _ _)))))), ?_⟩
  intro k
  cases k <;> rfl

/-- The messages of this history meet the other hypotheses of `C108_shared`. -/
example :
    let sent : List (Chan × Nat × Msg) := [(.one, 0, .req true 0 [.num 5, Checks.strV []]), (.two, 1, .req true 0 [.num 6, Checks.strV []]),
      (.two, 0, .resp 0 (.num 1)), (.one, 1, .resp 0 (.num 2))]
    let bs : Chan → List UInt8 := fun k => if k = .one then [1, 5, 0, 0, 2, 0, 0, 0] else [1, 6, 0, 0, 1, 0, 0, 0]
    (∀ j i fn, boundFns exBindings i = some fn → ∃ b, (exPeers j).bindings[i]? = some b ∧ Declares fn b) ∧
    (∀ j i fn, boundFns exBindings i = some fn → ∃ b ∈ exBindings, Provides (exPeers j).d (exPeers j).sc fn b) ∧
    (∀ km ∈ sent, MsgOk (exPeers km.2.1) (boundFns exBindings) km.2.2) ∧
    (∀ k, wireItems (fmtOf exNet.cc) (sharedItems (fun _ => boundFns exBindings) (fun j => (exPeers j).idTy) (sentThrough k sent)) = some (bs k)) ∧
    RoomFor exNet.cc.g 0 8 := by
  have hreq : ∀ j : Nat, j = 0 ∨ j = 1 → ∀ v : Nat, v = 5 ∨ v = 6 → MsgOk (exPeers j) (boundFns exBindings) (.req true 0 [.num v, Checks.strV []]) := by
    intro j hj v hv
    refine ⟨?_, ⟨?_, ?_, ?_, ?_⟩, ⟨?_, ?_, ?_, ?_⟩⟩ <;> rcases hj with rfl | rfl <;> rcases hv with rfl | rfl
    all_goals first
      | exact grow_ok | exact so_abi | exact fun _ => ⟨rfl, rfl⟩
      | (intro x hx; simp [msgItems, boundFns, exPeers, exNet, exBindings] at hx; rcases hx with rfl | rfl | rfl <;> first | decide | rfl)
      | (intro x hx
         simp [msgItems, boundFns, exPeers, exNet, exBindings] at hx
         rcases hx with rfl | rfl | rfl <;>
           simp [Loadable, LoadableL, Checks.str, Checks.strV, Fits, exPeers, exNet, Checks.le, Checks.grow, Checks.so, Checks.chr])
  have hresp : ∀ j : Nat, j = 0 ∨ j = 1 → ∀ v : Nat, v = 1 ∨ v = 2 → MsgOk (exPeers j) (boundFns exBindings) (.resp 0 (.num v)) := by
    intro j hj v hv
    refine ⟨?_, ⟨?_, ?_, ?_, ?_⟩, ⟨?_, ?_, ?_, ?_⟩⟩ <;> rcases hj with rfl | rfl <;> rcases hv with rfl | rfl
    all_goals first
      | exact grow_ok | exact so_abi | exact fun _ => ⟨rfl, rfl⟩
      | (intro x hx; simp [msgItems, boundFns, exBindings] at hx; subst hx; first | decide | rfl)
      | (intro x hx; simp [msgItems, boundFns, exBindings] at hx; subst hx; simp [Loadable])
  refine ⟨?_, ?_, ?_, ?_, ?_⟩
  · intro j i fn h
    obtain ⟨b, h1, h2⟩ := boundFns_provides (d := 21) (c := exNet.sc) h
    refine ⟨b, ?_, h2.declares⟩
    unfold exPeers
    split <;> exact h1
  · intro j i fn h
    obtain ⟨b, h1, h2⟩ := boundFns_provides (d := (exPeers j).d) (c := (exPeers j).sc) h
    exact ⟨b, List.mem_of_getElem? h1, h2⟩
  · intro km hk
    simp only [List.mem_cons, List.not_mem_nil, or_false] at hk
    rcases hk with rfl | rfl | rfl | rfl
    · exact hreq 0 (.inl rfl) 5 (.inl rfl)
    · exact hreq 1 (.inr rfl) 6 (.inr rfl)
    · exact hresp 0 (.inl rfl) 1 (.inl rfl)
    · exact hresp 1 (.inr rfl) 2 (.inr rfl)
  · intro k; cases k <;> decide +kernel
  · simp [RoomFor, LimitRoom, MemRoom, exNet, Checks.le, Checks.grow, sizeMax]

/-- The condition on the order is needed: messages do not say whether they are requests or responses, so a peer that asks for its response while
the request of the other one is next takes that request for the response, and reports success. -/
example : (sharedRun exPeers (fun _ => exBindings) [(0, .request true 0 [.num 5, Checks.strV []]),
      (1, .request true 0 [.num 6, Checks.strV []]), (0, .serve), (0, .response 0)] exStart).1 =
    [(.ok, none), (.ok, none), (.ok, none), (.ok, some (.num 1537))] := by decide +kernel

end Zpp.Props
