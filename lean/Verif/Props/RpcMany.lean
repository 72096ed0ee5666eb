import Verif.Proof.RpcMany
import Verif.Props.RpcVersions
/-! # C106: many clients of one service -/

namespace Zpp.Props
open Zpp Zpp.Spec

/-- C106. Any number of connections, each with a client and a server, of its own bindings, options and format, over its own
buffers, the functions of all servers acting on one world. Take any history of operations, on the connections in any order, that makes
sense on ideal connections, where each has its queues of messages and nothing is encoded. If the objects sent are supported by the
archives and the buffers have room for them, then every operation returns what it returns on the ideal connections, the functions
were called in the same order with the same arguments, and what is left in the buffers of each connection is the encoding of
the messages under way on it. So no client gets the answer of another one. (As in C36, functions that return `errc` send no
response.) -/
theorem C106_many {σ : Type} (ns : Nat → Net σ) (served : Nat → List (Binding σ)) (fns : Nat → Fns σ) (f : Nat → Fmt)
    (ops : List (Nat × NetOp)) (rs : List NetRes) (sent : List (Nat × Chan × Msg)) (w' : σ) (q' : Nat → Queues) (s : ManySt σ)
    (bs : Nat → Chan → List UInt8)
    (hd : ∀ j, 0 < (ns j).d) (hcf : ∀ j, fmtOf (ns j).cc = f j) (hsf : ∀ j, fmtOf (ns j).sc = f j)
    (hids : ∀ j, nodup ((served j).map Binding.id) = true)
    (hclient : ∀ j i fn, fns j i = some fn → ∃ b, (ns j).bindings[i]? = some b ∧ Declares fn b)
    (hserver : ∀ j i fn, fns j i = some fn → ∃ b ∈ served j, Provides (ns j).d (ns j).sc fn b)
    (hrun : IdealMany fns (fun j => (ns j).a) (fun j => (ns j).b) ops s.world (fun _ _ => []) rs sent w' q')
    (hempty : ∀ j k, (s.conn j k).rpos = (s.conn j k).wpos ∧ (s.conn j k).wpos ≤ (s.conn j k).data.length ∧
      (s.conn j k).data.length < 2 ^ 63)
    (hmsgs : ∀ j, ∀ km ∈ sentOver j sent, MsgOk (ns j) (fns j) km.2)
    (hbs : ∀ j k, wireItems (f j) (sentItems (fns j) (ns j).idTy k (sentOver j sent)) = some (bs j k))
    (hl : ∀ j k, (bs j k).length < 2 ^ 63)
    (hbits : ∀ j k, BitsOk (sentItems (fns j) (ns j).idTy k (sentOver j sent)) ⟨(s.conn j k).data, (s.conn j k).wpos⟩)
    (hra : ∀ j, RoomFor (ns j).cc.g (s.conn j (ns j).a).data.length ((s.conn j (ns j).a).wpos + (bs j (ns j).a).length))
    (hrb : ∀ j, RoomFor (ns j).sc.g (s.conn j (ns j).b).data.length ((s.conn j (ns j).b).wpos + (bs j (ns j).b).length)) :
    (manyRun ns served ops s).1 = rs ∧ (manyRun ns served ops s).2.world = w' ∧
    ∀ j k, wireItems (f j) ((q' j k).map (msgItems (fns j) (ns j).idTy)).flatten =
      some ((((manyRun ns served ops s).2.conn j k).data.take ((manyRun ns served ops s).2.conn j k).wpos).drop
        ((manyRun ns served ops s).2.conn j k).rpos) := by
  classical
  let noB : Nat → Chan → Bool := fun j k =>
    decide (∀ x ∈ sentItems (fns j) (ns j).idTy k (sentOver j sent), noBits x.2 = true)
  have hsim : ∀ j, Sim (ns j) (fns j) (f j) (fun _ => []) (s.at j) (noB j) := by
    intro j
    refine ⟨fun k => ⟨(hempty j k).2.1, (hempty j k).2.2, [], rfl, ?_, ?_⟩, by simp, by simp, ?_⟩
    · simp [ManySt.at, (hempty j k).1]
    · simp only [ManySt.at]
      rw [(hempty j k).1]
      exact List.drop_eq_nil_of_le (by rw [List.length_take]; omega)
    · intro k
      rcases hbits j k with h | h
      · exact Or.inl (by simp only [noB, decide_eq_true_eq]; exact h)
      · exact Or.inr h
  obtain ⟨s', e1, e2, e3⟩ := many_sim hd hcf hsf hids hclient hserver hrun rfl hsim hmsgs hbs hl
    (fun j k hb => by simp only [noB, decide_eq_true_eq] at hb; exact hb) hra hrb
  rw [e1]
  refine ⟨rfl, e2, fun j k => ?_⟩
  obtain ⟨b, h1, _, h3⟩ := ((e3 j).holds k).body
  simp only [ManySt.at] at h3
  rw [h3]
  exact h1

/-- C106, arbitrary bytes. Whatever the other connections do and whatever arrives on them: they change nothing of connection `j` but
the world its functions see; its buffers change only by its own operations. -/
theorem C106_isolated {σ : Type} (ns : Nat → Net σ) (served : Nat → List (Binding σ)) (ops : List (Nat × NetOp)) (s : ManySt σ)
    (j : Nat) (h : ∀ x ∈ ops, x.1 ≠ j) : (manyRun ns served ops s).2.conn j = s.conn j := by
  induction ops generalizing s with
  | nil => rfl
  | cons x ops ih =>
    obtain ⟨j', op⟩ := x
    simp only [manyRun]
    rw [ih _ fun y hy => h y (List.mem_cons_of_mem _ hy)]
    have : ¬ j = j' := fun e => h (j', op) List.mem_cons_self e.symm
    simp only [manyStep, if_neg this]

/-- Two clients of `exBindings` ask for function 1, which returns how often it was called; their requests are served in the other
order. The run on ideal connections, and the run. -/
example :
    let ops : List (Nat × NetOp) := [(0, .request true 0 [.num 5, Checks.strV []]), (1, .request true 0 [.num 6, Checks.strV []]),
      (1, .serve), (0, .serve), (0, .response 0), (1, .response 0)]
    let rs : List NetRes := [(.ok, none), (.ok, none), (.ok, none), (.ok, none), (.ok, some (.num 2)), (.ok, some (.num 1))]
    (∃ sent q', IdealMany (fun _ => boundFns exBindings) (fun _ => exNet.a) (fun _ => exNet.b) ops [] (fun _ _ => []) rs sent
      [(1, [.num 6, Checks.strV []]), (1, [.num 5, Checks.strV []])] q') ∧
    (manyRun (fun _ => exNet) (fun _ => exBindings) ops ⟨[], fun _ => exStart.buf⟩).1 = rs ∧
    (manyRun (fun _ => exNet) (fun _ => exBindings) ops ⟨[], fun _ => exStart.buf⟩).2.world =
      [(1, [.num 6, Checks.strV []]), (1, [.num 5, Checks.strV []])] := by
  refine ⟨?_, by decide +kernel, by decide +kernel⟩
  let fn : Fn (List (Nat × List Val)) := ⟨.num 1, [.scalar .int 2, Checks.str],
    .value (.scalar .int 4) fun w a => (.num (w.length + 1), w ++ [(1, a)]), false⟩
  have hfn : boundFns exBindings 0 = some fn := rfl
  refine ⟨_, _, .step (.request (fn := fn) hfn rfl) (.step (.request (fn := fn) hfn rfl)
    (.step (.serve (fn := fn) (i := 0) (args := [.num 6, Checks.strV []]) (rest := []) hfn rfl)
    (.step (.serve (fn := fn) (i := 0) (args := [.num 5, Checks.strV []]) (rest := []) hfn rfl)
    (.step (.response (fn := fn) (rest := []) hfn rfl rfl) (.step (.response (fn := fn) (rest := []) hfn rfl rfl) (.done _ _))))))⟩

end Zpp.Props
