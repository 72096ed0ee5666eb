import Verif.Model.RpcShared
import Verif.Spec.RpcVersions
/-!
# Specification: several services over the same ideal queues

A queue carries the messages of all services, each with the number of the service it belongs to. There are no bytes.
-/

namespace Zpp.Spec

/-- The messages waiting in each buffer, with their services. -/
abbrev SharedQueues := Chan → List (Nat × Msg)

/-- Append messages to the queue `k`. -/
def sharedPush (k : Chan) (ms : List (Nat × Msg)) (q : SharedQueues) : SharedQueues := fun k' => if k' = k then q k' ++ ms else q k'

/-- Replace the queue `k`. -/
def sharedSet (k : Chan) (ms : List (Nat × Msg)) (q : SharedQueues) : SharedQueues := fun k' => if k' = k then ms else q k'

/-- One operation of service `j` (`IdealStep` for queues that are shared). `fns j` are its functions, `a j` and `b j` its queues of requests and
responses. A server only serves if a request of its service is next, a client only asks for a response if that response, of its service, is next. -/
inductive SharedStep {σ : Type} (fns : Nat → Fns σ) (a b : Nat → Chan) (j : Nat) :
    NetOp → σ → SharedQueues → NetRes → List (Chan × Nat × Msg) → σ → SharedQueues → Prop
  | request {withId : Bool} {i : Nat} {args : List Val} {fn : Fn σ} {w : σ} {q : SharedQueues} :
      fns j i = some fn → args.length = fn.params.length →
      SharedStep fns a b j (askFor fn withId i args) w q (.ok, none) [(a j, j, .req withId i args)] w
        (sharedPush (a j) [(j, .req withId i args)] q)
  | serve {i : Nat} {args : List Val} {fn : Fn σ} {w : σ} {q : SharedQueues} {rest : List (Nat × Msg)} :
      fns j i = some fn → q (a j) = (j, .req true i args) :: rest →
      SharedStep fns a b j .serve w q ((idealCall i fn.body w args).1, none)
        ((idealCall i fn.body w args).2.2.map fun m => (b j, j, m)) (idealCall i fn.body w args).2.1
        (sharedPush (b j) ((idealCall i fn.body w args).2.2.map fun m => (j, m)) (sharedSet (a j) rest q))
  | serveId {i : Nat} {args : List Val} {fn : Fn σ} {w : σ} {q : SharedQueues} {rest : List (Nat × Msg)} :
      fns j i = some fn → q (a j) = (j, .req false i args) :: rest →
      SharedStep fns a b j (.serveId i) w q ((idealCall i fn.body w args).1, none)
        ((idealCall i fn.body w args).2.2.map fun m => (b j, j, m)) (idealCall i fn.body w args).2.1
        (sharedPush (b j) ((idealCall i fn.body w args).2.2.map fun m => (j, m)) (sharedSet (a j) rest q))
  | response {i : Nat} {v : Val} {fn : Fn σ} {t : Ty} {f : σ → List Val → Val × σ} {w : σ} {q : SharedQueues}
      {rest : List (Nat × Msg)} : fns j i = some fn → fn.body = .value t f → q (b j) = (j, .resp i v) :: rest →
      SharedStep fns a b j (.response i) w q (.ok, some v) [] w (sharedSet (b j) rest q)
  | responseVoid {i : Nat} {fn : Fn σ} {f : σ → List Val → σ} {w : σ} {q : SharedQueues} :
      fns j i = some fn → fn.body = .void f → SharedStep fns a b j (.response i) w q (.ok, none) [] w q

/-- A history on the ideal queues: operations with their services, what the callers see, and all messages sent. -/
inductive IdealShared {σ : Type} (fns : Nat → Fns σ) (a b : Nat → Chan) :
    List (Nat × NetOp) → σ → SharedQueues → List NetRes → List (Chan × Nat × Msg) → σ → SharedQueues → Prop
  | done (w : σ) (q : SharedQueues) : IdealShared fns a b [] w q [] [] w q
  | step {j : Nat} {op : NetOp} {ops : List (Nat × NetOp)} {w w1 w2 : σ} {q q1 q2 : SharedQueues} {r : NetRes} {rs : List NetRes}
      {s ss : List (Chan × Nat × Msg)} : SharedStep fns a b j op w q r s w1 q1 →
      IdealShared fns a b ops w1 q1 rs ss w2 q2 → IdealShared fns a b ((j, op) :: ops) w q (r :: rs) (s ++ ss) w2 q2

/-- The objects of messages of several services; service `j` has the functions `fns j` and ids of type `idTy j`. -/
def sharedItems {σ : Type} (fns : Nat → Fns σ) (idTy : Nat → Ty) (ms : List (Nat × Msg)) : List (Ty × Val) :=
  (ms.map fun m => msgItems (fns m.1) (idTy m.1) m.2).flatten

/-- The messages sent through the buffer `k`, in order. -/
def sentThrough (k : Chan) (sent : List (Chan × Nat × Msg)) : List (Nat × Msg) :=
  (sent.filter fun m => m.1 = k).map Prod.snd

end Zpp.Spec
