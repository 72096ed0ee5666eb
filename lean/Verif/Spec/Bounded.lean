import Verif.Spec.Queue
/-!
# Specification: a queue of objects in a buffer of limited size

A program uses an input and an output archive over one fixed buffer (`in_out`, zpp_bits.h:3155-3162) as a queue. It puts objects in by an output call. If they do not
fit behind the position, it sets the position back, moves the bytes that are still to be read to the beginning of the buffer, sets both positions
accordingly (`position()` of the archives, 1940-1943 and 2547-2550), and tries again. If that fails too, it sets the position back and reports that the queue is full.
-/

namespace Zpp.Spec

/-- What the program is asked to do. -/
inductive QueueOp
  | put (items : List (Ty × Val))
  | get (dests : List (Ty × Val))

/-- What it answers. `broken`: an archive reported another error, or worse. -/
inductive QueueRes
  | stored
  | full
  | got (vs : List Val)
  | broken
deriving DecidableEq

/-- `memmove` of the unread bytes to the beginning of the buffer; the bytes behind them stay what they were. -/
def compact (x : Duplex) : Duplex :=
  ⟨(x.data.take x.wpos).drop x.rpos ++ x.data.drop (x.wpos - x.rpos), x.wpos - x.rpos, 0⟩

/-- Put objects in. -/
def queuePut (d : Nat) (c : Cfg) (noFit : Bool) (items : List (Ty × Val)) (x : Duplex) : QueueRes × Duplex :=
  match x.write d c noFit items with
  | (.ok, y) => (.stored, y)
  | (.err .resultOutOfRange, y) =>
    let z := compact { y with wpos := x.wpos }
    match z.write d c noFit items with
    | (.ok, y') => (.stored, y')
    | (.err .resultOutOfRange, y') => (.full, { y' with wpos := z.wpos })
    | (_, y') => (.broken, y')
  | (_, y) => (.broken, y)

/-- Take objects out. -/
def queueGet (d : Nat) (c : Cfg) (dests : List (Ty × Val)) (x : Duplex) : QueueRes × Duplex :=
  match x.read d c dests with
  | (.ok, vs, y) => (.got vs, y)
  | (_, _, y) => (.broken, y)

/-- A history. -/
def queueRun (d : Nat) (c : Cfg) (noFit : Bool) : List QueueOp → Duplex → List QueueRes × Duplex
  | [], x => ([], x)
  | .put items :: ops, x =>
    let r := queuePut d c noFit items x
    let rs := queueRun d c noFit ops r.2
    (r.1 :: rs.1, rs.2)
  | .get dests :: ops, x =>
    let r := queueGet d c dests x
    let rs := queueRun d c noFit ops r.2
    (r.1 :: rs.1, rs.2)

/-- `Bounded f room q ops rs q'`: the history on a queue of objects that holds as much as takes `room` bytes in the format `f`. Objects are stored
exactly if they and those that are still in the queue take no more; otherwise nothing changes. Objects are taken out in order, by asking for the types at the
front of the queue. -/
inductive Bounded (f : Fmt) (room : Nat) : List (Ty × Val) → List QueueOp → List QueueRes → List (Ty × Val) → Prop
  | done (q : List (Ty × Val)) : Bounded f room q [] [] q
  | stored {q q' items : List (Ty × Val)} {ops : List QueueOp} {rs : List QueueRes} {bs : List UInt8} :
      wireItems f (q ++ items) = some bs → bs.length ≤ room → Bounded f room (q ++ items) ops rs q' →
      Bounded f room q (.put items :: ops) (.stored :: rs) q'
  | full {q q' items : List (Ty × Val)} {ops : List QueueOp} {rs : List QueueRes} {bs : List UInt8} :
      wireItems f (q ++ items) = some bs → room < bs.length → bs.length < 2 ^ 63 → Bounded f room q ops rs q' →
      Bounded f room q (.put items :: ops) (.full :: rs) q'
  | got {front rest q' dests : List (Ty × Val)} {ops : List QueueOp} {rs : List QueueRes} :
      dests.map Prod.fst = front.map Prod.fst → Bounded f room rest ops rs q' →
      Bounded f room (front ++ rest) (.get dests :: ops) (.got (front.map Prod.snd) :: rs) q'

/-- All objects a history tries to put in. -/
def offered : List QueueOp → List (Ty × Val)
  | [] => []
  | .put items :: ops => items ++ offered ops
  | .get _ :: ops => offered ops

end Zpp.Spec
