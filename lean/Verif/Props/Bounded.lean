import Verif.Proof.Bounded
/-! # C110: a fixed buffer as a queue of limited size -/

namespace Zpp.Props
open Zpp Zpp.Spec

/-- C110. A fixed buffer with an input and an output archive, used as a queue by a program that takes back failed output calls and moves the unread bytes to
the beginning when there is no room behind them. Start with any objects `q` encoded between the two positions (nothing, for fresh archives). Take any history on a
queue that holds what takes as many bytes as the buffer has: then the program gives the same answers. In particular it stores objects exactly if they fit together
with those not yet taken out, a refused `put` changes nothing, and objects come out as they went in, in order. Afterwards the encoding of the objects left stands between
the positions. What failed calls and earlier objects left in the buffer does not matter. -/
theorem C110_bounded (d : Nat) (c : Cfg) (noFit : Bool) (ops : List QueueOp) (rs : List QueueRes) (q q' : List (Ty × Val)) (x : Duplex)
    (b : List UInt8) (hfix : c.g.resizable = false) (hpos : x.wpos ≤ x.data.length) (hlen : x.data.length < 2 ^ 63)
    (hb : wireItems (fmtOf c) q = some b) (hbl : x.rpos + b.length = x.wpos) (hbd : (x.data.take x.wpos).drop x.rpos = b)
    (hrun : Bounded (fmtOf c) x.data.length q ops rs q')
    (hs : Supported c (offered ops)) (hr : Readable c (q ++ offered ops)) (hd : StackOk d (q ++ offered ops))
    (hbits : ∀ y ∈ offered ops, noBits y.2 = true) :
    let r := queueRun d c noFit ops x
    r.1 = rs ∧ wireItems (fmtOf c) q' = some ((r.2.data.take r.2.wpos).drop r.2.rpos) ∧ r.2.data.length = x.data.length := by
  obtain ⟨h1, h2, h3⟩ := bounded_run (d := d) (noFit := noFit) hfix hrun rfl ⟨hpos, hlen, b, hb, hbl, hbd⟩ hs hr hd hbits
  obtain ⟨b', hb', _, h4⟩ := h2.body
  exact ⟨h1, by rw [h4]; exact hb', h3⟩

/-- The objects a history stores, in order. -/
def storedItems : List QueueOp → List QueueRes → List (Ty × Val)
  | .put items :: ops, .stored :: rs => items ++ storedItems ops rs
  | _ :: ops, _ :: rs => storedItems ops rs
  | _, _ => []

/-- The objects a history takes out, in order. -/
def takenVals : List QueueRes → List Val
  | .got vs :: rs => vs ++ takenVals rs
  | _ :: rs => takenVals rs
  | [] => []

/-- C110: what a queue is. The objects taken out, followed by those left, are the objects there at the start followed by those stored, in order: nothing is lost,
doubled or overtaken, and what was refused never shows up. -/
theorem C110_order (f : Fmt) (room : Nat) (ops : List QueueOp) (rs : List QueueRes) (q q' : List (Ty × Val)) (h : Bounded f room q ops rs q') :
    takenVals rs ++ q'.map Prod.snd = (q ++ storedItems ops rs).map Prod.snd := by
  induction h with
  | done q => simp [storedItems, takenVals]
  | stored _ _ _ ih => simpa [storedItems, takenVals] using ih
  | full _ _ _ _ ih => simpa [storedItems, takenVals] using ih
  | got _ _ ih => simp only [storedItems, takenVals, List.append_assoc, ih, List.map_append]

/-- A queue of 8 bytes: the third string is refused, then fits after the first one has been taken out, and is stored by moving the second one to the
beginning. -/
example :
    let c := Checks.le Checks.fixed (.fixed 1)
    let s1 : List (Ty × Val) := [(Checks.str, Checks.strV [65, 66])]
    let s2 : List (Ty × Val) := [(Checks.str, Checks.strV [67, 68])]
    let s3 : List (Ty × Val) := [(Checks.str, Checks.strV [69, 70, 71])]
    let ops : List QueueOp := [.put s1, .put s2, .put s3, .get [(Checks.str, .list [])], .put s3, .get [(Checks.str, .list [])]]
    let rs : List QueueRes := [.stored, .stored, .full, .got [Checks.strV [65, 66]], .stored, .got [Checks.strV [67, 68]]]
    Bounded (fmtOf c) 8 [] ops rs s3 ∧ Supported c (offered ops) ∧ Readable c (offered ops) ∧ StackOk 9 (offered ops) ∧
    (∀ y ∈ offered ops, noBits y.2 = true) ∧
    queueRun 9 c false ops ⟨[7, 7, 7, 7, 7, 7, 7, 7], 0, 0⟩ = (rs, ⟨[2, 67, 68, 3, 69, 70, 71, 7], 7, 3⟩) := by
  refine ⟨?_, ⟨(fun h => nomatch h), so_abi, fun _ => ⟨rfl, rfl⟩, ?_⟩, ⟨so_abi, fun _ => ⟨rfl, rfl⟩, ?_, ?_⟩, ?_, ?_, by decide +kernel⟩
  · exact .stored (bs := [2, 65, 66]) (by decide +kernel) (by decide) (.stored (bs := [2, 65, 66, 2, 67, 68]) (by decide +kernel) (by decide)
      (.full (bs := [2, 65, 66, 2, 67, 68, 3, 69, 70, 71]) (by decide +kernel) (by decide) (by decide)
      (.got (front := [(Checks.str, Checks.strV [65, 66])]) (rest := [(Checks.str, Checks.strV [67, 68])]) rfl
      (.stored (bs := [2, 67, 68, 3, 69, 70, 71]) (by decide +kernel) (by decide)
      (.got (front := [(Checks.str, Checks.strV [67, 68])]) (rest := [(Checks.str, Checks.strV [69, 70, 71])]) rfl (.done _))))))
  all_goals
    intro x hx
    simp [offered] at hx
    rcases hx with rfl | rfl | rfl
    all_goals first
      | rfl
      | decide
      | (simp [Loadable, LoadableL, Checks.str, Checks.strV, Fits, Checks.le, Checks.fixed, Checks.so, Checks.chr])

/-- The position has to be set back: a program that goes on after a failed output call leaves a part of the refused object in the queue, here its size, and the next
object is read as its content. -/
example :
    let c := Checks.le Checks.fixed (.fixed 1)
    let x : Duplex := ⟨[7, 7, 7, 7], 0, 0⟩
    (Duplex.run 9 c false [.write [(Checks.str, Checks.strV [65, 66, 67, 68])], .write [(.scalar .int 1, .num 9)],
      .read [(.scalar .int 1, .num 0)]] x).1 = [(.err .resultOutOfRange, []), (.ok, []), (.ok, [.num 4])] := by decide +kernel

end Zpp.Props
