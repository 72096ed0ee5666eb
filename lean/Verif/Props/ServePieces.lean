import Verif.Proof.ServePieces
import Verif.Props.Rpc
/-!
# C111: a server that receives its requests in pieces
-/

namespace Zpp.Props
open Spec

/-- C111. Requests with the encodings `bss` for functions bound by `bind` arrive in pieces, cut in any way. The program, which serves until `serve` reports
`result_out_of_range` and then sets the position back, has at any moment called the functions of exactly the requests that are complete by then, each once, in
order and with the arguments sent: the world, the results of `serve` and the bytes of the replies are those of calling the functions directly, and it holds
exactly the bytes behind the last complete request. The ids are not empty, no function returns `result_out_of_range` itself, and there is room for the
replies. -/
theorem C111_pieces {σ : Type} (d : Nat) (c : Cfg) (noFit : Bool) (idTy : Ty) (bindings : List (Binding σ)) (reqs : List (Nat × List Val))
    (bss : List (List UInt8)) (pieces : List (Bool × List UInt8)) (w : σ) (o : OutSt) (br : List UInt8)
    (hn : nodup (bindings.map Binding.id) = true) (hasks : Asks (boundFns bindings) reqs)
    (hr : Receivable d c (reqs.map fun r => msgItems (boundFns bindings) idTy (.req true r.1 r.2)))
    (hw : (reqs.map fun r => wireItems (fmtOf c) (msgItems (boundFns bindings) idTy (.req true r.1 r.2))) = bss.map some)
    (hid : ∃ v b, Receivable d c [[(idTy, v)]] ∧ wireItems (fmtOf c) [(idTy, v)] = some b ∧ b ≠ [] ∧ b.length < 2 ^ 63)
    (hpieces : pieces ≠ []) (harrived : (pieces.map Prod.snd).flatten <+: bss.flatten) (hlen : bss.flatten.length < 2 ^ 63)
    (hcodes : Status.err .resultOutOfRange ∉ (callAll (boundFns bindings) reqs w).1)
    (hs : Supported c (callAll (boundFns bindings) reqs w).2.2) (hd : StackOk (d + 1) (callAll (boundFns bindings) reqs w).2.2)
    (hbits : BitsOk (callAll (boundFns bindings) reqs w).2.2 o) (hbr : wireItems (fmtOf c) (callAll (boundFns bindings) reqs w).2.2 = some br)
    (hbl : br.length < 2 ^ 63) (hpos : o.pos ≤ o.data.length) (holen : o.data.length < 2 ^ 63) (hroom : RoomFor c.g o.data.length (o.pos + br.length)) :
    let arrived := (pieces.map Prod.snd).flatten
    let k := complete bss arrived.length
    let direct := callAll (boundFns bindings) (reqs.take k) w
    ∃ x, servePieces (d + 1) c noFit idTy bindings pieces ⟨[], 0, w, o, []⟩ = some x ∧ x.log = direct.1 ∧ x.world = direct.2.1 ∧
      x.data.drop x.pos = arrived.drop (bss.take k).flatten.length ∧
      wireItems (fmtOf c) direct.2.2 = some ((x.out.data.take x.out.pos).drop o.pos) := by
  obtain ⟨v0, b0, hr0, hw0, hb0, hbl0⟩ := hid
  obtain ⟨x, h1, h2, h3, h4, h5⟩ := servePieces_spec (noFit := noFit) hn hr0 hw0 hb0 hbl0 (rpos := o.pos) pieces reqs bss ⟨[], 0, w, o, []⟩ []
    hasks hr hw (Nat.zero_le _) (by simpa using harrived) (by simpa using hlen) (fun h => absurd h hpieces)
    ⟨⟨hpos, holen, [], rfl, rfl, by simp⟩, hs, hd, hbits, ⟨br, hbr, hbl, hroom⟩, hcodes⟩
  obtain ⟨b, e1, -, e2⟩ := h5.holds.body
  simp only [List.drop_nil, List.nil_append] at h2 h3 h4 e1 e2
  exact ⟨x, h1, h2, h3, h4, by rw [e1, e2]⟩

theorem singles_wire {f : Fmt} : ∀ {items : List (Ty × Val)} {b : List UInt8}, wireItems f items = some b →
    ∃ bs : List (List UInt8), (items.map fun it => [it]).map (wireItems f) = bs.map some ∧ bs.flatten = b
  | [], b, h => ⟨[], rfl, by cases h; rfl⟩
  | it :: items, b, h => by
    obtain ⟨b1, b2, h1, h2, rfl⟩ := wireItems_append (xs := [it]) h
    obtain ⟨bs, h3, rfl⟩ := singles_wire h2
    exact ⟨b1 :: bs, by rw [List.map_cons, List.map_cons, h1, h3, List.map_cons], rfl⟩

/-- C111, from end to end: remote calls over a stream of bytes. A client writes requests with one output call each. The bytes are carried to the server in
pieces, cut in any way, and the bytes of the replies are carried back in pieces, cut in any way. The functions have been called as if directly, and the client's
receiving program (C96) has exactly the results of the functions, in order. -/
theorem C111_stream {σ : Type} (d dw dr : Nat) (cw c cr : Cfg) (noFit noFit' : Bool) (idTy : Ty) (bindings : List (Binding σ))
    (reqs : List (Nat × List Val)) (bss : List (List UInt8)) (st st' : OutSt) (there back : List (Bool × List UInt8)) (wanted : List (List (Ty × Val)))
    (w : σ) (o : OutSt) (br : List UInt8) (hfw : fmtOf c = fmtOf cw) (hfr : fmtOf cr = fmtOf c)
    (hn : nodup (bindings.map Binding.id) = true) (hasks : Asks (boundFns bindings) reqs)
    -- the client's output
    (hstpos : st.pos ≤ st.data.length) (hstlen : st.data.length < 2 ^ 63)
    (hsw : Supported cw (reqs.map fun r => msgItems (boundFns bindings) idTy (.req true r.1 r.2)).flatten)
    (hdw : StackOk dw (reqs.map fun r => msgItems (boundFns bindings) idTy (.req true r.1 r.2)).flatten)
    (hbw : BitsOk (reqs.map fun r => msgItems (boundFns bindings) idTy (.req true r.1 r.2)).flatten st)
    (hok : outCalls dw cw noFit' (reqs.map fun r => msgItems (boundFns bindings) idTy (.req true r.1 r.2)) st = (.ok, st'))
    (hthere : there ≠ []) (hcarried : (there.map Prod.snd).flatten = (st'.data.take st'.pos).drop st.pos)
    -- the server
    (hr : Receivable d c (reqs.map fun r => msgItems (boundFns bindings) idTy (.req true r.1 r.2)))
    (hw : (reqs.map fun r => wireItems (fmtOf c) (msgItems (boundFns bindings) idTy (.req true r.1 r.2))) = bss.map some)
    (hid : ∃ v b, Receivable d c [[(idTy, v)]] ∧ wireItems (fmtOf c) [(idTy, v)] = some b ∧ b ≠ [] ∧ b.length < 2 ^ 63)
    (hlen : bss.flatten.length < 2 ^ 63)
    (hcodes : Status.err .resultOutOfRange ∉ (callAll (boundFns bindings) reqs w).1)
    (hs : Supported c (callAll (boundFns bindings) reqs w).2.2) (hd : StackOk (d + 1) (callAll (boundFns bindings) reqs w).2.2)
    (hbits : BitsOk (callAll (boundFns bindings) reqs w).2.2 o) (hbr : wireItems (fmtOf c) (callAll (boundFns bindings) reqs w).2.2 = some br)
    (hbl : br.length < 2 ^ 63) (hpos : o.pos ≤ o.data.length) (holen : o.data.length < 2 ^ 63) (hroom : RoomFor c.g o.data.length (o.pos + br.length))
    -- the client's input
    (hrr : Receivable dr cr ((callAll (boundFns bindings) reqs w).2.2.map fun it => [it]))
    (hdest : wanted.map (List.map Prod.fst) = (callAll (boundFns bindings) reqs w).2.2.map fun it => [it.1]) (hback : back ≠ []) :
    let direct := callAll (boundFns bindings) reqs w
    ∃ x, servePieces (d + 1) c noFit idTy bindings there ⟨[], 0, w, o, []⟩ = some x ∧ x.log = direct.1 ∧ x.world = direct.2.1 ∧
      x.data.drop x.pos = [] ∧
      ((back.map Prod.snd).flatten = (x.out.data.take x.out.pos).drop o.pos →
        ∃ r, receive dr cr back ⟨[], 0, wanted, []⟩ = some r ∧ r.got = direct.2.2.map (fun it => [it.2]) ∧ r.data.drop r.pos = []) := by
  have hws : (reqs.map fun r => msgItems (boundFns bindings) idTy (.req true r.1 r.2)).map (wireItems (fmtOf cw)) = bss.map some := by
    rw [← hfw, ← hw, List.map_map]
    rfl
  have hsent := (C12_streams dw dw cw cw noFit' (reqs.map fun r => msgItems (boundFns bindings) idTy (.req true r.1 r.2)) [] st st' bss.flatten rfl hstpos
    hstlen hsw hdw hbw (wireItems_calls hws) hlen hok).1
  rw [hsent] at hcarried
  have hlb : reqs.length = bss.length := by simpa using congrArg List.length hw
  obtain ⟨x, h1, h2, h3, h4, h5⟩ := C111_pieces d c noFit idTy bindings reqs bss there w o br hn hasks hr hw hid hthere ⟨[], by rw [hcarried, List.append_nil]⟩
    hlen hcodes hs hd hbits hbr hbl hpos holen hroom
  rw [hcarried, complete_all, ← hlb, List.take_length] at h2 h3 h5
  rw [hcarried, complete_all, List.take_length, List.drop_length] at h4
  refine ⟨x, h1, h2, h3, h4, fun hb => ?_⟩
  obtain ⟨bs, e1, e2⟩ := singles_wire h5
  rw [← hb] at e2
  have hbrl : br = (back.map Prod.snd).flatten := by
    rw [hb]
    exact Option.some.inj (hbr.symm.trans h5)
  obtain ⟨r, j1, j2, j3⟩ := C96_pieces dr cr ((callAll (boundFns bindings) reqs w).2.2.map fun it => [it]) wanted bs [] back hback hrr
    (by rw [hfr]; exact e1) (by rw [hdest, List.map_map]; rfl) ⟨[], by rw [e2]⟩ (by rw [List.append_nil, e2, ← hbrl]; omega)
  have hlr : (callAll (boundFns bindings) reqs w).2.2.length = bs.length := by simpa using congrArg List.length e1
  rw [← e2, complete_all] at j2 j3
  rw [List.take_length, List.drop_length] at j3
  rw [← hlr, ← List.length_map (f := fun it : Ty × Val => [it]), List.take_length, List.map_map] at j2
  exact ⟨r, j1, j2, j3⟩

/-! ## The conditions are needed -/

/-- A function that returns `result_out_of_range` itself is called again with every piece that arrives: the program cannot tell its code from an incomplete
request. -/
theorem C111_code_refuted :
    let c := Checks.le Checks.grow (.fixed 1)
    let bindings : List (Binding (List (List Val))) := [.bind (.num 1) [.scalar .int 2] (.errc fun w a => (some .resultOutOfRange, w ++ [a]))]
    wireItems (fmtOf c) (msgItems (boundFns bindings) (.scalar .int 1) (.req true 0 [.num 5])) = some [1, 5, 0] ∧
    (callAll (boundFns bindings) [(0, [.num 5])] []).2.1 = [[.num 5]] ∧
    (servePieces 21 c false (.scalar .int 1) bindings [(false, [1, 5, 0]), (false, [])] ⟨[], 0, [], ⟨[], 0⟩, []⟩).map (·.world) =
      some [[.num 5], [.num 5]] := by decide +kernel

/-- A reply that does not fit into a fixed output buffer is reported by the same code, after the function has been called: it is called again. -/
theorem C111_full_refuted :
    let c := Checks.le Checks.fixed (.fixed 1)
    let bindings : List (Binding (List (List Val))) := [.bind (.num 1) [.scalar .int 2] (.value (.scalar .int 4) fun w a => (.num 7, w ++ [a]))]
    (callAll (boundFns bindings) [(0, [.num 5])] []).2.1 = [[.num 5]] ∧
    (servePieces 21 c false (.scalar .int 1) bindings [(false, [1, 5]), (false, [0]), (false, [])] ⟨[], 0, [], ⟨[0, 0], 0⟩, []⟩).map (·.world) =
      some [[.num 5], [.num 5]] := by decide +kernel

/-! ## The hypotheses are met -/

/-- Requests for three functions; the first piece ends inside the arguments of the first request, the second behind the id of the third; the
bytes read are discarded before the last piece. -/
example :
    let c := Checks.le Checks.grow (.fixed 1)
    let reqs : List (Nat × List Val) := [(0, [.num 258, Checks.strV [65]]), (2, []), (0, [.num 5, Checks.strV []])]
    let bss : List (List UInt8) := [[1, 2, 1, 1, 65], [3], [1, 5, 0, 0]]
    nodup (exBindings.map Binding.id) = true ∧
    (reqs.map fun r => wireItems (fmtOf c) (msgItems (boundFns exBindings) (.scalar .int 1) (.req true r.1 r.2))) = bss.map some ∧
    (callAll (boundFns exBindings) reqs []).1 = [.ok, .err .badMessage, .ok] ∧
    wireItems (fmtOf c) (callAll (boundFns exBindings) reqs []).2.2 = some [1, 0, 0, 0, 3, 0, 0, 0] ∧
    (servePieces 21 c false (.scalar .int 1) exBindings [(false, [1, 2, 1])] ⟨[], 0, [], ⟨[9], 1⟩, []⟩).map (fun x => (x.world, x.log)) = some ([], []) ∧
    (servePieces 21 c false (.scalar .int 1) exBindings [(false, [1, 2, 1]), (false, [1, 65, 3, 1])] ⟨[], 0, [], ⟨[9], 1⟩, []⟩).map
      (fun x => (x.world, x.log)) = some ([(1, [.num 258, Checks.strV [65]]), (3, [])], [.ok, .err .badMessage]) ∧
    (servePieces 21 c false (.scalar .int 1) exBindings [(false, [1, 2, 1]), (false, [1, 65, 3, 1]), (true, [5, 0, 0])] ⟨[], 0, [], ⟨[9], 1⟩, []⟩).map
      (fun x => (x.world, x.log)) =
      some ([(1, [.num 258, Checks.strV [65]]), (3, []), (1, [.num 5, Checks.strV []])], [.ok, .err .badMessage, .ok]) ∧
    (servePieces 21 c false (.scalar .int 1) exBindings [(false, [1, 2, 1]), (false, [1, 65, 3, 1]), (true, [5, 0, 0])] ⟨[], 0, [], ⟨[9], 1⟩, []⟩).map
      (fun x => (x.data, x.pos, x.out.data.take x.out.pos)) = some ([1, 5, 0, 0], 4, [9, 1, 0, 0, 0, 3, 0, 0, 0]) := by
  refine ⟨?_, ?_, ?_, ?_, ?_, ?_, ?_, ?_⟩ <;> decide +kernel

/-- The other hypotheses, for these requests. -/
example :
    let c := Checks.le Checks.grow (.fixed 1)
    let reqs : List (Nat × List Val) := [(0, [.num 258, Checks.strV [65]]), (2, []), (0, [.num 5, Checks.strV []])]
    Asks (boundFns exBindings) reqs ∧
    Receivable 20 c (reqs.map fun r => msgItems (boundFns exBindings) (.scalar .int 1) (.req true r.1 r.2)) ∧
    (∃ v b, Receivable 20 c [[(.scalar .int 1, v)]] ∧ wireItems (fmtOf c) [(.scalar .int 1, v)] = some b ∧ b ≠ [] ∧ b.length < 2 ^ 63) ∧
    Supported c (callAll (boundFns exBindings) reqs []).2.2 ∧ StackOk 21 (callAll (boundFns exBindings) reqs []).2.2 ∧
    BitsOk (callAll (boundFns exBindings) reqs []).2.2 ⟨[9], 1⟩ ∧ RoomFor c.g 1 9 := by
  refine ⟨?_, ⟨?_, ?_, fun _ => ⟨rfl, rfl⟩, ?_⟩, ⟨.num 1, [1], ⟨?_, ?_, fun _ => ⟨rfl, rfl⟩, ?_⟩, by decide +kernel, by simp, by decide⟩,
    ⟨grow_ok, so_abi, fun _ => ⟨rfl, rfl⟩, ?_⟩, ?_, .inr (by simp), ?_⟩
  · intro r hr
    simp only [List.mem_cons, List.not_mem_nil, or_false] at hr
    rcases hr with rfl | rfl | rfl <;> exact ⟨_, rfl, rfl⟩
  · intro m hm
    simp only [List.map_cons, List.map_nil, List.mem_cons, List.not_mem_nil, or_false] at hm
    refine ⟨so_abi, fun _ => ⟨rfl, rfl⟩, ?_, ?_⟩ <;> intro x hx <;> rcases hm with rfl | rfl | rfl <;>
      simp [msgItems, boundFns, exBindings] at hx
    all_goals first
      | (rcases hx with rfl | rfl | rfl <;> first | rfl | simp [Loadable, LoadableL, Checks.str, Checks.strV, Fits, Checks.le, Checks.grow, Checks.so, Checks.chr])
  · intro m hm x hx
    simp only [List.map_cons, List.map_nil, List.mem_cons, List.not_mem_nil, or_false] at hm
    rcases hm with rfl | rfl | rfl <;> simp [msgItems, boundFns, exBindings] at hx
    all_goals first
      | (rcases hx with rfl | rfl | rfl <;> decide)
  · intro m hm x hx
    simp only [List.map_cons, List.map_nil, List.mem_cons, List.not_mem_nil, or_false] at hm
    rcases hm with rfl | rfl | rfl <;> simp [msgItems, boundFns, exBindings] at hx
    all_goals first
      | (rcases hx with rfl | rfl | rfl <;> exact ⟨rfl, rfl⟩)
  · intro m hm
    simp only [List.mem_singleton] at hm
    subst hm
    refine ⟨so_abi, fun _ => ⟨rfl, rfl⟩, ?_, ?_⟩ <;> intro x hx <;> simp only [List.mem_singleton] at hx <;> subst hx
    · rfl
    · simp [Loadable]
  · intro m hm x hx
    simp only [List.mem_singleton] at hm
    subst hm
    simp only [List.mem_singleton] at hx
    subst hx
    decide
  · intro m hm x hx
    simp only [List.mem_singleton] at hm
    subst hm
    simp only [List.mem_singleton] at hx
    subst hx
    exact ⟨rfl, rfl⟩
  · intro x hx
    simp [callAll, calledOnce, boundFns, exBindings] at hx
    rcases hx with rfl | rfl <;> rfl
  · intro x hx
    simp [callAll, calledOnce, boundFns, exBindings] at hx
    rcases hx with rfl | rfl <;> decide
  · simp [RoomFor, LimitRoom, MemRoom, Checks.le, Checks.grow, sizeMax]

/-- From end to end: the client's output, the server's replies carried back in two pieces, and what the client receives. -/
example :
    let c := Checks.le Checks.grow (.fixed 1)
    let reqs : List (Nat × List Val) := [(0, [.num 258, Checks.strV [65]]), (2, []), (0, [.num 5, Checks.strV []])]
    outCalls 21 c false (reqs.map fun r => msgItems (boundFns exBindings) (.scalar .int 1) (.req true r.1 r.2)) ⟨[], 0⟩ =
      (.ok, ⟨[1, 2, 1, 1, 65, 3, 1, 5, 0, 0], 10⟩) ∧
    (receive 21 c [(false, [1, 0, 0, 0, 3]), (true, [0, 0, 0])] ⟨[], 0, [[(.scalar .int 4, .num 0)], [(.scalar .int 4, .num 0)]], []⟩).map (·.got) =
      some [[.num 1], [.num 3]] := by decide +kernel

end Zpp.Props
