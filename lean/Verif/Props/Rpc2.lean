import Verif.Proof.Rpc
import Verif.Proof.InSafe
import Verif.Props.Rpc
/-!
# Opaque bindings

`bind_opaque<Function, Id>`: the library reads only the id; the function itself gets the archives, or the bytes not read yet.
-/

namespace Zpp.Props
open Zpp Zpp.Spec

/-- C53. The id read is bound opaquely to a function of the archives: it is called, once, with the input archive right behind
the id and the output archive as it was; `serve` reads nothing else, and keeps the positions and the output the function
left. -/
theorem C53_archives {σ : Type} (d : Nat) (c : Cfg) (noFit : Bool) (idTy : Ty) (bs : List (Binding σ)) (w w' : σ)
    (data : List UInt8) (p : Nat) (o o' : OutSt) (id : Val) (p' p'' i : Nat)
    (rt : Ret) (f : σ → List UInt8 → Nat → OutSt → OpaqueRet × σ × Nat × OutSt) (ret : OpaqueRet)
    (hn : nodup (bs.map Binding.id) = true)
    (hid : decMany d c data (fresh c d [idTy]) p = ⟨.ok, [id], p'⟩)
    (hi : bs[i]? = some (.opaque id rt (.archives f)))
    (hf : f w data p' o = (ret, w', p'', o')) :
    serve d c noFit idTy bs w data p o = opaqueReply d c noFit w' p'' o' ret := by
  simp only [fresh, List.map_cons, List.map_nil] at hid
  simp only [serve, hid, List.headD_cons, callBinding_opaque hn hi, callOpaque, hf]
  cases ret with
  | void => rfl
  | value t v => rfl
  | errc e => cases e <;> rfl

/-- C53. The id read is bound opaquely to a function of the remaining bytes: it is called, once, with exactly the bytes behind
the id, and the input position moves on by the size of the span the function left (`k`): to the end of the input if the
function does not change the span. -/
theorem C53_bytes {σ : Type} (d : Nat) (c : Cfg) (noFit : Bool) (idTy : Ty) (bs : List (Binding σ)) (w w' : σ)
    (data : List UInt8) (p : Nat) (o : OutSt) (id : Val) (p' i k : Nat) (rt : Ret)
    (f : σ → List UInt8 → OpaqueRet × σ × Nat)
    (ret : OpaqueRet) (hn : nodup (bs.map Binding.id) = true)
    (hwid : widthsOk idTy = true) (henv : ∀ i, widthsOk (c.env i) = true)
    (hp : p ≤ data.length)
    (hid : decMany d c data (fresh c d [idTy]) p = ⟨.ok, [id], p'⟩)
    (hi : bs[i]? = some (.opaque id rt (.bytes f)))
    (hf : f w (data.drop p') = (ret, w', k)) :
    serve d c noFit idTy bs w data p o = opaqueReply d c noFit w' (p' + k) o ret ∧
    (k = (data.drop p').length → p' + k = data.length) := by
  have hsafe := (decMany_safe (d := d) (c := c) (data := data) henv (fresh c d [idTy]) p
    (by simp [fresh, hwid]) hp).inb
  rw [hid] at hsafe
  simp only at hsafe
  simp only [fresh, List.map_cons, List.map_nil] at hid
  refine ⟨?_, fun h => by rw [h, List.length_drop]; omega⟩
  simp only [serve, hid, List.headD_cons, callBinding_opaque hn hi, callOpaque, hf, if_neg (Nat.not_lt.2 hsafe)]
  cases ret with
  | void => rfl
  | value t v => rfl
  | errc e => cases e <;> rfl

/-- C53: the objects a client sent. If the bytes at the position are the encoding of the id, followed by the encoding of
objects `items` (which the client may choose freely), then the function bound opaquely to the id is called with the input
archive in a state in which reading objects of those types gives `items`. -/
theorem C53_request {σ : Type} (d : Nat) (c : Cfg) (noFit : Bool) (idTy : Ty) (bs : List (Binding σ)) (w : σ)
    (data : List UInt8) (p : Nat) (o : OutSt) (id : Val) (i : Nat) (items : List (Ty × Val)) (b1 b2 tail : List UInt8)
    (rt : Ret) (f : σ → List UInt8 → Nat → OutSt → OpaqueRet × σ × Nat × OutSt)
    (hn : nodup (bs.map Binding.id) = true) (hi : bs[i]? = some (.opaque id rt (.archives f)))
    (hlen : data.length < 2 ^ 64) (hp : p ≤ data.length)
    (hw1 : wireItems (fmtOf c) [(idTy, id)] = some b1) (hw2 : wireItems (fmtOf c) items = some b2)
    (hr : Readable c ((idTy, id) :: items)) (hd : StackOk d ((idTy, id) :: items))
    (hdr : data.drop p = b1 ++ b2 ++ tail) :
    let q := p + b1.length
    (serve d c noFit idTy bs w data p o =
      opaqueReply d c noFit (f w data q o).2.1 (f w data q o).2.2.1 (f w data q o).2.2.2 (f w data q o).1) ∧
    ∀ dests : List (Ty × Val), dests.map Prod.fst = items.map Prod.fst →
      decMany d c data dests q = ⟨.ok, items.map Prod.snd, q + b2.length⟩ := by
  intro q
  have hr1 : Readable c [(idTy, id)] := hr.sub (by simp)
  have hr2 : Readable c items := hr.sub (by intro x hx; simp [hx])
  have hd1 : StackOk d [(idTy, id)] := fun x hx => hd x (by simp at hx; simp [hx])
  have hd2 : StackOk d items := fun x hx => hd x (by simp [hx])
  have h1 : decMany d c data (fresh c d [idTy]) p = ⟨.ok, [id], q⟩ :=
    decMany_rd hr1.abi hr1.env hlen [(idTy, id)] (fresh c d [idTy]) b1 hw1 hr1.types hr1.load hd1 rfl p (b2 ++ tail) hp
      (by rw [hdr, List.append_assoc])
  have hq : data.drop q = b2 ++ tail := by
    rw [show q = p + b1.length from rfl, ← List.drop_drop, hdr, List.append_assoc, List.drop_left]
  have hql : q ≤ data.length := by
    have := congrArg List.length hdr
    simp only [List.length_drop, List.length_append] at this
    omega
  refine ⟨?_, ?_⟩
  · exact C53_archives d c noFit idTy bs w _ data p o _ id q _ i rt f _ hn h1 hi rfl
  · intro dests ht
    exact decMany_rd hr2.abi hr2.env hlen items dests b2 hw2 hr2.types hr2.load hd2 ht q tail hql hq

/-- C53 and C37, all cases, for any mixture of bindings: whatever the bytes, either nothing is called, nothing is written and
`serve` fails; or exactly one bound function is called: an ordinary one whose parameters stand complete behind the id, or an
opaque one, which gets the archives or bytes behind the id. -/
theorem C53_serve_cases {σ : Type} (d : Nat) (c : Cfg) (noFit : Bool) (idTy : Ty) (bs : List (Binding σ)) (w : σ)
    (data : List UInt8) (p : Nat) (o : OutSt) (hn : nodup (bs.map Binding.id) = true)
    (hwid : widthsOk idTy = true) (henv : ∀ i, widthsOk (c.env i) = true)
    (hp : p ≤ data.length) :
    let r := serve (d + 1) c noFit idTy bs w data p o
    (r.w = w ∧ r.o = o ∧ r.s ≠ .ok) ∨
    ∃ (id : Val) (p' i : Nat),
      decMany (d + 1) c data (fresh c (d + 1) [idTy]) p = ⟨.ok, [id], p'⟩ ∧ p ≤ p' ∧ p' ≤ data.length ∧
      ((∃ (params : List Ty) (body : Body σ) (args : List Val) (p'' : Nat),
        bs[i]? = some (.bind id params body) ∧
        decMany d c data (fresh c d params) p' = ⟨.ok, args, p''⟩ ∧ r.p = p'' ∧
        match body with
        | .void f => r.s = .ok ∧ r.w = f w args ∧ r.o = o
        | .errc f => r.s = (match (f w args).1 with | none => .ok | some e => .err e) ∧ r.w = (f w args).2 ∧ r.o = o
        | .value t f => r.w = (f w args).2 ∧ (r.s, r.o) = outCall (d + 1) c noFit [(t, (f w args).1)] o) ∨
      (∃ rt f, bs[i]? = some (.opaque id rt (.archives f)) ∧
        r = opaqueReply (d + 1) c noFit (f w data p' o).2.1 (f w data p' o).2.2.1 (f w data p' o).2.2.2 (f w data p' o).1) ∨
      (∃ rt f, bs[i]? = some (.opaque id rt (.bytes f)) ∧
        r = opaqueReply (d + 1) c noFit (f w (data.drop p')).2.1 (p' + (f w (data.drop p')).2.2) o
          (f w (data.drop p')).1)) := by
  intro r
  rcases hid : decMany (d + 1) c data (fresh c (d + 1) [idTy]) p with ⟨s, vs, p'⟩
  have hsafe := decMany_safe (d := d + 1) (c := c) (data := data) henv (fresh c (d + 1) [idTy]) p
    (by simp [fresh, hwid]) hp
  rw [hid] at hsafe
  by_cases hs : s = .ok
  · subst hs
    have hl1 : vs.length = 1 := by
      have := decMany_length (d := d + 1) (c := c) (data := data) (fresh c (d + 1) [idTy]) p
      rw [hid] at this
      simpa [fresh] using this
    obtain ⟨id, rfl⟩ : ∃ id, vs = [id] := by
      cases vs with
      | nil => simp at hl1
      | cons v vs => cases vs with
        | nil => exact ⟨v, rfl⟩
        | cons _ _ => simp at hl1
    by_cases hb : ∃ b ∈ bs, b.id = id
    · obtain ⟨b, hb, hbid⟩ := hb
      obtain ⟨i, hi⟩ := List.getElem?_of_mem hb
      cases b with
      | bind id' params body =>
        cases hbid
        rcases hargs : decMany d c data (fresh c d params) p' with ⟨s, vs, p''⟩
        by_cases hs : s = .ok
        · subst hs
          right
          refine ⟨id', p', i, rfl, hsafe.mono, hsafe.inb, .inl ⟨params, body, vs, p'', hi, hargs, ?_⟩⟩
          have := C37_called d c noFit idTy bs w data p o id' p' i params body vs p'' hn hid hi hargs
          simp only [r, this]
          cases body with
          | void f => exact ⟨rfl, rfl, rfl, rfl⟩
          | errc f => exact ⟨rfl, rfl, rfl, rfl⟩
          | value t f => exact ⟨rfl, rfl, rfl⟩
        · left
          have := C37_bad_arguments d c noFit idTy bs w data p o id' p' i params body s vs p'' hn hid hi hargs hs
          simp only [r, this]
          exact ⟨trivial, trivial, hs⟩
      | «opaque» id' rt fn =>
        cases hbid
        right
        refine ⟨id', p', i, rfl, hsafe.mono, hsafe.inb, .inr ?_⟩
        cases fn with
        | archives f =>
          exact .inl ⟨rt, f, hi, C53_archives (d + 1) c noFit idTy bs w _ data p o _ id' p' _ i rt f _ hn hid hi rfl⟩
        | bytes f =>
          exact .inr ⟨rt, f, hi, (C53_bytes (d + 1) c noFit idTy bs w _ data p o id' p' i _ rt f _ hn hwid henv hp hid hi rfl).1⟩
    · left
      have := C37_unknown_id (d + 1) c noFit idTy bs w data p o id p' hid (fun b hm e => hb ⟨b, hm, e⟩)
      simp only [r, this]
      exact ⟨trivial, trivial, by simp⟩
  · left
    have := C37_no_id (d + 1) c noFit idTy bs w data p o s vs p' hid hs
    simp only [r, this]
    exact ⟨trivial, trivial, hs⟩

/-- Bindings for the example: an ordinary one, one of the bytes (which leaves two of them), one of the archives (which reads
one byte and writes it twice). -/
def exOpaque : List (Binding (List (List UInt8))) := [
  .bind (.num 1) [.bool] (.void fun w _ => w ++ [[1]]),
  .opaque (.num 2) (.value (.scalar .int 2)) (.bytes fun w bs => (.value (.scalar .int 2) (.num 513), w ++ [bs], 2)),
  .opaque (.num 3) .errc (.archives fun w data p o =>
    (.errc (some .badMessage), w ++ [data.drop p], p + 1, ⟨o.data ++ [data.getD p 0, data.getD p 0], o.pos + 2⟩))]

/-- Requests for the three. -/
example :
    let c := Checks.le Checks.grow (.fixed 1)
    let sv := fun data => serve 21 c false (.scalar .int 1) exOpaque [] data 0 ⟨[9], 1⟩
    nodup (exOpaque.map Binding.id) = true ∧
    decMany 21 c [2, 7, 8, 9] (fresh c 21 [.scalar .int 1]) 0 = ⟨.ok, [.num 2], 1⟩ ∧
    ((sv [2, 7, 8, 9]).s = .ok ∧ (sv [2, 7, 8, 9]).w = [[7, 8, 9]] ∧ (sv [2, 7, 8, 9]).p = 3 ∧
      (sv [2, 7, 8, 9]).o = ⟨[9, 1, 2], 3⟩) ∧
    ((sv [3, 7, 8]).s = .err .badMessage ∧ (sv [3, 7, 8]).w = [[7, 8]] ∧ (sv [3, 7, 8]).p = 2 ∧
      (sv [3, 7, 8]).o = ⟨[9, 7, 7], 3⟩) ∧
    ((sv [1, 1]).s = .ok ∧ (sv [1, 1]).w = [[1]]) := by
  decide +kernel

/-! ## Opaque functions in histories -/

/-- A function to be bound opaquely that reads objects of the types `params` by one call, returns the first error of that
call, and otherwise does what `body` says. -/
def reading {σ : Type} (d : Nat) (c : Cfg) (params : List Ty) (body : Body σ) : OpaqueFn σ :=
  .archives fun w data p o =>
    match decMany d c data (fresh c d params) p with
    | ⟨.ok, args, p'⟩ => ((opaqueResult body w args).1, (opaqueResult body w args).2, p', o)
    | ⟨.err e, _, p'⟩ => (.errc (some e), w, p', o)
    | ⟨_, _, p'⟩ => (.void, w, p', o)

/-- C36, C53: such a function, bound opaquely, provides the function with those parameters. -/
theorem C53_reading {σ : Type} (d : Nat) (c : Cfg) (id : Val) (params : List Ty) (body : Body σ) :
    Provides d c ⟨id, params, body, true⟩ (.opaque id body.ret (reading d c params body)) := by
  refine ⟨_, rfl, fun w data p o args p' h => ?_⟩
  simp only [h]

/-- The functions of the example of `C36_rpc_partial` with the first one bound opaquely. -/
def exMixed : List (Binding (List (Nat × List Val))) :=
  .opaque (.num 1) (.value (.scalar .int 4)) (reading 21 (Checks.le Checks.grow (.fixed 1)) [.scalar .int 2, Checks.str]
    (.value (.scalar .int 4) fun w a => (.num (w.length + 1), w ++ [(1, a)]))) :: exBindings.drop 1

/-- A connection with these. -/
def exNetMixed : Net (List (Nat × List Val)) := { exNet with bindings := exMixed }

/-- The functions meant. -/
def exMixedFns : Fns (List (Nat × List Val)) := fun i =>
  if i = 0 then some ⟨.num 1, [.scalar .int 2, Checks.str],
    .value (.scalar .int 4) fun w a => (.num (w.length + 1), w ++ [(1, a)]), true⟩
  else boundFns exMixed i

/-- A history with an opaque and an ordinary function meets the hypotheses of `C36_rpc_partial`. -/
example :
    (∀ i fn, exMixedFns i = some fn → ∃ b, exNetMixed.bindings[i]? = some b ∧ Provides exNetMixed.d exNetMixed.sc fn b) ∧
    nodup (exNetMixed.bindings.map Binding.id) = true ∧
    (∃ q', IdealRun exMixedFns exNetMixed.a exNetMixed.b
      [.requestOpaque true 0 [(.scalar .int 2, .num 5), (Checks.str, Checks.strV [])], .request true 1 [.num 1], .serve,
        .serve, .response 0]
      [] (fun _ => []) [(.ok, none), (.ok, none), (.ok, none), (.ok, none), (.ok, some (.num 1))]
      [(.one, .req true 0 [.num 5, Checks.strV []]), (.one, .req true 1 [.num 1]), (.two, .resp 0 (.num 1))]
      [(1, [.num 5, Checks.strV []]), (2, [.num 1])] q') ∧
    (netRun exNetMixed [.requestOpaque true 0 [(.scalar .int 2, .num 5), (Checks.str, Checks.strV [])],
      .request true 1 [.num 1], .serve, .serve, .response 0] exStart).1 =
      [(.ok, none), (.ok, none), (.ok, none), (.ok, none), (.ok, some (.num 1))] := by
  refine ⟨?_, by decide +kernel, ?_, by decide +kernel⟩
  · intro i fn h
    by_cases e : i = 0
    · subst e
      simp only [exMixedFns, if_true, Option.some.injEq] at h
      subst h
      exact ⟨_, rfl, C53_reading _ _ _ _ _⟩
    · simp only [exMixedFns, if_neg e] at h
      exact boundFns_provides h
  · refine ⟨setQueue .two [] (push .two [] (setQueue .one [] (push .two [.resp 0 (.num 1)] (setQueue .one
      [.req true 1 [.num 1]] (push .one [.req true 1 [.num 1]] (push .one [.req true 0 [.num 5, Checks.strV []]]
        fun _ => [])))))), ?_⟩
    refine .step (s := [(.one, .req true 0 [.num 5, Checks.strV []])]) (.request (withId := true) (i := 0)
      (args := [.num 5, Checks.strV []]) (fn := ⟨.num 1,
      [.scalar .int 2, Checks.str], .value (.scalar .int 4) fun w a => (.num (w.length + 1), w ++ [(1, a)]), true⟩) rfl rfl)
      ?_
    refine .step (s := [(.one, .req true 1 [.num 1])]) (.request (fn := ⟨.num 2, [.bool], .void fun w a => w ++ [(2, a)],
      false⟩) rfl rfl) ?_
    refine .step (s := [(.two, .resp 0 (.num 1))]) (.serve (i := 0) (args := [.num 5, Checks.strV []])
      (fn := ⟨.num 1, [.scalar .int 2, Checks.str], .value (.scalar .int 4) fun w a => (.num (w.length + 1), w ++ [(1, a)]),
        true⟩) rfl (rest := [.req true 1 [.num 1]]) rfl) ?_
    refine .step (s := []) (.serve (i := 1) (args := [.num 1])
      (fn := ⟨.num 2, [.bool], .void fun w a => w ++ [(2, a)], false⟩) rfl (rest := []) rfl) ?_
    exact .step (s := []) (.response rfl rfl (rest := []) rfl) (.done _ _)

/-- C53, C36: a function of the remaining bytes that leaves its span as it is takes all of the input: the position is then at
the end of the input, so that any request already waiting behind is lost - the next `serve()` of an id that takes at least
one byte fails, and calls nothing. -/
theorem C53_bytes_take_all {σ : Type} (d : Nat) (c : Cfg) (noFit : Bool) (n : Nat) (kind : SKind) (bs : List (Binding σ)) (w : σ)
    (data : List UInt8) (p : Nat) (o : OutSt) (id : Val) (p' i : Nat) (rt : Ret) (f : σ → List UInt8 → OpaqueRet × σ × Nat)
    (hn : nodup (bs.map Binding.id) = true) (hw : widthsOk (.scalar kind (n + 1)) = true) (hp : p ≤ data.length) (henv : ∀ i, widthsOk (c.env i) = true)
    (hid : decMany (d + 1) c data (fresh c (d + 1) [.scalar kind (n + 1)]) p = ⟨.ok, [id], p'⟩)
    (hi : bs[i]? = some (.opaque id rt (.bytes f))) (hf : ∀ w bs, (f w bs).2.2 = bs.length) :
    let r := serve (d + 1) c noFit (.scalar kind (n + 1)) bs w data p o
    r.p = data.length ∧
    ∀ w' o', serve (d + 1) c noFit (.scalar kind (n + 1)) bs w' data r.p o' = ⟨.err .resultOutOfRange, w', r.p, o'⟩ := by
  intro r
  have hb := C53_bytes (d + 1) c noFit (.scalar kind (n + 1)) bs w _ data p o id p' i _ rt f _ hn
    hw henv hp hid hi rfl
  have hr : r.p = data.length := by
    rw [show r = _ from hb.1, hf]
    rw [← hb.2 (hf _ _), hf]
    cases (f w (data.drop p')).1 with
    | errc e => cases e <;> rfl
    | _ => rfl
  refine ⟨hr, fun w' o' => ?_⟩
  rw [hr]
  have h0 : subSz data.length data.length < n + 1 := by simp [subSz]
  simp [serve, decMany, decode, getBytes, h0]

/-- Two requests wait; the first is for an opaque function of the remaining bytes: the second is lost. -/
example :
    let c := Checks.le Checks.grow (.fixed 1)
    let bs : List (Binding (List (List UInt8))) := [
      .bind (.num 1) [.bool] (.void fun w _ => w ++ [[1]]),
      .opaque (.num 2) .void (.bytes fun w bs => (.void, w ++ [bs], bs.length))]
    let n : Net (List (List UInt8)) := ⟨21, c, c, false, .one, .two, .scalar .int 1, bs⟩
    nodup (bs.map Binding.id) = true ∧ widthsOk (.scalar .int 1) = true ∧
    (netRun n [.requestOpaque true 1 [(.scalar .int 1, .num 7)], .request true 0 [.num 1], .serve, .serve]
      ⟨[], fun _ => ⟨[], 0, 0⟩⟩).1 = [(.ok, none), (.ok, none), (.ok, none), (.err .resultOutOfRange, none)] := by
  decide +kernel

end Zpp.Props
