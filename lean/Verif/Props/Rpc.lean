import Verif.Proof.Rpc
import Verif.Proof.InSeq
/-!
# Calls and remote procedure calls

Functions act on an arbitrary world `σ` and are arbitrary; so "the world afterwards is the world `f` left" says that `f`
was called once and nothing else was called (take for `σ` the list of calls so far).
-/

namespace Zpp.Props
open Zpp Zpp.Spec

/-! ## `apply` -/

/-- C38. A function with parameters: if reading all parameters in order (into value-initialized objects, by one call)
succeeds, `apply` calls the function on the objects read, and leaves the position behind them. The return value is an
empty `errc` for `void` functions, the result for functions returning an object, and for functions returning `errc` an
error holding that `errc`. -/
theorem C38_called {σ : Type} (d : Nat) (c : Cfg) (params : List Ty) (body : Body σ) (data : List UInt8) (p : Nat) (w : σ)
    (args : List Val) (p' : Nat) (hp : params ≠ []) (hd : decMany d c data (fresh c d params) p = ⟨.ok, args, p'⟩) :
    apply (d + 1) c params body data p w =
      match body with
      | .void f => (.code .ok, f w args, p')
      | .value t f => (.value t (f w args).1, (f w args).2, p')
      | .errc f => (.failed (match (f w args).1 with | none => .ok | some e => .err e), (f w args).2, p') := by
  rw [apply_eq hp]
  unfold fresh at hd
  rw [hd]
  cases body with
  | void f => rfl
  | value t f => rfl
  | errc f => simp only [finish, codeStatus]; cases (f w args).1 <;> rfl

/-- C38. If reading the parameters fails, the function is not called (the world is unchanged) and the error is
returned. -/
theorem C38_refused {σ : Type} (d : Nat) (c : Cfg) (params : List Ty) (body : Body σ) (data : List UInt8) (p : Nat)
    (w : σ) (s : Status) (vs : List Val) (p' : Nat) (hp : params ≠ [])
    (hd : decMany d c data (fresh c d params) p = ⟨s, vs, p'⟩) (hs : s ≠ .ok) :
    apply (d + 1) c params body data p w =
      match body with
      | .void _ => (.code s, w, p')
      | _ => (.failed s, w, p') := by
  rw [apply_eq hp]
  unfold fresh at hd
  rw [hd]
  cases s <;> first | exact absurd rfl hs | (cases body <;> rfl)

/-- C38. A function without parameters is called, and nothing is read. -/
theorem C38_no_parameters {σ : Type} (d : Nat) (c : Cfg) (body : Body σ) (data : List UInt8) (p : Nat) (w : σ) :
    apply d c [] body data p w =
      match body with
      | .void f => (.code .ok, f w [], p)
      | .value t f => (.value t (f w []).1, (f w []).2, p)
      | .errc f => (.code (match (f w []).1 with | none => .ok | some e => .err e), (f w []).2, p) := by
  cases body with
  | void f => rfl
  | value t f => rfl
  | errc f => simp only [apply, finish, codeStatus]; cases (f w []).1 <;> rfl

/-- C38: arguments an output archive wrote. If the bytes at the position are the encoding of arguments `args` of the
parameter types, then the function is called on exactly `args`. -/
theorem C38_encoded {σ : Type} (d : Nat) (c : Cfg) (params : List Ty) (args : List Val) (body : Body σ)
    (data : List UInt8) (p : Nat) (w : σ) (bs tail : List UInt8) (hlen : data.length < 2 ^ 64)
    (ha : args.length = params.length) (hw : wireItems (fmtOf c) (params.zip args) = some bs)
    (hr : Readable c (params.zip args)) (hd : StackOk d (params.zip args)) (hp : p ≤ data.length)
    (hdr : data.drop p = bs ++ tail) :
    (apply (d + 1) c params body data p w).2 =
      (match body with
      | .void f => f w args
      | .value _ f => (f w args).2
      | .errc f => (f w args).2, p + bs.length) ∧
    ∀ t f, body = .value t f → (apply (d + 1) c params body data p w).1 = .value t (f w args).1 := by
  obtain ⟨b, h⟩ := apply_front (body := body) (w := w) hlen ha hw hr hd hp hdr
  rw [h]
  refine ⟨by cases body <;> rfl, ?_⟩
  intro t f hb; subst hb; rfl

/-- C38, what a caller of `apply` should know: a function with parameters that returns `errc` gives a `value_or_errc` in the
failure state although the arguments decoded and the function succeeded. -/
theorem C38_errc_reported_as_failure {σ : Type} (d : Nat) (c : Cfg) (params : List Ty) (f : σ → List Val → Option Errc × σ)
    (data : List UInt8) (p : Nat) (w : σ) (args : List Val) (p' : Nat) (hp : params ≠ [])
    (hd : decMany d c data (fresh c d params) p = ⟨.ok, args, p'⟩) (hf : (f w args).1 = none) :
    (apply (d + 1) c params (.errc f) data p w).1 = .failed .ok := by
  rw [C38_called d c params (.errc f) data p w args p' hp hd]
  simp only [hf]

/-- Two parameters from six bytes; the function records its arguments. From five bytes it is not called. -/
example :
    let c := Checks.le Checks.grow (.fixed 1)
    let params : List Ty := [.scalar .int 2, Checks.str]
    let f : Body (List (List Val)) := .value (.scalar .int 4) fun w a => (.num 7, w ++ [a])
    decMany 20 c [2, 1, 2, 65, 66, 9] (fresh c 20 params) 0 = ⟨.ok, [.num 258, Checks.strV [65, 66]], 5⟩ ∧
    (decMany 20 c [2, 1, 2, 65] (fresh c 20 params) 0).s = .err .resultOutOfRange ∧
    (apply 21 c params f [2, 1, 2, 65, 66, 9] 0 []).2 = ([[.num 258, Checks.strV [65, 66]]], 5) ∧
    (apply 21 c params f [2, 1, 2, 65] 0 []).2.1 = [] ∧
    wireItems (fmtOf c) (params.zip [.num 258, Checks.strV [65, 66]]) = some [2, 1, 2, 65, 66] := by
  refine ⟨?_, ?_, ?_, ?_, ?_⟩ <;> decide +kernel

/-! ## A server on arbitrary requests -/

/-- C37. No id can be read: `serve` returns the error, no function is called, nothing is written. -/
theorem C37_no_id {σ : Type} (d : Nat) (c : Cfg) (noFit : Bool) (idTy : Ty) (bs : List (Binding σ)) (w : σ)
    (data : List UInt8) (p : Nat) (o : OutSt) (s : Status) (vs : List Val) (p' : Nat)
    (hid : decMany d c data (fresh c d [idTy]) p = ⟨s, vs, p'⟩) (hs : s ≠ .ok) :
    serve d c noFit idTy bs w data p o = ⟨s, w, p', o⟩ := by
  simp only [fresh, List.map_cons, List.map_nil] at hid
  simp only [serve, hid]

theorem callBinding_none {σ : Type} {d : Nat} {c : Cfg} {noFit : Bool} {id : Val} {w : σ} {data : List UInt8} {p : Nat}
    {o : OutSt} {bs : List (Binding σ)} (h : id ∉ bs.map Binding.id) :
    callBinding d c noFit id w data p o bs = ⟨.err .notSupported, w, p, o⟩ := by
  induction bs with
  | nil => rfl
  | cons x xs ih =>
    simp only [List.map_cons, List.mem_cons, not_or] at h
    have hne : ¬ x.id = id := fun e => h.1 e.symm
    cases x <;> simp only [callBinding] <;> rw [if_neg hne] <;> exact ih h.2

/-- C37. The id read belongs to no binding: `not_supported`, no function is called, nothing is written. -/
theorem C37_unknown_id {σ : Type} (d : Nat) (c : Cfg) (noFit : Bool) (idTy : Ty) (bs : List (Binding σ)) (w : σ)
    (data : List UInt8) (p : Nat) (o : OutSt) (id : Val) (p' : Nat)
    (hid : decMany d c data (fresh c d [idTy]) p = ⟨.ok, [id], p'⟩) (hu : ∀ b ∈ bs, b.id ≠ id) :
    serve d c noFit idTy bs w data p o = ⟨.err .notSupported, w, p', o⟩ := by
  simp only [fresh, List.map_cons, List.map_nil] at hid
  simp only [serve, hid, List.headD_cons]
  exact callBinding_none (by rw [List.mem_map]; rintro ⟨b, hb, e⟩; exact hu b hb e)

theorem serve_bound {σ : Type} {d : Nat} {c : Cfg} {noFit : Bool} {idTy : Ty} {bs : List (Binding σ)} {w : σ}
    {data : List UInt8} {p : Nat} {o : OutSt} {id : Val} {p' : Nat} {i : Nat} {params : List Ty} {body : Body σ}
    (hn : nodup (bs.map Binding.id) = true)
    (hid : decMany d c data (fresh c d [idTy]) p = ⟨.ok, [id], p'⟩) (hi : bs[i]? = some (.bind id params body)) :
    serve d c noFit idTy bs w data p o = callBind d c noFit params body w data p' o := by
  simp only [fresh, List.map_cons, List.map_nil] at hid
  simp only [serve, hid, List.headD_cons]
  exact callBinding_nth hn hi

/-- C37. The parameters of the function with that id cannot be read: `serve` returns the error, no function is called,
nothing is written. -/
theorem C37_bad_arguments {σ : Type} (d : Nat) (c : Cfg) (noFit : Bool) (idTy : Ty) (bs : List (Binding σ)) (w : σ)
    (data : List UInt8) (p : Nat) (o : OutSt) (id : Val) (p' : Nat) (i : Nat) (params : List Ty) (body : Body σ)
    (s : Status) (vs : List Val) (p'' : Nat) (hn : nodup (bs.map Binding.id) = true)
    (hid : decMany (d + 1) c data (fresh c (d + 1) [idTy]) p = ⟨.ok, [id], p'⟩)
    (hi : bs[i]? = some (.bind id params body))
    (hargs : decMany d c data (fresh c d params) p' = ⟨s, vs, p''⟩) (hs : s ≠ .ok) :
    serve (d + 1) c noFit idTy bs w data p o = ⟨s, w, p'', o⟩ := by
  have hp : params ≠ [] := by
    rintro rfl
    simp only [fresh, List.map_nil, decMany, ResL.mk.injEq] at hargs
    exact hs hargs.1.symm
  rw [serve_bound hn hid hi]
  simp only [callBind, C38_refused d c params body data p' w s vs p'' hp hargs hs]
  cases body <;> rfl

/-- C37. Id and parameters can be read: the function with that id is called on the objects read. A `void` function gives
success and writes nothing; a function returning `errc` gives that `errc` and writes nothing; a result is written to the
response by one output call, whose status is returned. -/
theorem C37_called {σ : Type} (d : Nat) (c : Cfg) (noFit : Bool) (idTy : Ty) (bs : List (Binding σ)) (w : σ)
    (data : List UInt8) (p : Nat) (o : OutSt) (id : Val) (p' : Nat) (i : Nat) (params : List Ty) (body : Body σ)
    (args : List Val) (p'' : Nat) (hn : nodup (bs.map Binding.id) = true)
    (hid : decMany (d + 1) c data (fresh c (d + 1) [idTy]) p = ⟨.ok, [id], p'⟩)
    (hi : bs[i]? = some (.bind id params body))
    (hargs : decMany d c data (fresh c d params) p' = ⟨.ok, args, p''⟩) :
    serve (d + 1) c noFit idTy bs w data p o =
      match body with
      | .void f => ⟨.ok, f w args, p'', o⟩
      | .errc f => ⟨match (f w args).1 with | none => .ok | some e => .err e, (f w args).2, p'', o⟩
      | .value t f => ⟨(outCall (d + 1) c noFit [(t, (f w args).1)] o).1, (f w args).2, p'',
          (outCall (d + 1) c noFit [(t, (f w args).1)] o).2⟩ := by
  rw [serve_bound hn hid hi]
  by_cases hp : params = []
  · subst hp
    simp only [fresh, List.map_nil, decMany, ResL.mk.injEq, true_and] at hargs
    obtain ⟨rfl, rfl⟩ := hargs
    simp only [callBind, C38_no_parameters]
    cases body <;> rfl
  · simp only [callBind, C38_called d c params body data p' w args p'' hp hargs]
    cases body <;> rfl

/-- C37: these are all cases when all bindings are ordinary ones: whatever the bytes, either nothing is called and
nothing written, or some binding's id and parameters stand complete in the request, and that function is called. -/
theorem C37_serve_cases {σ : Type} (d : Nat) (c : Cfg) (noFit : Bool) (idTy : Ty) (bs : List (Binding σ)) (w : σ)
    (data : List UInt8) (p : Nat) (o : OutSt) (hn : nodup (bs.map Binding.id) = true)
    (hord : ∀ b ∈ bs, ∃ id params body, b = .bind id params body) :
    let r := serve (d + 1) c noFit idTy bs w data p o
    (r.w = w ∧ r.o = o ∧ r.s ≠ .ok) ∨
    ∃ (id : Val) (p' i : Nat) (params : List Ty) (body : Body σ) (args : List Val) (p'' : Nat),
      decMany (d + 1) c data (fresh c (d + 1) [idTy]) p = ⟨.ok, [id], p'⟩ ∧
      bs[i]? = some (.bind id params body) ∧
      decMany d c data (fresh c d params) p' = ⟨.ok, args, p''⟩ ∧
      r.p = p'' ∧
      match body with
      | .void f => r.s = .ok ∧ r.w = f w args ∧ r.o = o
      | .errc f => r.s = (match (f w args).1 with | none => .ok | some e => .err e) ∧ r.w = (f w args).2 ∧ r.o = o
      | .value t f => r.w = (f w args).2 ∧ (r.s, r.o) = outCall (d + 1) c noFit [(t, (f w args).1)] o := by
  intro r
  rcases hid : decMany (d + 1) c data (fresh c (d + 1) [idTy]) p with ⟨s, vs, p'⟩
  by_cases hs : s = .ok
  · subst hs
    have hlen : vs.length = 1 := by
      have := decMany_length (d := d + 1) (c := c) (data := data) (fresh c (d + 1) [idTy]) p
      rw [hid] at this
      simpa [fresh] using this
    obtain ⟨id, rfl⟩ : ∃ id, vs = [id] := by
      cases vs with
      | nil => simp at hlen
      | cons v vs => cases vs with
        | nil => exact ⟨v, rfl⟩
        | cons _ _ => simp at hlen
    by_cases hb : ∃ b ∈ bs, b.id = id
    · obtain ⟨b, hb, rfl⟩ := hb
      obtain ⟨id, params, body, rfl⟩ := hord b hb
      obtain ⟨i, hi⟩ := List.getElem?_of_mem hb
      rcases hargs : decMany d c data (fresh c d params) p' with ⟨s, vs, p''⟩
      by_cases hs : s = .ok
      · subst hs
        right
        refine ⟨id, p', i, params, body, vs, p'', rfl, hi, hargs, ?_⟩
        have := C37_called d c noFit idTy bs w data p o id p' i params body vs p'' hn hid hi hargs
        simp only [r, this]
        cases body with
        | void f => exact ⟨rfl, rfl, rfl, rfl⟩
        | errc f => exact ⟨rfl, rfl, rfl, rfl⟩
        | value t f => exact ⟨rfl, rfl, rfl⟩
      · left
        have := C37_bad_arguments d c noFit idTy bs w data p o id p' i params body s vs p'' hn hid hi hargs hs
        simp only [r, this]
        exact ⟨trivial, trivial, hs⟩
    · left
      have := C37_unknown_id (d + 1) c noFit idTy bs w data p o id p' hid (fun b hm e => hb ⟨b, hm, e⟩)
      simp only [r, this]
      exact ⟨trivial, trivial, by simp⟩
  · left
    have := C37_no_id (d + 1) c noFit idTy bs w data p o s vs p' hid hs
    simp only [r, this]
    exact ⟨trivial, trivial, hs⟩

/-- Bindings for the examples: ids are one byte. -/
def exBindings : List (Binding (List (Nat × List Val))) := [
  .bind (.num 1) [.scalar .int 2, Checks.str] (.value (.scalar .int 4) fun w a => (.num (w.length + 1), w ++ [(1, a)])),
  .bind (.num 2) [.bool] (.void fun w a => w ++ [(2, a)]),
  .bind (.num 3) [] (.errc fun w a => (some .badMessage, w ++ [(3, a)])),
  .bind (.num 4) [.bool] (.errc fun w a => (none, w ++ [(4, a)]))]

/-- Requests: complete; too short; without id; unknown id; two functions without result. -/
example :
    let c := Checks.le Checks.grow (.fixed 1)
    let sv := fun data => serve 21 c false (.scalar .int 1) exBindings [] data 0 ⟨[9], 1⟩
    nodup (exBindings.map Binding.id) = true ∧ (∀ b ∈ exBindings, ∃ id params body, b = .bind id params body) ∧
    decMany 21 c [1, 2, 1, 1, 65] (fresh c 21 [.scalar .int 1]) 0 = ⟨.ok, [.num 1], 1⟩ ∧
    decMany 20 c [1, 2, 1, 1, 65] (fresh c 20 [.scalar .int 2, Checks.str]) 1 =
      ⟨.ok, [.num 258, Checks.strV [65]], 5⟩ ∧
    ((sv [1, 2, 1, 1, 65]).s = .ok ∧ (sv [1, 2, 1, 1, 65]).w = [(1, [.num 258, Checks.strV [65]])] ∧
      (sv [1, 2, 1, 1, 65]).o = ⟨[9, 1, 0, 0, 0], 5⟩) ∧
    ((sv [1, 2, 1, 1]).s = .err .resultOutOfRange ∧ (sv [1, 2, 1, 1]).w = [] ∧ (sv [1, 2, 1, 1]).o = ⟨[9], 1⟩) ∧
    ((sv []).s = .err .resultOutOfRange ∧ (sv []).w = []) ∧
    ((sv [7, 1]).s = .err .notSupported ∧ (sv [7, 1]).w = []) ∧
    ((sv [2, 1]).s = .ok ∧ (sv [2, 1]).w = [(2, [.num 1])] ∧ (sv [2, 1]).o = ⟨[9], 1⟩) ∧
    ((sv [3]).s = .err .badMessage ∧ (sv [3]).w = [(3, [])]) := by
  refine ⟨by decide +kernel, ?_, ?_⟩
  · intro b hb
    simp [exBindings] at hb
    rcases hb with rfl | rfl | rfl | rfl <;> exact ⟨_, _, _, rfl⟩
  · decide +kernel

/-! ## Client and server -/

theorem boundFns_provides {σ : Type} {d : Nat} {c : Cfg} {bindings : List (Binding σ)} {i : Nat} {fn : Fn σ}
    (h : boundFns bindings i = some fn) : ∃ b, bindings[i]? = some b ∧ Provides d c fn b := by
  simp only [boundFns] at h
  split at h
  · rename_i e
    cases h
    exact ⟨_, e, rfl⟩
  · cases h

/-- C36. A client and a server of the same bindings with distinct ids, over buffers: requests through `n.a`, responses
through `n.b`, which may be one and the same buffer. Both archives have the same wire format. Take any history of
operations (requests for any bound functions, with or without ids, servings, responses, interleaved in any way) that makes
sense on an ideal connection, on which messages are not encoded at all: the ideal server takes the next request, calls the
function with that id on the arguments, and sends the result back. If objects sent are supported by the archives, and the
buffers have room for them, then every operation succeeds or returns exactly what it returns on the ideal connection, the
functions were called exactly as on the ideal connection, and what is left in the buffers is the encoding of the messages
still under way.

The functions may be bound by `bind` or by `bind_opaque` (`Provides`): an opaquely bound function that reads its parameters
from the archive behaves like an ordinary one.

Partial: a function that returns `errc` sends no response (its result is returned by `serve`): see
`C36_errc_no_response`. -/
theorem C36_rpc_partial {σ : Type} (n : Net σ) (fns : Fns σ) (d : Nat) (f : Fmt) (ops : List NetOp) (rs : List NetRes)
    (sent : List (Chan × Msg)) (w' : σ) (q' : Queues) (s : NetSt σ) (bs : Chan → List UInt8)
    (hd : n.d = d + 1) (hcf : fmtOf n.cc = f) (hsf : fmtOf n.sc = f)
    (hids : nodup (n.bindings.map Binding.id) = true)
    (hfns : ∀ i fn, fns i = some fn → ∃ b, n.bindings[i]? = some b ∧ Provides n.d n.sc fn b)
    (hrun : IdealRun fns n.a n.b ops s.world (fun _ => []) rs sent w' q')
    (hempty : ∀ k, (s.buf k).rpos = (s.buf k).wpos ∧ (s.buf k).wpos ≤ (s.buf k).data.length ∧
      (s.buf k).data.length < 2 ^ 63)
    (hmsgs : ∀ km ∈ sent, MsgOk n fns km.2)
    (hbs : ∀ k, wireItems f (sentItems fns n.idTy k sent) = some (bs k)) (hl : ∀ k, (bs k).length < 2 ^ 63)
    (hbits : ∀ k, BitsOk (sentItems fns n.idTy k sent) ⟨(s.buf k).data, (s.buf k).wpos⟩)
    (hra : RoomFor n.cc.g (s.buf n.a).data.length ((s.buf n.a).wpos + (bs n.a).length))
    (hrb : RoomFor n.sc.g (s.buf n.b).data.length ((s.buf n.b).wpos + (bs n.b).length)) :
    (netRun n ops s).1 = rs ∧ (netRun n ops s).2.world = w' ∧
    ∀ k, wireItems f ((q' k).map (msgItems fns n.idTy)).flatten =
      some ((((netRun n ops s).2.buf k).data.take ((netRun n ops s).2.buf k).wpos).drop
        ((netRun n ops s).2.buf k).rpos) := by
  classical
  let noB : Chan → Bool := fun k => decide (∀ x ∈ sentItems fns n.idTy k sent, noBits x.2 = true)
  have hsim : Sim n fns f (fun _ => []) s noB := by
    refine ⟨fun k => ⟨(hempty k).2.1, (hempty k).2.2, [], rfl, ?_, ?_⟩, by simp, by simp, ?_⟩
    · simp [(hempty k).1]
    · rw [(hempty k).1]
      exact List.drop_eq_nil_of_le (by rw [List.length_take]; omega)
    · intro k
      rcases hbits k with h | h
      · exact Or.inl (by simp only [noB, decide_eq_true_eq]; exact h)
      · exact Or.inr h
  obtain ⟨s', e1, e2, e3⟩ := run_sim (served := n.bindings) hd hcf hsf hids
    (fun i fn h => (hfns i fn h).imp fun b hb => ⟨hb.1, hb.2.declares⟩)
    (fun i fn h => (hfns i fn h).elim fun b hb => ⟨b, List.mem_of_getElem? hb.1, hb.2⟩) hrun rfl hsim hmsgs hbs hl
    (fun k hb => by simp only [noB, decide_eq_true_eq] at hb; exact hb) hra hrb
  rw [runBetween_same] at e1
  rw [e1]
  refine ⟨rfl, e2, fun k => ?_⟩
  obtain ⟨b, h1, _, h3⟩ := (e3.holds k).body
  rw [h3]
  exact h1

/-- C36: one call of a function with a result: `request<Id>(args...)`, `serve()`, `response<Id>()` all succeed, the
response is `f(args...)`, and `f` was called once on `args`. -/
theorem C36_call {σ : Type} (n : Net σ) (fns : Fns σ) (d : Nat) (fm : Fmt) (i : Nat) (fn : Fn σ) (t : Ty)
    (f : σ → List Val → Val × σ) (args : List Val) (s : NetSt σ) (bs : Chan → List UInt8)
    (hd : n.d = d + 1) (hcf : fmtOf n.cc = fm) (hsf : fmtOf n.sc = fm)
    (hids : nodup (n.bindings.map Binding.id) = true)
    (hfns : ∀ i fn, fns i = some fn → ∃ b, n.bindings[i]? = some b ∧ Provides n.d n.sc fn b)
    (hi : fns i = some fn) (hf : fn.body = .value t f) (hargs : args.length = fn.params.length)
    (hempty : ∀ k, (s.buf k).rpos = (s.buf k).wpos ∧ (s.buf k).wpos ≤ (s.buf k).data.length ∧
      (s.buf k).data.length < 2 ^ 63)
    (hreq : MsgOk n fns (.req true i args)) (hresp : MsgOk n fns (.resp i (f s.world args).1))
    (hbs : ∀ k, wireItems fm (sentItems fns n.idTy k [(n.a, .req true i args), (n.b, .resp i (f s.world args).1)]) =
      some (bs k)) (hl : ∀ k, (bs k).length < 2 ^ 63)
    (hbits : ∀ k, BitsOk (sentItems fns n.idTy k [(n.a, .req true i args), (n.b, .resp i (f s.world args).1)])
      ⟨(s.buf k).data, (s.buf k).wpos⟩)
    (hra : RoomFor n.cc.g (s.buf n.a).data.length ((s.buf n.a).wpos + (bs n.a).length))
    (hrb : RoomFor n.sc.g (s.buf n.b).data.length ((s.buf n.b).wpos + (bs n.b).length)) :
    let r := netRun n [askFor fn true i args, .serve, .response i] s
    r.1 = [(.ok, none), (.ok, none), (.ok, some (f s.world args).1)] ∧ r.2.world = (f s.world args).2 := by
  have hrun : ∃ q', IdealRun fns n.a n.b [askFor fn true i args, .serve, .response i] s.world (fun _ => [])
      [(.ok, none), (.ok, none), (.ok, some (f s.world args).1)]
      [(n.a, .req true i args), (n.b, .resp i (f s.world args).1)] (f s.world args).2 q' := by
    obtain ⟨id, params, body, opaq⟩ := fn
    subst hf
    refine ⟨_, .step (s := [(n.a, .req true i args)]) (.request hi hargs) (.step
      (s := [(n.b, .resp i (f s.world args).1)]) (.serve hi (rest := []) (by simp [push])) (.step (s := [])
        (.response hi rfl (rest := []) ?_) (.done _ _)))⟩
    by_cases e : n.b = n.a <;> simp [push, setQueue, idealCall, e]
  obtain ⟨q', hrun⟩ := hrun
  have := C36_rpc_partial n fns d fm _ _ _ _ q' s bs hd hcf hsf hids hfns hrun hempty (by
    intro km hk
    simp only [List.mem_cons, List.not_mem_nil, or_false] at hk
    rcases hk with rfl | rfl
    · exact hreq
    · exact hresp) hbs hl hbits hra hrb
  exact ⟨this.1, this.2.1⟩

/-- Client and server over two growing buffers. -/
def exNet : Net (List (Nat × List Val)) :=
  let c := Checks.le Checks.grow (.fixed 1)
  ⟨21, c, c, false, .one, .two, .scalar .int 1, exBindings⟩

/-- The same over one buffer. -/
def exNet1 : Net (List (Nat × List Val)) := { exNet with b := .one }

/-- A fresh connection. -/
def exStart : NetSt (List (Nat × List Val)) := ⟨[], fun _ => ⟨[], 0, 0⟩⟩

/-- One call of the first function (over one buffer) meets the hypotheses of `C36_call`, and gives the result. -/
example :
    let args := [Val.num 258, Checks.strV [65]]
    let sent : List (Chan × Msg) := [(.one, .req true 0 args), (.one, .resp 0 (.num 1))]
    let bs : Chan → List UInt8 := fun k => if k = .one then [1, 2, 1, 1, 65, 1, 0, 0, 0] else []
    (∀ i fn, boundFns exBindings i = some fn → ∃ b, exNet1.bindings[i]? = some b ∧ Provides exNet1.d exNet1.sc fn b) ∧
    MsgOk exNet1 (boundFns exBindings) (.req true 0 args) ∧ MsgOk exNet1 (boundFns exBindings) (.resp 0 (.num 1)) ∧
    (∀ k, wireItems (fmtOf exNet1.cc) (sentItems (boundFns exBindings) exNet1.idTy k sent) = some (bs k)) ∧
    RoomFor exNet1.cc.g 0 9 ∧
    (netRun exNet1 [.request true 0 args, .serve, .response 0] exStart).1 =
      [(.ok, none), (.ok, none), (.ok, some (.num 1))] ∧
    (netRun exNet1 [.request true 0 args, .serve, .response 0] exStart).2.world = [(1, args)] := by
  refine ⟨fun i fn => boundFns_provides, ⟨?_, ⟨grow_ok, so_abi, fun _ => ⟨rfl, rfl⟩, ?_⟩, ⟨so_abi, fun _ => ⟨rfl, rfl⟩, ?_, ?_⟩⟩,
    ⟨?_, ⟨grow_ok, so_abi, fun _ => ⟨rfl, rfl⟩, ?_⟩, ⟨so_abi, fun _ => ⟨rfl, rfl⟩, ?_, ?_⟩⟩, ?_, ?_,
    by decide +kernel, by decide +kernel⟩
  · intro x hx; simp [msgItems, boundFns, exNet1, exNet, exBindings] at hx; rcases hx with rfl | rfl | rfl <;> decide
  · intro x hx; simp [msgItems, boundFns, exNet1, exNet, exBindings] at hx; rcases hx with rfl | rfl | rfl <;> rfl
  · intro x hx; simp [msgItems, boundFns, exNet1, exNet, exBindings] at hx; rcases hx with rfl | rfl | rfl <;> rfl
  · intro x hx
    simp [msgItems, boundFns, exNet1, exNet, exBindings] at hx
    rcases hx with rfl | rfl | rfl <;>
      simp [Loadable, LoadableL, Checks.str, Checks.strV, Fits, exNet1, exNet, Checks.le, Checks.grow, Checks.so,
        Checks.chr]
  · intro x hx; simp [msgItems, boundFns, exNet1, exNet, exBindings] at hx; subst hx; decide
  · intro x hx; simp [msgItems, boundFns, exNet1, exNet, exBindings] at hx; subst hx; rfl
  · intro x hx; simp [msgItems, boundFns, exNet1, exNet, exBindings] at hx; subst hx; rfl
  · intro x hx; simp [msgItems, boundFns, exNet1, exNet, exBindings] at hx; subst hx; simp [Loadable]
  · intro k; cases k <;> decide +kernel
  · simp [RoomFor, LimitRoom, MemRoom, exNet1, exNet, Checks.le, Checks.grow, sizeMax]

/-- An interleaved history over two buffers: two requests (one without its id), then the servings and the response. -/
example :
    ∃ q', IdealRun (boundFns exBindings) exNet.a exNet.b
      [.request true 1 [.num 1], .request false 0 [.num 5, Checks.strV []], .serve, .response 1, .serveId 0, .response 0]
      [] (fun _ => []) [(.ok, none), (.ok, none), (.ok, none), (.ok, none), (.ok, none), (.ok, some (.num 2))]
      [(.one, .req true 1 [.num 1]), (.one, .req false 0 [.num 5, Checks.strV []]), (.two, .resp 0 (.num 2))]
      [(2, [.num 1]), (1, [.num 5, Checks.strV []])] q' := by
  refine ⟨setQueue .two [] (push .two [.resp 0 (.num 2)] (setQueue .one [] (push .two [] (setQueue .one
    [.req false 0 [.num 5, Checks.strV []]] (push .one [.req false 0 [.num 5, Checks.strV []]]
      (push .one [.req true 1 [.num 1]] fun _ => [])))))), ?_⟩
  refine .step (s := [(.one, .req true 1 [.num 1])]) (.request (fn := ⟨.num 2, [.bool], .void fun w a => w ++ [(2, a)], false⟩)
    rfl rfl) ?_
  refine .step (s := [(.one, .req false 0 [.num 5, Checks.strV []])]) (.request (fn := ⟨.num 1, [.scalar .int 2, Checks.str],
    .value (.scalar .int 4) fun w a => (.num (w.length + 1), w ++ [(1, a)]), false⟩) rfl rfl) ?_
  refine .step (s := []) (.serve (i := 1) (args := [.num 1])
    (fn := ⟨.num 2, [.bool], .void fun w a => w ++ [(2, a)], false⟩) rfl (rest := [.req false 0 [.num 5, Checks.strV []]]) rfl) ?_
  refine .step (s := []) (.responseVoid rfl rfl) ?_
  refine .step (s := [(.two, .resp 0 (.num 2))]) (.serveId (i := 0) (args := [.num 5, Checks.strV []])
    (fn := ⟨.num 1, [.scalar .int 2, Checks.str], .value (.scalar .int 4) fun w a => (.num (w.length + 1), w ++ [(1, a)]),
      false⟩) rfl (rest := []) rfl) ?_
  refine .step (s := []) (.response (rest := []) rfl rfl rfl) (.done _ _)

/-- C36 fails for functions that return `errc`: `serve` writes no response, so that `response<Id>()` of the client fails
although the function was called and succeeded (binding 3 of the example returns success). -/
theorem C36_errc_no_response :
    ∃ (n : Net (List (Nat × List Val))) (s : NetSt (List (Nat × List Val))) (i : Nat) (id : Val) (params : List Ty)
      (f : List (Nat × List Val) → List Val → Option Errc × List (Nat × List Val)) (args : List Val),
      n.bindings[i]? = some (.bind id params (.errc f)) ∧ (∀ w a, (f w a).1 = none) ∧
      MsgOk n (boundFns n.bindings) (.req true i args) ∧
      (netRun n [.request true i args, .serve, .response i] s).1 =
        [(.ok, none), (.ok, none), (.err .resultOutOfRange, none)] ∧
      (netRun n [.request true i args, .serve, .response i] s).2.world = [(4, args)] := by
  refine ⟨exNet, exStart, 3, .num 4, [.bool], _, [.num 1], rfl, fun _ _ => rfl,
    ⟨?_, ⟨grow_ok, so_abi, fun _ => ⟨rfl, rfl⟩, ?_⟩, ⟨so_abi, fun _ => ⟨rfl, rfl⟩, ?_, ?_⟩⟩,
    by decide +kernel, by decide +kernel⟩
  · intro x hx; simp [msgItems, boundFns, exNet, exBindings] at hx; rcases hx with rfl | rfl <;> decide
  · intro x hx; simp [msgItems, boundFns, exNet, exBindings] at hx; rcases hx with rfl | rfl <;> rfl
  · intro x hx; simp [msgItems, boundFns, exNet, exBindings] at hx; rcases hx with rfl | rfl <;> rfl
  · intro x hx
    simp [msgItems, boundFns, exNet, exBindings] at hx
    rcases hx with rfl | rfl <;> simp [Loadable]

/-- C36, errc functions, continued. `response<Id>()` for such a function takes whatever was sent next for its error
code: if the answer of another function waits, an `int` say, the client reports that number as the `errc` of this call,
and the other answer is gone. -/
theorem C36_errc_steals {σ : Type} (n : Net σ) (s : NetSt σ) (d i x : Nat) (id : Val) (params : List Ty)
    (f : σ → List Val → Option Errc × σ) (bs rest : List UInt8)
    (hb : n.bindings[i]? = some (.bind id params (.errc f))) (hd : n.d = d + 4) (ha : AbiOk n.cc.sizeof)
    (he : EnvGood n.cc) (hg : Good n.cc (.struct true [.scalar .enum 4]) = true)
    (hlen : (s.buf n.b).data.length < 2 ^ 64) (hp : (s.buf n.b).rpos ≤ (s.buf n.b).data.length)
    (hw : wireItems (fmtOf n.cc) [(.scalar .int 4, .num x)] = some bs)
    (hdata : (s.buf n.b).data.drop (s.buf n.b).rpos = bs ++ rest) :
    netStep n (.response i) s = ((.ok, some (.list [.num x])),
      s.set n.b ⟨(s.buf n.b).data, (s.buf n.b).wpos, (s.buf n.b).rpos + 4⟩) := by
  have hw' : wireItems (fmtOf n.cc) [(.struct true [.scalar .enum 4], .list [.num x])] = some bs := by
    rw [← hw]
    simp only [wireItems, wire, wireFields, wireNum]
    split <;> simp [cat]
  have hl : bs.length = 4 := by
    simp only [wireItems, wire, wireNum] at hw
    split at hw
    · simp only [cat, Option.some.injEq] at hw
      rw [← hw]
      simp
    · cases hw
  have h := decMany_rd (d := n.d) ha he hlen [(.struct true [.scalar .enum 4], .list [.num x])]
    [(.struct true [.scalar .enum 4], dflt n.cc n.d (.struct true [.scalar .enum 4]))] bs hw' (by
      intro y hy; simp only [List.mem_singleton] at hy; subst hy; exact hg) (by
      intro y hy; simp only [List.mem_singleton] at hy; subst hy; simp [Loadable, LoadableF]) (by
      intro y hy; simp only [List.mem_singleton] at hy; subst hy; simp [depth, depthL]; omega) rfl _ rest hp hdata
  simp only [netStep, netResponse, hb, Option.map_some, Binding.ret, Body.ret]
  have hr : Duplex.read n.d n.cc [(.struct true [.scalar .enum 4], dflt n.cc n.d (.struct true [.scalar .enum 4]))]
      (s.buf n.b) = (.ok, [.list [.num x]], ⟨(s.buf n.b).data, (s.buf n.b).wpos, (s.buf n.b).rpos + 4⟩) := by
    simp only [Duplex.read, h, hl, List.map]
  rw [hr]
  rfl
-- The answer 1 of function 0 is taken for the error code of function 3, which returned success; function 0's caller gets
-- nothing.
example : (netRun exNet [.request true 0 [.num 5, Checks.strV []], .serve, .request true 3 [.num 1], .serve, .response 3,
      .response 0] exStart).1 =
    [(.ok, none), (.ok, none), (.ok, none), (.ok, none), (.ok, some (.list [.num 1])), (.err .resultOutOfRange, none)] ∧
    Good exNet.cc (.struct true [.scalar .enum 4]) = true := by decide +kernel

end Zpp.Props
