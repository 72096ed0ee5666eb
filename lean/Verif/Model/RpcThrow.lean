import Verif.Model.Rpc
/-!
# Servers of functions that return `zpp::throwing`

`call_binding_throwing` and `serve` (zpp_bits.h:4141-4300) and `response` (3993-4009), compiled if `zpp_throwing.h` is there. That
header is not part of the repository. Assumed of it: a coroutine that returns `zpp::throwing<T>` runs when it is called (`serve()`
hands a reference to its local `id` to one, so that it could not wait) and leaves an object that holds its value or what it
threw; `co_await` gives the value or throws what is held; `co_yield code` and a conversion from a code throw the code, whatever
it is; an object that is dropped is dropped silently. Exceptions of C++ are not modelled.
-/

namespace Zpp

/-- What a coroutine throws: an error code (`none` is `std::errc{}`), or anything else. -/
inductive Thrown
  | code (e : Option Errc)
  | other (n : Nat)
deriving DecidableEq, Repr, Inhabited

/-- A bound function: an ordinary one, or one that returns `zpp::throwing<void>` or `zpp::throwing<T>`. -/
inductive TBody (σ : Type)
  | plain (b : Body σ)
  | throwsVoid (f : σ → List Val → Option Thrown × σ)
  | throws (t : Ty) (f : σ → List Val → Except Thrown Val × σ)

/-- What `Binding::call` returns: what it returns for ordinary functions (also a `value_or_errc` without value), a
`zpp::throwing<void>`, or a `zpp::throwing<T>`, perhaps in a `value_or_errc`. -/
inductive TApplied
  | plain (a : Applied)
  | awaitVoid (e : Option Thrown)
  | await (t : Ty) (r : Except Thrown Val)

/-- Reading the parameters (zpp_bits.h:3639-3652, 3664-3677, 3698-3724): as in `apply`. -/
def readParams (d : Nat) (c : Cfg) (params : List Ty) (data : List UInt8) (p : Nat) : Status × List Val × Nat :=
  match params with
  | [] => (.ok, [], p)
  | _ :: _ => let r := decode d c (.struct false params) (dflt c d (.struct false params)) data p; (r.s, r.v.elems, r.p)

/-- `Binding::call(in, context)` (zpp_bits.h:3625-3742, 3755-3764): `apply`. -/
def applyT {σ : Type} (d : Nat) (c : Cfg) (params : List Ty) (body : TBody σ) (data : List UInt8) (p : Nat) (w : σ) :
    TApplied × σ × Nat :=
  match body with
  | .plain b => let r := apply d c params b data p w; (.plain r.1, r.2.1, r.2.2)
  | .throwsVoid f =>
    match readParams d c params data p with
    | (.ok, args, p') => let r := f w args; (.awaitVoid r.1, r.2, p')
    | (s, _, p') => (.plain (.failed s), w, p')
  | .throws t f =>
    match readParams d c params data p with
    | (.ok, args, p') => let r := f w args; (.await t r.1, r.2, p')
    | (s, _, p') => (.plain (.failed s), w, p')

/-- How `serve()` of such a server ends: it returns, it throws, or it does not come back in a defined way. -/
inductive TStatus
  | done
  | thrown (e : Thrown)
  | stop (s : Status)
deriving DecidableEq, Repr, Inhabited

/-- `co_await` on an `errc` (zpp_bits.h:127-135), and `if (failure(result)) co_yield result.code; co_return;`
(4151-4159, 4215-4223). -/
def awaitErrc : Status → TStatus
  | .ok => .done
  | .err e => .thrown (.code (some e))
  | s => .stop s

/-- `co_yield result.error().code` (zpp_bits.h:4182, 4236) and a `zpp::throwing<void>` made from a code (4296). -/
def yieldCode : Status → TStatus
  | .ok => .thrown (.code none)
  | .err e => .thrown (.code (some e))
  | s => .stop s

/-- Result of serving a request: outcome, world, position of the input archive, state of the output archive. -/
structure TServed (σ : Type) where
  s : TStatus
  w : σ
  p : Nat
  o : OutSt

/-- `co_await out(value)`. -/
def awaitOut {σ : Type} (d : Nat) (c : Cfg) (noFit : Bool) (o : OutSt) (w : σ) (p : Nat) (t : Ty) (v : Val) : TServed σ :=
  let r := outCall d c noFit [(t, v)] o
  ⟨awaitErrc r.1, w, p, r.2⟩

/-- The matching branch of `call_binding_throwing` for an ordinary binding (zpp_bits.h:4146-4194). With parameters, a
`zpp::throwing<void>` is not awaited (4185-4191). -/
def callBindT {σ : Type} (d : Nat) (c : Cfg) (noFit : Bool) (params : List Ty) (body : TBody σ) (w : σ) (data : List UInt8)
    (p : Nat) (o : OutSt) : TServed σ :=
  match applyT d c params body data p w with
  | (.plain (.code s), w', p') => ⟨awaitErrc s, w', p', o⟩
  | (.plain (.failed s), w', p') => ⟨yieldCode s, w', p', o⟩
  | (.plain (.value t v), w', p') => awaitOut d c noFit o w' p' t v
  | (.awaitVoid e, w', p') =>
    match params, e with
    | [], some e => ⟨.thrown e, w', p', o⟩
    | _, _ => ⟨.done, w', p', o⟩
  | (.await _ (.error e), w', p') => ⟨.thrown e, w', p', o⟩
  | (.await t (.ok v), w', p') => awaitOut d c noFit o w' p' t v

/-- What an opaquely bound function returned. -/
inductive TOpaqueRet
  | plain (r : OpaqueRet)
  | awaitVoid (e : Option Thrown)
  | await (t : Ty) (r : Except Thrown Val)

/-- A function bound by `bind_opaque` (as `OpaqueFn`). -/
inductive TOpaqueFn (σ : Type)
  | archives (f : σ → List UInt8 → Nat → OutSt → TOpaqueRet × σ × Nat × OutSt)
  | bytes (f : σ → List UInt8 → TOpaqueRet × σ × Nat)

/-- The matching branch of `call_binding_throwing` for an opaque binding (zpp_bits.h:4209-4263); the branch for `value_or_errc`
(4225-4248) is never selected, see `callOpaque`. -/
def callOpaqueT {σ : Type} (d : Nat) (c : Cfg) (noFit : Bool) (fn : TOpaqueFn σ) (w : σ) (data : List UInt8) (p : Nat)
    (o : OutSt) : TServed σ :=
  let finish (r : TOpaqueRet) (w : σ) (p : Nat) (o : OutSt) : TServed σ :=
    match r with
    | .plain .void => ⟨.done, w, p, o⟩
    | .plain (.errc e) => ⟨awaitErrc (codeStatus e), w, p, o⟩
    | .plain (.value t v) => awaitOut d c noFit o w p t v
    | .awaitVoid none => ⟨.done, w, p, o⟩
    | .awaitVoid (some e) => ⟨.thrown e, w, p, o⟩
    | .await _ (.error e) => ⟨.thrown e, w, p, o⟩
    | .await t (.ok v) => awaitOut d c noFit o w p t v
  match fn with
  | .archives f => let r := f w data p o; finish r.1 r.2.1 r.2.2.1 r.2.2.2
  | .bytes f =>
    if data.length < p then ⟨.stop .ub, w, p, o⟩
    else let r := f w (data.drop p); finish r.1 r.2.1 (p + r.2.2) o

/-- `bind<Function, Id>` and `bind_opaque<Function, Id>`. -/
inductive TBinding (σ : Type)
  | bind (id : Val) (params : List Ty) (body : TBody σ)
  | opaque (id : Val) (fn : TOpaqueFn σ)

/-- `Binding::id::value`. -/
def TBinding.id {σ : Type} : TBinding σ → Val
  | .bind id _ _ => id
  | .opaque id _ => id

/-- `server::call_binding_throwing<Bindings...>(id)` (zpp_bits.h:4141-4273): the first binding with the id. -/
def callBindingT {σ : Type} (d : Nat) (c : Cfg) (noFit : Bool) (id : Val) (w : σ) (data : List UInt8) (p : Nat)
    (o : OutSt) : List (TBinding σ) → TServed σ
  | [] => ⟨.thrown (.code (some .notSupported)), w, p, o⟩
  | b :: bs =>
    if b.id = id then
      match b with
      | .bind _ params body => callBindT d c noFit params body w data p o
      | .opaque _ fn => callOpaqueT d c noFit fn w data p o
    else callBindingT d c noFit id w data p o bs

/-- `server::serve()` if some bound function returns `zpp::throwing` (zpp_bits.h:4275-4300). -/
def serveT {σ : Type} (d : Nat) (c : Cfg) (noFit : Bool) (idTy : Ty) (bs : List (TBinding σ)) (w : σ) (data : List UInt8)
    (p : Nat) (o : OutSt) : TServed σ :=
  match decMany d c data [(idTy, dflt c d idTy)] p with
  | ⟨.ok, vs, p'⟩ => callBindingT d c noFit (vs.headD .unit) w data p' o bs
  | ⟨s, _, p'⟩ => ⟨yieldCode s, w, p', o⟩

end Zpp
