import Verif.Model.RpcThrow
import Verif.Spec.Rpc
/-!
# Specification: servers of functions that throw
-/

namespace Zpp.Spec

/-- What calling a function comes to: it throws or reports an error, or it gives nothing, or it gives an object; and the world it
leaves. -/
def outcome {σ : Type} (body : TBody σ) (w : σ) (args : List Val) : Except Thrown (Option (Ty × Val)) × σ :=
  match body with
  | .plain (.void f) => (.ok none, f w args)
  | .plain (.errc f) =>
    match f w args with
    | (none, w') => (.ok none, w')
    | (some e, w') => (.error (.code (some e)), w')
  | .plain (.value t f) => (.ok (some (t, (f w args).1)), (f w args).2)
  | .throwsVoid f =>
    match f w args with
    | (none, w') => (.ok none, w')
    | (some e, w') => (.error e, w')
  | .throws t f =>
    match f w args with
    | (.ok v, w') => (.ok (some (t, v)), w')
    | (.error e, w') => (.error e, w')

/-- What a server should make of it: an error is thrown and nothing is written; nothing is nothing; an object is written by one
output call, whose error is thrown. -/
def replyT (d : Nat) (c : Cfg) (noFit : Bool) (o : OutSt) : Except Thrown (Option (Ty × Val)) → TStatus × OutSt
  | .error e => (.thrown e, o)
  | .ok none => (.done, o)
  | .ok (some (t, v)) =>
    match outCall d c noFit [(t, v)] o with
    | (.ok, o') => (.done, o')
    | (.err e, o') => (.thrown (.code (some e)), o')
    | (s, o') => (.stop s, o')

/-- The same for a function that was called opaquely. -/
def opaqueOutcome : TOpaqueRet → Except Thrown (Option (Ty × Val))
  | .plain .void => .ok none
  | .plain (.errc none) => .ok none
  | .plain (.errc (some e)) => .error (.code (some e))
  | .plain (.value t v) => .ok (some (t, v))
  | .awaitVoid none => .ok none
  | .awaitVoid (some e) => .error e
  | .await t (.ok v) => .ok (some (t, v))
  | .await _ (.error e) => .error e

/-- The ordinary function that does the same where the function does not throw. A client reads the same response for both: an
object for `zpp::throwing<T>`, nothing for `zpp::throwing<void>` (zpp_bits.h:3993-4009). -/
def plainOf {σ : Type} : TBody σ → Body σ
  | .plain b => b
  | .throwsVoid f => .void fun w args => (f w args).2
  | .throws t f => .value t fun w args =>
      (match (f w args).1 with
      | .ok v => v
      | .error _ => .unit, (f w args).2)

/-- The function does not throw. -/
def NeverThrows {σ : Type} : TBody σ → Prop
  | .plain _ => True
  | .throwsVoid f => ∀ w args, (f w args).1 = none
  | .throws _ f => ∀ w args, ∃ v, (f w args).1 = .ok v

/-- The function returns `errc`. -/
def ReturnsErrc {σ : Type} : TBody σ → Prop
  | .plain (.errc _) => True
  | _ => False

/-- The two cases that the code gets wrong: a function with parameters that returns `errc` and succeeds, and a function with
parameters that returns `zpp::throwing<void>` and throws. -/
def Misreported {σ : Type} (params : List Ty) (body : TBody σ) (w : σ) (args : List Val) : Prop :=
  params ≠ [] ∧
  ((∃ f, body = .plain (.errc f) ∧ (f w args).1 = none) ∨ (∃ f e, body = .throwsVoid f ∧ (f w args).1 = some e))

/-- The outcome of an ordinary server, as one that throws. -/
def asThrown : Status → TStatus
  | .ok => .done
  | .err e => .thrown (.code (some e))
  | s => .stop s

/-- The ordinary binding that does the same. -/
def PlainBinding {σ : Type} : TBinding σ → Binding σ → Prop
  | .bind id params body, b => b = .bind id params (plainOf body)
  | .opaque id fn, b => ∃ ret g, b = .opaque id ret g ∧
      match fn, g with
      | .archives f, .archives g => ∀ w data p o, f w data p o = ((.plain (g w data p o).1), (g w data p o).2)
      | .bytes f, .bytes g => ∀ w data, f w data = (.plain (g w data).1, (g w data).2)
      | _, _ => False

end Zpp.Spec
