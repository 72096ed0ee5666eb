import Verif.Model.RpcVersions
import Verif.Spec.Rpc
/-!
# Specification: what a client knows of a function
-/

namespace Zpp.Spec

/-- The client has a binding for the function: by `bind`, with the id, the types of the parameters and the return type of the
function, whatever its body; by `bind_opaque`, with the id and the return type. -/
def Declares {σ : Type} (fn : Fn σ) (b : Binding σ) : Prop :=
  match fn.opaq with
  | false => ∃ body : Body σ, b = .bind fn.id fn.params body ∧ body.ret = fn.body.ret
  | true => ∃ f, b = .opaque fn.id fn.body.ret f

end Zpp.Spec
