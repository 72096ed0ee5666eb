import Verif.Model.Rpc
/-!
# The arguments of a remote call

What `client::request<Id>(arguments...)` and `request_body` do with arguments whose types are not those of the parameters
(zpp_bits.h:3870-3926, 3928-3983), and the parameter types of a function (`function_traits`, 3362-3455). Not modelled:
arguments and parameters of floating point types that differ, and classes derived from the class of a parameter.
-/

namespace Zpp

/-- C++ types of arguments and parameters, without `const` and references (`std::remove_cvref_t`, zpp_bits.h:3367, 3885).
* `integer chr sgn n` : an integer type of `n` bytes, `chr` for `char` and `unsigned char`, `sgn` if it is signed;
* `enum tag cls sgn n` : the enumeration number `tag` with its underlying type, `cls` for an `enum class`;
* `other tag t` : any other type, by a number that tells types apart; it is serialized as `t`. -/
inductive ArgTy
  | integer (chr sgn : Bool) (n : Nat)
  | bool
  | enum (tag : Nat) (cls sgn : Bool) (n : Nat)
  | other (tag : Nat) (t : Ty)

/-- Whether two types are the same (`std::same_as`, zpp_bits.h:3883-3887). -/
def ArgTy.same : ArgTy → ArgTy → Bool
  | .integer c s n, .integer c' s' n' => c == c' && s == s' && n == n'
  | .bool, .bool => true
  | .enum i _ _ _, .enum j _ _ _ => i == j
  | .other i _, .other j _ => i == j
  | _, _ => false

/-- How objects of the type are serialized. -/
def ArgTy.ty : ArgTy → Ty
  | .integer true _ n => .scalar .chr n
  | .integer false _ n => .scalar .int n
  | .bool => .bool
  | .enum _ _ _ n => .scalar .enum n
  | .other _ t => t

/-- An argument: an object, and whether the caller's object is `const`. -/
structure CallArg where
  ty : ArgTy
  const : Bool
  v : Val

/-- Whether `std::tuple<..., T, ...>` can be constructed from a reference to the argument, as far as this element is concerned
(`std::is_constructible_v<T, A &>`, required at zpp_bits.h:3890-3894): integers and `bool` from integers, `bool` and enumerations
other than `enum class`; any type from itself. -/
def constructible (t : ArgTy) (a : CallArg) : Bool :=
  match t, a.ty with
  | .integer _ _ _, .integer _ _ _ => true
  | .integer _ _ _, .bool => true
  | .integer _ _ _, .enum _ cls _ _ => !cls
  | .bool, .integer _ _ _ => true
  | .bool, .bool => true
  | .bool, .enum _ cls _ _ => !cls
  | t, u => t.same u

/-- The object representation after the sign of a `sgn`ed integer of `n` bytes has been copied into (or its upper bytes dropped
from) `m` bytes: `static_cast` between integer types. -/
def castInt (sgn : Bool) (n x m : Nat) : Nat :=
  if sgn && decide (2 ^ (8 * n - 1) ≤ x) then (x + (2 ^ (8 * (m + n)) - 2 ^ (8 * n))) % 2 ^ (8 * m) else x % 2 ^ (8 * m)

/-- The value of the argument as an integer type: its bytes, how many they are, and whether it is signed. -/
def CallArg.integer : CallArg → Option (Bool × Nat × Nat)
  | ⟨.integer _ s n, _, .num x⟩ => some (s, n, x)
  | ⟨.bool, _, .num x⟩ => some (false, 1, x)
  | ⟨.enum _ _ s n, _, .num x⟩ => some (s, n, x)
  | _ => none

/-- `static_cast<...>(argument)` (zpp_bits.h:3896-3909, 3954-3967): to the type of the parameter if that is fundamental or an
enumeration; otherwise to `const decltype(get<I>(...)) &`. As `decltype(get<I>(...))` is the reference `T &&`, the `const` has no
effect and the type is `T &`, which a `const` argument cannot be cast to. `none`: the call does not compile. -/
def castArg (t : ArgTy) (a : CallArg) : Option Val :=
  match t with
  | .integer _ _ m => a.integer.map fun (s, n, x) => .num (castInt s n x m)
  | .bool => a.integer.map fun (_, _, x) => .num (if x = 0 then 0 else 1)
  | .enum _ _ _ _ => if t.same a.ty then some a.v else none
  | .other _ _ => if t.same a.ty && !a.const then some a.v else none

/-- The objects written for the arguments (zpp_bits.h:3878-3911, 3937-3969): none for a function without parameters; the
arguments as they are if all types are those of the parameters; otherwise each argument converted to the type of its parameter.
`none`: the call does not compile. -/
def convertArgs (params : List ArgTy) (args : List CallArg) : Option (List Val) :=
  if params.isEmpty then (if args.isEmpty then some [] else none)
  else if params.length ≠ args.length then none
  else if (params.zip args).all (fun p => p.1.same p.2.ty) then some (args.map CallArg.v)
  else if (params.zip args).all (fun p => constructible p.1 p.2) then
    (params.zip args).mapM fun p => castArg p.1 p.2
  else none

/-- `client.request<Id>(arguments...)` (`withId`) or `request_body<Id>(arguments...)`, with arguments of any types, for the
function with index `i`, bound by `bind` and declared with the parameters `params` (zpp_bits.h:3870-3983). -/
def netRequestArgs {σ : Type} (n : Net σ) (withId : Bool) (i : Nat) (params : List ArgTy) (args : List CallArg) (s : NetSt σ) :
    NetRes × NetSt σ :=
  match convertArgs params args with
  | some vs => netRequest n withId i vs s
  | none => ((.illFormed, none), s)

end Zpp
