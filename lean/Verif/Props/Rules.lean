import Verif.Proof.Rules
/-!
# The archives follow the overload rules
-/

namespace Zpp.Props
open Zpp

/-- C74. Output: whatever C++ type a kind stands for (`Reading`), overload resolution selects a rule for it, and the archive
does what that rule says, its elements and members being written by the archive in turn. -/
theorem C74_output (d : Nat) (c : Cfg) (r : Reading) (t : Ty) (v : Val) (hr : readable r t = true)
    (hn : ∀ n t' vs, t = .array n t' → v = .list vs → vs.length = n) :
    outByRule c (encode d c) (encode d (pbOutCfg c)) r t v = some (encode (d + 1) c t v) :=
  outByRule_eq d c r t v hr fun n t' h vs hv => hn n t' vs h hv

/-- C74. Input: likewise; only maps and sets without a size type are refused (by the compiler). -/
theorem C74_input (d : Nat) (c : Cfg) (r : Reading) (t : Ty) (old : Val) (data : List UInt8) (p : Nat)
    (hr : readable r t = true) :
    inByRule c (fun t v p => decode d c t v data p) (dflt c d)
      (fun t size p => match t with
        | .msg _ _ maps nums fs => msgRun (pbCfg c) (decode d (pbCfg c)) (dflt (pbCfg c) d) maps nums fs old data size p
        | _ => ⟨.illFormed, old, p⟩) r t old data p =
    match t with
    | .assoc _ _ sz _ _ => if effSz c sz = .none then none else some (decode (d + 1) c t old data p)
    | _ => some (decode (d + 1) c t old data p) :=
  inByRule_eq d c r t old data p hr

/-- C74. The C++ types a kind stands for are interchangeable: a tuple is written like a class with the same members and like a
class with a function listing them, a `std::array` and a `std::span` of fixed extent like a C array, a `std::deque` like a `std::list`. -/
theorem C74_interchangeable (d : Nat) (c : Cfg) (r r' : Reading) (t : Ty) (v : Val) (hr : readable r t = true)
    (hr' : readable r' t = true) (hn : ∀ n t' vs, t = .array n t' → v = .list vs → vs.length = n) :
    outByRule c (encode d c) (encode d (pbOutCfg c)) r t v = outByRule c (encode d c) (encode d (pbOutCfg c)) r' t v := by
  rw [C74_output d c r t v hr hn, C74_output d c r' t v hr' hn]

/-- The three readings of a pair of numbers, both readings of an array, and a view of bytes. -/
example :
    (readable .plain (.struct false [.scalar .int 4, .scalar .int 4]) &&
     readable .tuple (.struct false [.scalar .int 4, .scalar .int 4]) &&
     readable .function (.struct false [.scalar .int 4, .scalar .int 4]) &&
     readable .plain (.struct true [.scalar .int 4, .scalar .int 4]) &&
     !readable .tuple (.struct true [.scalar .int 4, .scalar .int 4]) &&
     readable .tuple (.array 3 (.scalar .int 2)) && readable .plain (.array 3 (.scalar .int 2)) &&
     readable .plain (.seq .view none (.scalar .chr 1))) = true := by decide +kernel

end Zpp.Props
