import Verif.Model.Out
import Verif.Spec.Supported
/-!
# Specification: archives, calls and histories
-/

namespace Zpp.Spec

/-- A reachable archive state: the position is inside the buffer, and the buffer is an object. -/
structure Valid (st : OutSt) : Prop where
  pos_le : st.pos ≤ st.data.length
  len_lt : st.data.length < 2 ^ 63

/-- Enough room below overflow and allocation limit for a total of `N` bytes: twice the size plus a
constant, times the enlarger. -/
def LimitRoom (g : Growth) (N : Nat) : Prop :=
  2 * (N + 10) * g.mul < 2 ^ 64 ∧ 2 * (N + 10) * g.mul / g.div ≤ g.limit

/-- Enough memory on the host. -/
def MemRoom (g : Growth) (N : Nat) : Prop := 2 * (N + 10) * g.mul / g.div ≤ g.maxMem

/-- Encoding of the items of a call: one after the other. -/
def wireItems (f : Fmt) : List (Ty × Val) → Option (List UInt8)
  | [] => some []
  | (t, v) :: rest => cat (wire f t v) (wireItems f rest)

/-- What a theorem about serializing `items` with the archive configuration `c` assumes statically. -/
structure Supported (c : Cfg) (items : List (Ty × Val)) : Prop where
  growth : GrowthOk c.g
  abi : AbiOk c.sizeof
  env : EnvGood c
  types : ∀ x ∈ items, Good c x.1 = true

/-- Enough stack for the nesting of the items. -/
def StackOk (d : Nat) (items : List (Ty × Val)) : Prop := ∀ x ∈ items, 2 * depth x.2 ≤ d

/-- The items contain no bitset, or every byte from the position on is zero. -/
def BitsOk (items : List (Ty × Val)) (st : OutSt) : Prop :=
  (∀ x ∈ items, noBits x.2 = true) ∨ ∀ b ∈ st.data.drop st.pos, b = 0

/-- The outcomes an output call may have. `stack` is stack exhaustion; `illFormed` means that the object does
not exist (not an object of its type, or larger than the address space). -/
def OutOutcome (g : Growth) : Status → Prop
  | .ok => True
  | .err .resultOutOfRange => True
  | .err .invalidArgument => True
  | .err .noBufferSpace => g.resizable = true
  | .badAlloc => g.resizable = true
  | .stack => True
  | .illFormed => True
  | _ => False

/-- States of an output archive over a history of calls (successful or not, of any items) and
repositionings (`reset(p)`, `position() = p`) to a place inside the buffer. -/
inductive Reach (d : Nat) (c : Cfg) (noFit : Bool) : OutSt → OutSt → Prop
  | init (st : OutSt) : Reach d c noFit st st
  | call {a b : OutSt} (items : List (Ty × Val)) : Reach d c noFit a b →
      Reach d c noFit a (outCall d c noFit items b).2
  | seek {a b : OutSt} (p : Nat) : Reach d c noFit a b → p ≤ b.data.length →
      Reach d c noFit a { b with pos := p }

/-- The same for histories in which repositionings never go in front of `q`. -/
inductive Onward (d : Nat) (c : Cfg) (noFit : Bool) (q : Nat) : OutSt → OutSt → Prop
  | init (st : OutSt) : Onward d c noFit q st st
  | call {a b : OutSt} (items : List (Ty × Val)) : Onward d c noFit q a b →
      Onward d c noFit q a (outCall d c noFit items b).2
  | seek {a b : OutSt} (p : Nat) : Onward d c noFit q a b → q ≤ p → p ≤ b.data.length →
      Onward d c noFit q a { b with pos := p }

end Zpp.Spec

namespace Zpp.Spec

/-- `Broken f t v b`: going through the object `v` of type `t` in serialization order, the first thing without
an encoding is a null owning pointer or a valueless variant, and `b` is the encoding of everything before it. -/
inductive Broken (f : Fmt) : Ty → Val → List UInt8 → Prop
  | null (t : Ty) : Broken f (.uptr t) .none []
  | valueless (idTy : Ty) (ids : List Val) (dcs : List Bool) (alts : List Ty) :
      Broken f (.variant idTy ids dcs alts) .valueless []
  | optional {dc t v b} : Broken f t v b → Broken f (.optional dc t) (.some v) (1 :: b)
  | optPtr {t v b} : Broken f t v b → Broken f (.optPtr t) (.some v) (1 :: b)
  | uptr {t v b} : Broken f t v b → Broken f (.uptr t) (.some v) b
  | variant {idTy ids dcs alts i id t v p b} : ids[i]? = some id → alts[i]? = some t →
      wireId f idTy id = some p → Broken f t v b → Broken f (.variant idTy ids dcs alts) (.alt i v) (p ++ b)
  | member {ok ts t ts' vs v vs' x b} : wireFields f ts vs = some x → Broken f t v b →
      Broken f (.struct ok (ts ++ t :: ts')) (.list (vs ++ v :: vs')) (x ++ b)
  | arrayElem {n t vs v vs' x b} : (vs ++ v :: vs').length = n → wireAll f t vs = some x → Broken f t v b →
      Broken f (.array n t) (.list (vs ++ v :: vs')) (x ++ b)
  | seqElem {k sz t vs v vs' p x b} : sizePrefix f (sz.getD f.dsz) (vs ++ v :: vs').length = some p →
      wireAll f t vs = some x → Broken f t v b → Broken f (.seq k sz t) (.list (vs ++ v :: vs')) (p ++ (x ++ b))
  | setElem {mu ha sz t vs v vs' p x b} : sizePrefix f (sz.getD f.dsz) (vs ++ v :: vs').length = some p →
      wireAll f t vs = some x → Broken f t v b →
      Broken f (.assoc mu ha sz t none) (.list (vs ++ v :: vs')) (p ++ (x ++ b))
  | mapElem {mu ha sz key m vs v vs' p x b} : sizePrefix f (sz.getD f.dsz) (vs ++ v :: vs').length = some p →
      wireAll f (.struct false [key, m]) vs = some x → Broken f (.struct false [key, m]) v b →
      Broken f (.assoc mu ha sz key (some m)) (.list (vs ++ v :: vs')) (p ++ (x ++ b))
  | ref {i v b} : Broken f (f.env i) v b → Broken f (.ref i) v b

/-- No variable length integer anywhere in the type (not as size prefix either, and no protobuf message);
the class definitions are checked separately. -/
def noVarint (dsz : SizeTy) : Ty → Bool
  | .varint _ _ => false
  | .struct _ fs => noVarintL dsz fs
  | .array _ t => noVarint dsz t
  | .seq _ sz t => sz.getD dsz != .varint && noVarint dsz t
  | .assoc _ _ sz key none => sz.getD dsz != .varint && noVarint dsz key
  | .assoc _ _ sz key (some m) => sz.getD dsz != .varint && noVarint dsz key && noVarint dsz m
  | .optional _ t => noVarint dsz t
  | .optPtr t => noVarint dsz t
  | .uptr t => noVarint dsz t
  | .variant idTy _ _ alts => noVarint dsz idTy && noVarintL dsz alts
  | .msg _ _ _ _ _ => false
  | _ => true
where
  /-- All types of a list. -/
  noVarintL (dsz : SizeTy) : List Ty → Bool
    | [] => true
    | t :: ts => noVarint dsz t && noVarintL dsz ts

end Zpp.Spec

namespace Zpp.Spec

/-- Successive output calls on one archive, up to the first that fails. -/
def outCalls (d : Nat) (c : Cfg) (noFit : Bool) : List (List (Ty × Val)) → OutSt → Status × OutSt
  | [], st => (.ok, st)
  | items :: calls, st =>
    match outCall d c noFit items st with
    | (.ok, st') => outCalls d c noFit calls st'
    | r => r

end Zpp.Spec
