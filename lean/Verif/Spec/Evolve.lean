import Verif.Spec.Records
/-!
# Reading a protobuf message with another version of its class

The classes of writer and reader need not be the same: the reader's class may have more members, in another order, and
members whose type has the same encoding (a wider varint, another container), also in nested messages and in the elements of
repeated members and maps.
-/

namespace Zpp.Spec
open Zpp

mutual
/-- The object `v` of a member of type `t` in the writer's class is found as `w` in the corresponding member of type `t'` of
the reader's class, which held `old` before. New objects the reader creates for elements have at most the nesting depth `D`. -/
inductive ReadAs (c : Cfg) (D : Nat) : Ty → Val → Ty → Val → Val → Prop
  /-- The protobuf encoding is the same (in particular if types and objects are), and the reader can hold the object. -/
  | same {t : Ty} {v : Val} {t' : Ty} {old w : Val} (h : ∀ num, pbField c.env num t' w = pbField c.env num t v)
      (hl : LoadablePbField (insideMsg c) t' w) : ReadAs c D t v t' old w
  /-- Both are messages, and the writer's one is read with the reader's class. -/
  | msg {t : Ty} {vs : List Val} {t' : Ty} {old : Val} {ws : List Val} {maps maps' : List (Nat × Nat)}
      {nums nums' : List (Option Nat)} {fs fs' : List Ty} (h : msgOf c.env t = some (maps, nums, fs))
      (h' : msgOf c.env t' = some (maps', nums', fs'))
      (hm : MsgReadAs c D maps nums fs vs maps' nums' fs' old.elems ws) : ReadAs c D t (.list vs) t' old (.list ws)
  /-- Both are containers of messages (or maps), and each element is read into a new object `o`. Sets and maps of the reader are
  in their order. -/
  | elems {t : Ty} {vs : List Val} {t' : Ty} {old o : Val} {ws : List Val} {maps maps' : List (Nat × Nat)}
      {nums nums' : List (Option Nat)} {fs fs' : List Ty} (h : msgOf c.env (elemTy t) = some (maps, nums, fs))
      (h' : msgOf c.env (elemTy t') = some (maps', nums', fs')) (ho : Initial c.env (elemTy t') o) (hd : depth o ≤ D)
      (hm : ElemsReadAs c D maps nums fs vs maps' nums' fs' o.elems ws)
      (hord : ∀ multi hashed sz key mapped, t' = .assoc multi hashed sz key mapped →
        Ordered (c.keyLt key) multi hashed mapped.isSome ws) : ReadAs c D t (.list vs) t' old (.list ws)
/-- The message with the members `vs` of the writer's class `(maps, nums, fs)` is read with the reader's class
`(maps', nums', fs')` into an object with the members `olds`, which has the members `ws` then. Member `m` of the writer
corresponds to member `to m` of the reader, which has the same field number. All other members of the reader are left as
they are, except that containers become empty. -/
inductive MsgReadAs (c : Cfg) (D : Nat) : List (Nat × Nat) → List (Option Nat) → List Ty → List Val →
    List (Nat × Nat) → List (Option Nat) → List Ty → List Val → List Val → Prop
  | mk {maps maps' : List (Nat × Nat)} {nums nums' : List (Option Nat)} {fs fs' : List Ty} {vs olds ws : List Val}
      (to : Nat → Nat) (hv : vs.length = fs.length) (hw : ws.length = fs'.length)
      (hnum : ∀ m, m < fs.length → to m < fs'.length ∧ numberAt maps' nums' (to m) = numberAt maps nums m)
      (hinj : ∀ m n, m < fs.length → n < fs.length → to m = to n → m = n)
      (hmem : ∀ m t x t' w, fs[m]? = some t → vs[m]? = some x → fs'[to m]? = some t' → ws[to m]? = some w →
        ReadAs c D t x t' (olds.getD (to m) .unit) w)
      (hrest : ∀ k t', fs'[k]? = some t' → (∀ m, m < fs.length → to m ≠ k) →
        ws[k]? = some (startValue t' (olds.getD k .unit))) :
      MsgReadAs c D maps nums fs vs maps' nums' fs' olds ws
/-- The same for each element of a container; `olds` are the members of a new element. -/
inductive ElemsReadAs (c : Cfg) (D : Nat) : List (Nat × Nat) → List (Option Nat) → List Ty → List Val →
    List (Nat × Nat) → List (Option Nat) → List Ty → List Val → List Val → Prop
  | nil {maps maps' : List (Nat × Nat)} {nums nums' : List (Option Nat)} {fs fs' : List Ty} {olds : List Val} :
      ElemsReadAs c D maps nums fs [] maps' nums' fs' olds []
  | cons {maps maps' : List (Nat × Nat)} {nums nums' : List (Option Nat)} {fs fs' : List Ty} {olds : List Val}
      {us xs vs ws : List Val} (h : MsgReadAs c D maps nums fs us maps' nums' fs' olds xs)
      (hs : ElemsReadAs c D maps nums fs vs maps' nums' fs' olds ws) :
      ElemsReadAs c D maps nums fs (.list us :: vs) maps' nums' fs' olds (.list xs :: ws)
end

end Zpp.Spec
