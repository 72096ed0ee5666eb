import Verif.Spec.Wire
/-!
# Specification: classes that get new members at the end

A program is released again with members added at the end of the class of the last object of a message. The relation `Grown` says that
one object is what is left of another when the added members are taken away.
-/

namespace Zpp.Spec

mutual
/-- The type names no class and is not a protobuf message. -/
def standalone : Ty → Bool
  | .scalar _ _ => true
  | .bool => true
  | .varint _ _ => true
  | .empty => true
  | .bitset _ => true
  | .struct _ ts => standaloneAll ts
  | .array _ t => standalone t
  | .seq _ _ t => standalone t
  | .assoc _ _ _ k none => standalone k
  | .assoc _ _ _ k (some t) => standalone k && standalone t
  | .optional _ t => standalone t
  | .optPtr t => standalone t
  | .uptr t => standalone t
  | .variant _ _ _ alts => standaloneAll alts
  | .ref _ => false
  | .msg _ _ _ _ _ => false
/-- All of the types. -/
def standaloneAll : List Ty → Bool
  | [] => true
  | t :: ts => standalone t && standaloneAll ts
end

/-- `Grown env env' t v t' v'`: the object `v'` of the new program, of type `t'`, is the object `v` of the old program, of type `t`, with
the members added to the class and to the last of its members, to the last of theirs and so on. The two programs have the classes `env` and
`env'`. -/
inductive Grown (env env' : Nat → Ty) : Ty → Val → Ty → Val → Prop
  | same (t : Ty) (v : Val) : env = env' → Grown env env' t v t v
  | standalone (t : Ty) (v : Val) : standalone t = true → Grown env env' t v t v
  /-- Members `us` added to a class, with the values `ws`. -/
  | added (ok ok' : Bool) {ts us : List Ty} {vs ws : List Val} : vs.length = ts.length → (env = env' ∨ standaloneAll ts = true) →
      Grown env env' (.struct ok ts) (.list vs) (.struct ok' (ts ++ us)) (.list (vs ++ ws))
  /-- The last member has grown, and there may be more. -/
  | last (ok ok' : Bool) {ts us : List Ty} {vs ws : List Val} {t t' : Ty} {v v' : Val} : vs.length = ts.length →
      (env = env' ∨ standaloneAll ts = true) → Grown env env' t v t' v' →
      Grown env env' (.struct ok (ts ++ [t])) (.list (vs ++ [v])) (.struct ok' (ts ++ t' :: us)) (.list (vs ++ v' :: ws))
  | optional (dc dc' : Bool) {t t' : Ty} {v v' : Val} : Grown env env' t v t' v' →
      Grown env env' (.optional dc t) (.some v) (.optional dc' t') (.some v')
  | noOptional (dc dc' : Bool) {t t' : Ty} : Grown env env' (.optional dc t) .none (.optional dc' t') .none
  | optPtr {t t' : Ty} {v v' : Val} : Grown env env' t v t' v' → Grown env env' (.optPtr t) (.some v) (.optPtr t') (.some v')
  | noOptPtr {t t' : Ty} : Grown env env' (.optPtr t) .none (.optPtr t') .none
  | uptr {t t' : Ty} {v v' : Val} : Grown env env' t v t' v' → Grown env env' (.uptr t) (.some v) (.uptr t') (.some v')
  /-- The alternative a variant holds. -/
  | variant (idTy : Ty) {ids ids' : List Val} (dcs dcs' : List Bool) {alts alts' : List Ty} (i : Nat) {t t' : Ty} {v v' : Val} :
      ids[i]? = ids'[i]? → alts[i]? = some t → alts'[i]? = some t' → Grown env env' t v t' v' →
      Grown env env' (.variant idTy ids dcs alts) (.alt i v) (.variant idTy ids' dcs' alts') (.alt i v')
  /-- A class by name. -/
  | ref (i : Nat) {ok ok' : Bool} {ts ts' : List Ty} {v v' : Val} : env i = .struct ok ts → env' i = .struct ok' ts' →
      Grown env env' (.struct ok ts) v (.struct ok' ts') v' → Grown env env' (.ref i) v (.ref i) v'

/-- The objects of a message: the last one has grown, or there are more objects behind. -/
inductive GrownItems (env env' : Nat → Ty) : List (Ty × Val) → List (Ty × Val) → Prop
  | more (items : List (Ty × Val)) : GrownItems env env' [] items
  | last {t t' : Ty} {v v' : Val} (items : List (Ty × Val)) : Grown env env' t v t' v' →
      GrownItems env env' [(t, v)] ((t', v') :: items)
  | cons (t : Ty) (v : Val) {items items' : List (Ty × Val)} : (env = env' ∨ standalone t = true) → GrownItems env env' items items' →
      GrownItems env env' ((t, v) :: items) ((t, v) :: items')

end Zpp.Spec
