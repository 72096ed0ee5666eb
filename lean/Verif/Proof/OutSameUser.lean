import Verif.Proof.OutSame
import Verif.Proof.UserNest
/-! # User-written functions write the same bytes whatever the buffer -/

namespace Zpp
open Spec

variable {k : Nat}

theorem uScriptOut_same {T : Type} {rec rec' : T → Val → OutM} (h : ∀ t v, SameM k (rec t v) (rec' t v)) (self : List Val) :
    ∀ s : ScriptOf T, SameM k (uScriptOut rec self s) (uScriptOut rec' self s) := by
  intro s
  induction s with
  | done => exact SameM.skip
  | fail e => exact SameM.fail _
  | archive m t next ih => exact (h t _).andThen (ih _)

theorem uEntryOut_same {key key' mapped mapped' : Val → OutM} (h : ∀ v, SameM k (key v) (key' v)) (h' : ∀ v, SameM k (mapped v) (mapped' v)) (v : Val) :
    SameM k (uEntryOut key mapped v) (uEntryOut key' mapped' v) := by
  unfold uEntryOut
  split
  · exact (h _).andThen (h' _)
  · exact ((h _).andThen (h' _)).andThen (SameM.fail _)
  · exact (h _).andThen (SameM.fail _)
  · exact SameM.fail _

/-- The configuration with another buffer. -/
def UCfg.withG (u : UCfg) (g : Growth) : UCfg := { u with c := { u.c with g := g } }

theorem uEncode_same {g' : Growth} (u : UCfg) (hg : GrowthOk u.c.g) (hg' : GrowthOk g') :
    ∀ (d : Nat) (t : UTy) (v : Val), SameM k (uEncode d u t v) (uEncode d (u.withG g') t v) := by
  intro d
  induction d with
  | zero => intro t v; exact SameM.fail _
  | succ d ih =>
    intro t v
    have hall := fun t' vs => encAll_same (ih t') vs
    cases t with
    | lib t' => exact encode_same hg' (d + 1) u.c hg t' v
    | user fresh s =>
      cases v <;> first | exact SameM.fail _ | exact uScriptOut_same ih _ s
    | seq _ sz t' =>
      cases v <;> first | exact SameM.fail _ | exact (encHdr_same hg hg' ..).andThen (hall t' _)
    | array n t' =>
      cases v <;> first | exact SameM.fail _ | exact SameM.ite (SameM.fail _) (hall t' _)
    | set _ _ sz t' =>
      cases v <;> first | exact SameM.fail _ | exact (encHdr_same hg hg' ..).andThen (hall t' _)
    | map _ _ sz key t' =>
      cases v <;> first | exact SameM.fail _ | exact (encHdr_same hg hg' ..).andThen (encAll_same (uEntryOut_same (ih key) (ih t')) _)
    | optional _ t' => exact encOptional_same hg hg' (ih t') v
    | optPtr t' => exact encOptional_same hg hg' (ih t') v
    | uptr t' => exact encUptr_same (ih t') v
    | variant idTy ids dcs alts =>
      cases v <;> first | exact SameM.fail _ | skip
      simp only [uEncode]
      split
      · exact (encode_same hg' d u.c hg _ _).andThen (ih _ _)
      · exact SameM.fail _
    | ref i => exact ih _ v

theorem uEncode_state (u : UCfg) (hg : GrowthOk u.c.g) (d : Nat) (t : UTy) (v : Val) (st : OutSt) (hv : Valid st) :
    SafeStep u.c.g st (.ok, (uEncode d u t v st).2) := by
  rcases uEncode_safe u hg (fun i => uAll_true (u.env i)) d t v (uAll_true t) st hv with h | ⟨_, _, _, h⟩
  · exact h.state
  · exact h

theorem uCall_same {g' : Growth} (d : Nat) (u : UCfg) (noFit noFit' : Bool) (hg : GrowthOk u.c.g) (hg' : GrowthOk g') (t : UTy) (v : Val) :
    SameM k (uCall d u noFit t v) (uCall d (u.withG g') noFit' t v) :=
  fitCall_same noFit noFit' hg hg' (uEncode_same u hg hg' d t v) (uEncode_state u hg d t v) (uEncode_state (u.withG g') hg' d t v)

end Zpp
