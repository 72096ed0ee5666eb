import Verif.Model.Rules
/-!
# The archives do what the rule chosen by overload resolution says
-/

namespace Zpp

/-- The rule a kind of type is written by (zpp_bits.h:2042-2416). -/
def ruleOf (r : Reading) : Ty → Rule
  | .struct _ _ => if r = .tuple then .tuple else .unspecialized
  | .array _ _ => if r = .plain then .array else .container
  | .seq _ _ _ => .container
  | .assoc _ _ _ _ _ => .container
  | .optional _ _ => .optional
  | .uptr _ => .pointer
  | .variant _ _ _ _ => .variant
  | .bitset _ => .bitset
  | .msg _ _ _ _ _ => .protocol
  | _ => .unspecialized

theorem outRule_traitsOf (c : Cfg) (r : Reading) (t : Ty) : outRule (traitsOf c r t) = some (ruleOf r t) := by
  cases t with
  | seq k sz t' =>
    cases k <;> simp [outRule, outViable, Traits.unspecialized, Traits.array, Traits.owningPointer, Traits.bitset, Traits.variant,
      Traits.tuple, Traits.byProtocol, Traits.container, Traits.optional, Traits.hasSerialize, traitsOf, resolve, ruleOf]
  | _ =>
    cases r <;> simp [outRule, outViable, Traits.unspecialized, Traits.array, Traits.owningPointer, Traits.bitset, Traits.variant,
      Traits.tuple, Traits.byProtocol, Traits.container, Traits.optional, Traits.hasSerialize, traitsOf, resolve, ruleOf]

theorem inRule_traitsOf (c : Cfg) (r : Reading) (t : Ty) :
    inRule (traitsOf c r t) = some (match t with | .assoc _ _ _ _ _ => .associative | _ => ruleOf r t) := by
  cases t with
  | seq k sz t' =>
    cases k <;> simp [inRule, inViable, Traits.unspecialized, Traits.array, Traits.owningPointer, Traits.bitset, Traits.variant,
      Traits.tuple, Traits.byProtocol, Traits.container, Traits.optional, Traits.hasSerialize, traitsOf, resolve, ruleOf,
      Traits.associative]
  | _ =>
    cases r <;> simp [inRule, inViable, Traits.unspecialized, Traits.array, Traits.owningPointer, Traits.bitset, Traits.variant,
      Traits.tuple, Traits.byProtocol, Traits.container, Traits.optional, Traits.hasSerialize, traitsOf, resolve, ruleOf,
      Traits.associative]

theorem asBytes_struct_false (c : Cfg) (fs : List Ty) : asBytes c (.struct false fs) = false := by
  simp [asBytes, Ty.endianIndep, Ty.byteSer]

theorem skip_andThen (m : OutM) : OutM.skip.andThen m = m := by
  funext st; simp [OutM.andThen, OutM.skip]

theorem hdr_void (c : Cfg) (s : SizeTy) (n : Nat) :
    (if (!s == SizeTy.none) = true then encHdr c s n else OutM.skip) = encHdr c s n := by
  cases s <;> rfl

theorem outElem_assoc (rec : Ty → Val → OutM) (multi hashed : Bool) (sz : Option SizeTy) (key : Ty) (mapped : Option Ty) :
    outElem rec (.assoc multi hashed sz key mapped) = fun e =>
      match mapped with
      | none => rec key e
      | some m =>
        match e with
        | .list es => encFields rec [key, m] es
        | _ => OutM.fail .illFormed := by
  funext e
  cases mapped with
  | none => rfl
  | some m => cases e <;> rfl

theorem outByRule_eq (d : Nat) (c : Cfg) (r : Reading) (t : Ty) (v : Val) (hr : readable r t = true)
   (hn : ∀ n t', t = .array n t' → ∀ vs, v = .list vs → vs.length = n) :
    outByRule c (encode d c) (encode d (pbOutCfg c)) r t v = some (encode (d + 1) c t v) := by
  unfold outByRule
  dsimp only
  rw [outRule_traitsOf]
  rw [Option.map_some]
  congr 1
  cases t with
  | scalar k n => 
    simp only [ruleOf]
    have : outBasic (traitsOf c r (.scalar k n)) = .scalar := by simp [outBasic, traitsOf]
    rw [this]; rw [encode.eq_def (d + 1)]; cases v <;> rfl
  | bool => 
    simp only [ruleOf]
    have : outBasic (traitsOf c r .bool) = .scalar := by simp [outBasic, traitsOf]
    rw [this]; rw [encode.eq_def (d + 1)]; cases v <;> rfl
  | varint n zz =>
    simp only [ruleOf]
    have : outBasic (traitsOf c r (.varint n zz)) = .userFunction := by simp [outBasic, traitsOf]
    rw [this]; rw [encode.eq_def (d + 1)]; rfl
  | empty =>
    simp only [ruleOf]
    have : outBasic (traitsOf c r .empty) = .nothing := by simp [outBasic, traitsOf]
    rw [this]; rw [encode.eq_def (d + 1)]; rfl
  | struct ok fs =>
    cases r
    · simp only [ruleOf]
      have : outBasic (traitsOf c .plain (.struct ok fs)) = if asBytes c (.struct ok fs) then .asBytes else .members := by
        unfold outBasic traitsOf; rfl
      rw [if_neg (by simp), this]; rw [encode.eq_def (d + 1)]; dsimp only
      split <;> cases v <;> rfl
    · have : ok = false := by simpa [readable] using hr
      subst this
      simp only [ruleOf, if_true]
      rw [encode.eq_def (d + 1)]; dsimp only
      cases v <;> try rfl
      simp [asBytes_struct_false]
    · have : ok = false := by simpa [readable] using hr
      subst this
      simp only [ruleOf]
      have : outBasic (traitsOf c .function (.struct false fs)) = .userFunction := by simp [outBasic, traitsOf]
      rw [if_neg (by simp), this]; rw [encode.eq_def (d + 1)]; dsimp only
      cases v <;> try rfl
      simp [asBytes_struct_false, outUnspecialized]
  | array n t' =>
    have hx : (traitsOf c r (.array n t')).elementsAsBytes = asBytes c t' := by cases r <;> rfl
    have hl : r ≠ .plain → ∀ b, outContainer (traitsOf c r (.array n t')) b = ⟨false, asBytes c t'⟩ := by
      intro h b; cases r <;> cases h1 : asBytes c t' <;>
      simp_all [outContainer, traitsOf, Traits.associative]
    rw [encode.eq_def (d + 1)]; dsimp only
    by_cases ht : r ≠ .plain
    · simp only [ruleOf, ht, if_false]
      rw [hl ht]
      cases v <;> try rfl
      rename_i vs
      rw [outContainerRule]
      have := hn n t' rfl vs rfl
      simp [this, skip_andThen, outBlock]
      rfl
    · have ht : r = .plain := by simpa using ht
      simp only [ruleOf, ht, if_true]
      rw [← ht, hx]
      cases v <;> try rfl
      rename_i vs
      have := hn n t' rfl vs rfl
      simp [this, outArray, outBlock]
      rfl
  | seq k sz t' =>
    simp only [ruleOf]
    have hl : ∀ b, outContainer (traitsOf c r (.seq k sz t')) b = ⟨!b, k ≠ .list ∧ asBytes c t'⟩ := by
      intro b; cases h1 : asBytes c t' <;> cases k <;> cases b <;>
      simp [outContainer, traitsOf, h1, Traits.associative]
    rw [hl]
    rw [encode.eq_def (d + 1)]; dsimp only
    cases v <;> try rfl
    rename_i vs
    rw [outContainerRule]
    dsimp only
    have e : (if (!sizeTyOf c (Ty.seq k sz t') == SizeTy.none) = true then encHdr c (sizeTyOf c (Ty.seq k sz t')) vs.length
        else OutM.skip) = encHdr c (effSz c sz) vs.length := by
      exact hdr_void c (effSz c sz) vs.length
    rw [e]
    congr 1
    simp [outBlock]
    split <;> rfl
  | assoc multi hashed sz key mapped =>
    simp only [ruleOf]
    have hl : ∀ b, outContainer (traitsOf c r (.assoc multi hashed sz key mapped)) b = ⟨!b, false⟩ := by
      intro b; simp [outContainer, traitsOf, Traits.associative, Traits.container, Traits.hasSerialize, Traits.optional]
    rw [hl]
    rw [encode.eq_def (d + 1)]; dsimp only
    cases v <;> try rfl
    rename_i vs
    rw [outContainerRule]
    dsimp only
    have e : (if (!sizeTyOf c (.assoc multi hashed sz key mapped) == SizeTy.none) = true then
        encHdr c (sizeTyOf c (.assoc multi hashed sz key mapped)) vs.length
        else OutM.skip) = encHdr c (effSz c sz) vs.length := by
      exact hdr_void c (effSz c sz) vs.length
    rw [e, if_neg (by simp)]
    rw [outElem_assoc]
    cases mapped <;> rfl
  | optPtr t' =>
    simp only [ruleOf]
    have : outBasic (traitsOf c r (.optPtr t')) = .userFunction := by simp [outBasic, traitsOf]
    rw [this]; rw [encode.eq_def (d + 1)]; rfl
  | ref i => simp [readable] at hr
  | bitset n => rw [encode.eq_def (d + 1)]; dsimp only [ruleOf]; cases v <;> rfl
  | msg sz ok maps nums fs => rw [encode.eq_def (d + 1)]; dsimp only [ruleOf]; cases v <;> rfl
  | _ => rw [encode.eq_def (d + 1)]; dsimp only [ruleOf]

theorem inByRule_eq (d : Nat) (c : Cfg) (r : Reading) (t : Ty) (old : Val) (data : List UInt8) (p : Nat)
    (hr : readable r t = true) :
    inByRule c (fun t v p => decode d c t v data p) (dflt c d) 
      (fun t size p => match t with
        | .msg _ _ maps nums fs => msgRun (pbCfg c) (decode d (pbCfg c)) (dflt (pbCfg c) d) maps nums fs old data size p
        | _ => ⟨.illFormed, old, p⟩) r t old data p =
    match t with
    | .assoc _ _ sz _ _ => if effSz c sz = .none then none else some (decode (d + 1) c t old data p)
    | _ => some (decode (d + 1) c t old data p) := by
  unfold inByRule
  dsimp only
  rw [inRule_traitsOf]
  cases t with
  | assoc multi hashed sz key mapped =>
    dsimp only
    simp only [sizeTyOf]
    cases h : effSz c sz with
    | none => rfl
    | _ =>
      rw [if_neg (by simp)]
      simp [inAssociative]
      rw [decode.eq_def (d + 1)]
      dsimp only
      simp only [inAssociativeRule, sizeTyOf, h]
      generalize decHdr _ _ _ _ = rr
      obtain ⟨s, n, p1⟩ := rr
      cases s <;> try rfl
  | scalar k n => 
    simp only [ruleOf]
    have : inBasic (traitsOf c r (.scalar k n)) = .scalar := by simp [inBasic, traitsOf]
    rw [this]; rw [decode.eq_def (d + 1)]; rfl
  | bool => 
    simp only [ruleOf]
    have : inBasic (traitsOf c r .bool) = .scalar := by simp [inBasic, traitsOf]
    rw [this]; rw [decode.eq_def (d + 1)];  rfl
  | varint n zz =>
    simp only [ruleOf]
    have : inBasic (traitsOf c r (.varint n zz)) = .userFunction := by simp [inBasic, traitsOf]
    rw [this]; rw [decode.eq_def (d + 1)]; rfl
  | empty =>
    simp only [ruleOf]
    have : inBasic (traitsOf c r .empty) = .nothing := by simp [inBasic, traitsOf]
    rw [this]; rw [decode.eq_def (d + 1)]; rfl
  | struct ok fs =>
    cases r
    · simp only [ruleOf]
      have : inBasic (traitsOf c .plain (.struct ok fs)) = if asBytes c (.struct ok fs) then .asBytes else .members := by
        unfold inBasic traitsOf; rfl
      rw [if_neg (by simp)]
      dsimp only
      rw [this]; rw [decode.eq_def (d + 1)]; dsimp only
      split <;> rfl
    · have : ok = false := by simpa [readable] using hr
      subst this
      simp only [ruleOf, if_true]
      rw [decode.eq_def (d + 1)]; dsimp only
      simp [asBytes_struct_false]
    · have : ok = false := by simpa [readable] using hr
      subst this
      simp only [ruleOf]
      have : inBasic (traitsOf c .function (.struct false fs)) = .userFunction := by simp [inBasic, traitsOf]
      rw [if_neg (by simp)]
      dsimp only
      rw [this]; rw [decode.eq_def (d + 1)]; dsimp only
      simp [asBytes_struct_false, inUnspecialized]
  | array n t' =>
    have hx : (traitsOf c r (.array n t')).elementsAsBytes = asBytes c t' := by cases r <;> rfl
    have hl : r ≠ .plain → ∀ b, inContainer (traitsOf c r (.array n t')) b = ⟨false, asBytes c t'⟩ := by
      intro h b; cases r <;> cases h1 : asBytes c t' <;>
      simp_all [inContainer, traitsOf]
    have hlen : (resizeVals old.elems n .unit).length = n := by simp [resizeVals]; try omega
    rw [decode.eq_def (d + 1)]; dsimp only
    by_cases ht : r ≠ .plain
    · simp only [ruleOf, ht, if_false]
      rw [hl ht]
      simp [inContainerRule, inElems, hlen]
    · have ht : r = .plain := by simpa using ht
      simp only [ruleOf, ht, if_true]
      rw [← ht, hx]
      simp [inElems, hlen]
  | seq k sz t' =>
    simp only [ruleOf]
    have hl : ∀ b, inContainer (traitsOf c r (.seq k sz t')) b = ⟨!b, k ≠ .list ∧ asBytes c t'⟩ := by
      intro b; cases h1 : asBytes c t' <;> cases k <;> cases b <;>
      simp [inContainer, traitsOf, h1]
    rw [hl]
    rw [decode.eq_def (d + 1)]; dsimp only
    congr 1
    unfold inContainerRule
    dsimp only
    have hv : k = .view → asBytes c t' = true := by
      intro h; subst h; simp [readable] at hr; simp [asBytes, hr]
    by_cases h : effSz c sz = .none
    · rw [if_neg (by simp [sizeTyOf, h])]
      rw [h]
      cases k <;> simp [traitsOf, seqUnsized, seqBody, inElems, hv]
    · rw [if_pos (by simp [sizeTyOf, h])]
      have hs : sizeTyOf c (.seq k sz t') = effSz c sz := rfl
      rw [hs]
      revert h
      generalize effSz c sz = z
      intro h
      cases z with
      | none => exact absurd rfl h
      | _ =>
        dsimp only
        generalize decHdr _ _ _ _ = rr
        obtain ⟨s, n, p1⟩ := rr
        cases s <;> try rfl
        cases k <;> simp [traitsOf, seqFill, seqBody, inElems]
  | optPtr t' =>
    simp only [ruleOf]
    have : inBasic (traitsOf c r (.optPtr t')) = .userFunction := by simp [inBasic, traitsOf]
    rw [this]; rw [decode.eq_def (d + 1)]; dsimp only [inUnspecialized, inOptionalRule]
    generalize getBytes _ _ _ = rr
    obtain ⟨s, bs, p1⟩ := rr
    cases s <;> rfl
  | optional dc t' => 
    simp only [ruleOf]; rw [decode.eq_def (d + 1)]; dsimp only; simp only [inOptionalRule]
    generalize getBytes _ _ _ = rr
    obtain ⟨s, bs, p1⟩ := rr
    cases s <;> try rfl
  | ref i => simp [readable] at hr
  | bitset n =>
    rw [decode.eq_def (d + 1)]
    dsimp only [ruleOf]
    congr 1
  | msg sz ok maps nums fs =>
    rw [decode.eq_def (d + 1)]
    dsimp only [ruleOf, sizeTyOf]
    congr 1
  | uptr t' =>
    rw [decode.eq_def (d + 1)]
    dsimp only [ruleOf]
    congr 1
  | variant idTy ids dcs alts =>
    rw [decode.eq_def (d + 1)]
    dsimp only [ruleOf, inVariantRule]
    congr 1

end Zpp
