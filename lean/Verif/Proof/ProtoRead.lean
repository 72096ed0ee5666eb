import Verif.Proof.ProtoHolds
/-!
# The library's reader and the reference parser agree
-/

namespace Zpp
open Spec

theorem protoApply_at {new : Ty → Val} {sub : SubParser} {env : Nat → Ty} {num : Nat} {t : Ty} {p : PbPayload} :
    ∀ (fields : List (Nat × Ty)) (vs : List Val) (m : Nat) (cur : Val), fields[m]? = some (num, t) → vs[m]? = some cur →
    (∀ k x, k < m → fields[k]? = some x → x.1 ≠ num) →
    protoApply new sub env fields vs (num, p) = (protoField new sub env t cur p).map fun w => vs.set m w
  | [], _, _, _, h, _, _ => by simp at h
  | (n, u) :: fs, [], _, _, _, h, _ => by simp at h
  | (n, u) :: fs, v :: vs, 0, cur, h, hv, _ => by
    simp only [List.getElem?_cons_zero, Option.some.injEq, Prod.mk.injEq] at h hv
    obtain ⟨rfl, rfl⟩ := h
    subst hv
    simp [protoApply]
  | (n, u) :: fs, v :: vs, m + 1, cur, h, hv, hd => by
    have h1 : n ≠ num := hd 0 (n, u) (by omega) rfl
    have ih := protoApply_at (new := new) (sub := sub) (env := env) (p := p) fs vs m cur (by simpa using h) (by simpa using hv)
      (fun k x hk hx => hd (k + 1) x (by omega) (by simpa using hx))
    simp only [protoApply, h1, if_false, ih]
    cases protoField new sub env t cur p <;> simp

theorem protoAll_at {new : Ty → Val} {sub : SubParser} {env : Nat → Ty} {num : Nat} {t : Ty} {fields : List (Nat × Ty)}
    {m : Nat} (hf : fields[m]? = some (num, t)) (hd : ∀ k x, k < m → fields[k]? = some x → x.1 ≠ num)
    {rest : List (Nat × PbPayload)} :
    ∀ (rr : List (Nat × PbPayload)) (vs : List Val) (cur w : Val), vs[m]? = some cur → (∀ r ∈ rr, r.1 = num) →
    protoFieldAll new sub env t cur rr = some w →
    protoAll new sub env fields vs (rr ++ rest) = protoAll new sub env fields (vs.set m w) rest
  | [], vs, cur, w, hv, _, h => by
    simp only [protoFieldAll, Option.some.injEq] at h
    subst h
    have e : vs.set m cur = vs := by
      apply List.ext_getElem?
      intro k
      by_cases hk : m = k
      · subst hk
        have := (List.getElem?_eq_some_iff.mp hv).1
        rw [hv, List.getElem?_set_self this]
      · rw [List.getElem?_set_ne hk]
    rw [e]
    rfl
  | r :: rr, vs, cur, w, hv, hr, h => by
    simp only [protoFieldAll] at h
    split at h
    case h_1 v' hv' =>
      obtain ⟨n, p⟩ := r
      have e : n = num := hr _ (List.mem_cons_self ..)
      subst e
      have ha := protoApply_at (new := new) (sub := sub) (env := env) (p := p) fields vs m cur hf hv hd
      simp only [hv', Option.map] at ha
      have hm : m < vs.length := (List.getElem?_eq_some_iff.mp hv).1
      have ih := protoAll_at hf hd (rest := rest) rr (vs.set m v') v' w (List.getElem?_set_self hm)
        (fun r hm => hr r (List.mem_cons_of_mem _ hm)) h
      rw [List.set_set] at ih
      simp only [List.cons_append, protoAll, ha, ih]
    case h_2 => cases h

/-- The parser for nested messages reads those of fewer than `L` bytes as the library does. -/
def SubReads (c : Cfg) (L : Nat) (sub : SubParser) : Prop :=
  ∀ maps nums fs rs os body, MsgGood c maps nums fs → recsBytes c.env maps nums fs rs = some body → body.length < L →
    RecsOk c maps nums fs rs → RecsPlain c.env fs [] rs → InitialL c.env fs os →
    ∃ ws, sub (protoFields maps nums fs) os body = some ws ∧ HoldsEach c fs ws (recsEffect c fs rs os)

/-- The parser for nested messages reads enumerations and varints alike. -/
def SubEnum (sub : SubParser) : Prop :=
  ∀ maps nums fs os bs, sub (protoFields maps nums (fs.map entryMember)) os bs = sub (protoFields maps nums fs) os bs

theorem protoField_entry {new : Ty → Val} {sub : SubParser} {env : Nat → Ty} (t : Ty) (v : Val) (p : PbPayload) :
    protoField new sub env (entryMember t) v p = protoField new sub env t v p := by
  cases t with
  | scalar k n =>
    cases k with
    | enum => cases p <;> simp only [entryMember, protoField, protoScalar, protoNumber]
    | _ => rfl
  | _ => rfl

theorem protoApply_entry {new : Ty → Val} {sub : SubParser} {env : Nat → Ty} : ∀ (ns : List Nat) (fs : List Ty) (vs : List Val)
    (r : Nat × PbPayload), protoApply new sub env (ns.zip (fs.map entryMember)) vs r = protoApply new sub env (ns.zip fs) vs r
  | [], _, _, _ => by simp
  | _ :: _, [], _, _ => by simp
  | n :: ns, f :: fs, [], r => by simp [protoApply]
  | n :: ns, f :: fs, v :: vs, r => by
    simp only [List.map_cons, List.zip_cons_cons, protoApply, protoField_entry, protoApply_entry ns fs vs r]

theorem protoAll_entry {new : Ty → Val} {sub : SubParser} {env : Nat → Ty} (ns : List Nat) (fs : List Ty) :
    ∀ (rs : List (Nat × PbPayload)) (vs : List Val),
    protoAll new sub env (ns.zip (fs.map entryMember)) vs rs = protoAll new sub env (ns.zip fs) vs rs
  | [], _ => rfl
  | r :: rs, vs => by
    simp only [protoAll, protoApply_entry]
    split
    · exact protoAll_entry ns fs rs _
    · rfl

theorem protoMsg_entry (new : Ty → Val) (env : Nat → Ty) : ∀ d, SubEnum (protoMsg new env d)
  | 0 => fun _ _ _ _ _ => rfl
  | d + 1 => fun maps nums fs os bs => by
    simp only [protoMsg, protoFields]
    split
    · exact protoAll_entry _ _ _ _
    · rfl

theorem holds_entry {c : Cfg} {t : Ty} {w v : Val} (h : Holds c (entryMember t) w v) : Holds c t w v := by
  cases t with
  | scalar k n =>
    cases k with
    | enum =>
      simp only [entryMember] at h
      cases h with
      | num => exact .num _ _
      | msg ht => simp [msgOf] at ht
    | _ => exact h
  | _ => exact h

theorem holdsEach_entry {c : Cfg} : ∀ {fs : List Ty} {ws vs : List Val}, HoldsEach c (fs.map entryMember) ws vs → HoldsEach c fs ws vs
  | [], _, _, .nil => .nil
  | _ :: _, _, _, .cons h hs => .cons (holds_entry h) (holdsEach_entry hs)

theorem initial_entry {env : Nat → Ty} {t : Ty} {o : Val} (h : Initial env (entryMember t) o) : Initial env t o := by
  cases t with
  | scalar k n =>
    cases k with
    | enum =>
      simp only [entryMember] at h
      cases h
      exact .scalar _ _
    | _ => exact h
  | _ => exact h

theorem initialL_entry {env : Nat → Ty} : ∀ {fs : List Ty} {os : List Val}, InitialL env (fs.map entryMember) os → InitialL env fs os
  | [], _, .nil => .nil
  | _ :: _, _, .cons h hs => .cons (initial_entry h) (initialL_entry hs)

theorem isMsg_msgOf {env : Nat → Ty} {t : Ty} : isMsg env t = (msgOf env t).isSome := by
  cases t with
  | msg sz ok maps nums fs => cases sz <;> rfl
  | ref i =>
    simp only [isMsg, msgOf]
    cases env i with
    | msg sz ok maps nums fs => cases sz <;> rfl
    | _ => rfl
  | _ => rfl

theorem good_msgOf {c : Cfg} (hc : insideMsg c = c) (henv : ∀ i, Good c (c.env i) = true) {t : Ty} {maps : List (Nat × Nat)}
    {nums : List (Option Nat)} {fs : List Ty} (h : msgOf c.env t = some (maps, nums, fs)) (hg : Good c t = true) :
    MsgGood c maps nums fs := by
  obtain ⟨maps', nums', fs', h1, h2, _⟩ := good_msg hc henv (t := t) (by rw [isMsg_msgOf, h]; rfl) hg
  rw [h] at h1
  simp only [Option.some.injEq, Prod.mk.injEq] at h1
  obtain ⟨rfl, rfl, rfl⟩ := h1
  exact h2

/-- One record. -/
theorem rec_parses {c : Cfg} (hc : insideMsg c = c) (henv : ∀ i, Good c (c.env i) = true) {new : Ty → Val}
    (hnew : NewObjects c.env new) {L : Nat} {sub : SubParser} (hsub : SubOk c new L sub) (hread : SubReads c L sub)
    (henum : SubEnum sub) {maps : List (Nat × Nat)} {nums : List (Option Nat)} {fs : List Ty} (hm : MsgGood c maps nums fs)
    {r : Rec} {m : Nat} {t : Ty} (hmem : r.member = some m) (ht : fs[m]? = some t) {b : List UInt8}
    (hb : recBytes c.env maps nums fs r = some b) (hL : b.length ≤ L) (hok : RecOk c maps nums fs r) (hp : RecPlain c.env t r)
    (cp cl : Val) (hst : Holds c t cp cl)
    (hcur : firstOnly c.env t = true → isOne r = false → cp = cl ∧ Initial c.env t cl) :
    ∃ rr w, b = recordBytes rr ∧ (∀ x ∈ rr, x.1 = numberAt maps nums m ∧ PayOk x.2) ∧
      protoFieldAll new sub c.env t cp rr = some w ∧ Holds c t w (recEffect c t r cl) := by
  obtain ⟨_, hf, _, _⟩ := pbFieldsOk_get fs 0 nums m t hm.fields ht
  have hg := goodL_get hm.types ht
  have hss := subHolds hc henv L
  rw [Nat.zero_add] at hf
  have single : ∀ p, PayOk p → b = pbRecord (numberAt maps nums m) p → ∀ w, protoField new sub c.env t cp p = some w →
      Holds c t w (recEffect c t r cl) →
      ∃ rr w, b = recordBytes rr ∧ (∀ x ∈ rr, x.1 = numberAt maps nums m ∧ PayOk x.2) ∧
        protoFieldAll new sub c.env t cp rr = some w ∧ Holds c t w (recEffect c t r cl) := by
    intro p h1 h2 w h3 h4
    refine ⟨[(numberAt maps nums m, p)], w, by simp [recordBytes, h2], ?_, by simp only [protoFieldAll, h3], h4⟩
    intro x hx
    cases hx with
    | head => exact ⟨rfl, h1⟩
    | tail _ hx => cases hx
  cases r with
  | field m' v =>
    simp only [Rec.member, Option.some.injEq] at hmem
    subst hmem
    simp only [recBytes, ht] at hb
    have hld : LoadableRec c t v := hok t ht
    have message : (msgOf c.env t).isSome = true → recEffect c t (.field m' v) cl = v → firstOnly c.env t = true →
        LoadablePbField c t v →
        ∃ rr w, b = recordBytes rr ∧ (∀ x ∈ rr, x.1 = numberAt maps nums m' ∧ PayOk x.2) ∧
          protoFieldAll new sub c.env t cp rr = some w ∧ Holds c t w (recEffect c t (.field m' v) cl) := by
      intro h1 h2 h3 h4
      obtain ⟨rfl, hi⟩ := hcur h3 rfl
      rw [h2, ← hnew t cp hi]
      obtain ⟨rr, h5, h6, h7⟩ := field_parses hc henv hnew hsub hf hg hb hL
      exact ⟨rr, v, h5, h6, h7, holds_field hc henv hss hf hg hb hL h4⟩
    cases t with
    | empty =>
      cases v <;> simp only [pbField, pbScalar, reduceCtorEq, Option.some.injEq] at hb
      subst hb
      exact ⟨[], cp, rfl, nofun, rfl, hst⟩
    | seq k sz e =>
      have hv : v = .list v.elems := by
        cases v with
        | list vs => rfl
        | _ => simp [pbField, pbScalar] at hb
      obtain ⟨vs, hvs⟩ : ∃ vs, vs = v.elems := ⟨_, rfl⟩
      rw [← hvs] at hv
      subst hv
      have hall := (holdsAll_field hc henv hss hf hg hb hL hld).1 _ _ _ rfl
      have hold := holds_seq hst
      simp only [pbFieldOk, Bool.and_eq_true] at hf
      simp only [Good, Bool.and_eq_true] at hg
      simp only [pbField] at hb
      split at hb
      case isTrue hpk =>
        obtain ⟨rr, h1, h2, h3⟩ := packed_parses (new := new) (sub := sub) (t := .seq k sz e) hpk hf.1.2
          (fun _ _ => by simp only [protoField]) hb cp
        refine ⟨rr, _, h1, h2, h3, ?_⟩
        simp only [recEffect, Val.elems, addAll]
        by_cases hv : vs.isEmpty = true
        · simp only [hv, if_true]
          exact hst
        · simp only [hv, Bool.false_eq_true, if_false]
          by_cases htx : isText e = true
          · have : fixedElem e = true := by
              cases e with
              | scalar k n => cases k <;> simp [isText] at htx <;> rfl
              | _ => simp [isText] at htx
            simp only [htx, this, if_true]
            exact .seq hall
          · simp only [htx, Bool.false_eq_true, if_false]
            by_cases hfx : fixedElem e = true
            · obtain ⟨rfl, hi⟩ := hcur (by simp [firstOnly, hfx, htx]) rfl
              cases hi
              simp only [hfx, if_true, Val.elems, List.nil_append]
              exact .seq hall
            · simp only [hfx, Bool.false_eq_true, if_false]
              exact .seq (holdsAll_append hall hold)
      case isFalse hpk =>
        obtain ⟨rr, h1, h2, h3⟩ := container_parses (t := .seq k sz e) hc henv hnew hsub (by simpa using hpk) hf.1.2 hg.2
          (fun _ _ => by simp only [protoField]) vs cp b hb hL
        refine ⟨rr, _, h1, h2, h3, ?_⟩
        have hfx : fixedElem e = false := by cases e <;> simp [isPacked] at hpk <;> rfl
        simp only [recEffect, Val.elems, addAll, hfx, Bool.false_eq_true, if_false]
        by_cases hv : vs.isEmpty = true
        · simp only [hv, if_true]
          exact hst
        · simp only [hv, Bool.false_eq_true, if_false]
          exact .seq (holdsAll_append hall hold)
    | assoc multi hashed sz key mapped =>
      have hv : v = .list v.elems := by
        cases v with
        | list vs => rfl
        | _ => cases mapped <;> simp [pbField, pbScalar] at hb
      obtain ⟨vs, hvs⟩ : ∃ vs, vs = v.elems := ⟨_, rfl⟩
      rw [← hvs] at hv
      subst hv
      cases mapped with
      | none =>
        have hall := (holdsAll_field hc henv hss hf hg hb hL hld).2.1 _ _ _ _ rfl
        obtain ⟨es, hold, hes⟩ := holds_set hst
        simp only [pbFieldOk, Bool.and_eq_true] at hf
        simp only [Good] at hg
        simp only [pbField] at hb
        have fin : Holds c (.assoc multi hashed sz key none) (.list (cp.elems ++ vs))
            (.list (addAll c (.assoc multi hashed sz key none) vs cl.elems)) := by
          rw [hes, addAll_append]
          exact .set (holdsAll_append hall hold)
        split at hb
        case isTrue hpk =>
          obtain ⟨rr, h1, h2, h3⟩ := packed_parses (new := new) (sub := sub) (t := .assoc multi hashed sz key none) hpk hf.1.2
            (fun _ _ => by simp only [protoField]) hb cp
          refine ⟨rr, _, h1, h2, h3, ?_⟩
          simp only [recEffect]
          by_cases hv : vs.isEmpty = true
          · simp only [Val.elems, hv, if_true]
            exact hst
          · rw [show (Val.list vs).elems = vs from rfl]
            simp only [hv, Bool.false_eq_true, if_false]
            by_cases htx : isText key = true
            · obtain ⟨rfl, hi⟩ := hcur htx rfl
              cases hi
              simp only [htx, if_true]
              exact fin
            · simp only [htx, Bool.false_eq_true, if_false]
              exact fin
        case isFalse hpk =>
          obtain ⟨rr, h1, h2, h3⟩ := container_parses (t := .assoc multi hashed sz key none) hc henv hnew hsub (by simpa using hpk)
            hf.1.2 hg (fun _ _ => by simp only [protoField]) vs cp b hb hL
          refine ⟨rr, _, h1, h2, h3, ?_⟩
          simp only [recEffect]
          by_cases hv : vs.isEmpty = true
          · simp only [Val.elems, hv, if_true]
            exact hst
          · rw [show (Val.list vs).elems = vs from rfl]
            simp only [hv, Bool.false_eq_true, if_false]
            exact fin
      | some mp =>
        have hall := (holdsAll_field hc henv hss hf hg hb hL hld).2.2 _ _ _ _ _ rfl
        obtain ⟨es, hold, hes⟩ := holds_map hst
        simp only [pbFieldOk, Bool.and_eq_true] at hf
        simp only [Good, Bool.and_eq_true] at hg
        simp only [pbField] at hb
        obtain ⟨rr, h1, h2, h3⟩ := container_parses (t := .assoc multi hashed sz key (some mp)) hc henv hnew hsub rfl rfl
          (entry_good hc hf.1.2 hf.2 hg.1 hg.2) (fun _ _ => by simp only [protoField]) vs cp b hb hL
        refine ⟨rr, _, h1, h2, h3, ?_⟩
        simp only [recEffect]
        by_cases hv : vs.isEmpty = true
        · simp only [Val.elems, hv, if_true]
          exact hst
        · rw [show (Val.list vs).elems = vs from rfl]
          simp only [hv, Bool.false_eq_true, if_false]
          rw [hes, addAll_append]
          exact .map (holdsAll_append hall hold)
    | scalar k n =>
      simp only [pbFieldOk, isMsg, Bool.or_false] at hf
      cases v <;> simp only [pbField, reduceCtorEq] at hb
      obtain ⟨p, h1, h2, h3, _⟩ := scalar_parses hf hb
      exact single p h1 h2 _ (by rw [protoField_scalar hf, h3]; rfl) (.num _ _)
    | bool =>
      cases v <;> simp only [pbField, reduceCtorEq] at hb
      obtain ⟨p, h1, h2, h3, _⟩ := scalar_parses rfl hb
      exact single p h1 h2 _ (by rw [protoField_scalar rfl, h3]; rfl) (.num _ _)
    | varint n zz =>
      simp only [pbFieldOk, isMsg, Bool.or_false] at hf
      cases v <;> simp only [pbField, reduceCtorEq] at hb
      obtain ⟨p, h1, h2, h3, _⟩ := scalar_parses hf hb
      exact single p h1 h2 _ (by rw [protoField_scalar hf, h3]; rfl) (.num _ _)
    | msg sz ok maps' nums' fs' =>
      simp only [pbFieldOk, pbScalarOk, Bool.false_or, isMsg_msgOf] at hf
      exact message hf rfl hf (by simpa only [LoadableRec] using hld)
    | ref j =>
      simp only [pbFieldOk, pbScalarOk, Bool.false_or, isMsg_msgOf] at hf
      exact message hf rfl hf (by simpa only [LoadableRec] using hld)
    | _ => simp [pbFieldOk, pbScalarOk, isMsg] at hf
  | one m' e =>
    simp only [Rec.member, Option.some.injEq] at hmem
    subst hmem
    simp only [recBytes, ht] at hb
    have elem : ∀ el, isPacked el = true → pbElemOk c.env el = true → packedOf t = some el →
        ∃ x p, e = .num x ∧ PayOk p ∧ b = pbRecord (numberAt maps nums m') p ∧
          protoAppend new sub c.env el p = some (some [e]) ∧ isText el = false := by
      intro el hpk hel hpo
      rw [hpo] at hb
      cases e with
      | num x =>
        simp only at hb
        have hn : numTy (packedElem el) = true := by
          cases el <;> simp [isPacked] at hpk <;> simpa [pbElemOk, isMsg, isStr] using hel
        have hs : pbScalarOk el = true := by
          cases el with
          | scalar k n =>
            cases k with
            | enum => exact hn
            | int =>
              unfold pbScalar at hb
              split at hb <;> first | cases hb | skip
              all_goals first
                | (rename_i e1 _; cases e1; rfl)
                | (rename_i e1; cases e1; rfl)
                | simp_all
            | byte => simp [pbScalar] at hb
            | chr => simp [pbScalar] at hb
          | bool => rfl
          | varint n zz => exact hn
          | _ => simp [isPacked] at hpk
        obtain ⟨p, h1, h2, h3, h4⟩ := scalar_parses hs hb
        refine ⟨x, p, rfl, h1, h2, ?_, ?_⟩
        · cases p with
          | len bs => exact absurd rfl (h4 bs)
          | _ => simp only [protoAppend, h3, Option.map]
        · cases el with
          | scalar k n => cases k <;> simp [pbScalarOk] at hs <;> simp [isText] <;> omega
          | _ => rfl
      | _ => simp at hb
    cases t with
    | seq k sz el =>
      simp only [pbFieldOk, Bool.and_eq_true] at hf
      by_cases hpk : isPacked el = true
      · obtain ⟨x, p, rfl, h1, h2, happ, htx⟩ := elem el hpk hf.1.2 (by simp [packedOf, hpk])
        exact single p h1 h2 (.list (cp.elems ++ [.num x])) (by
            simp only [protoField, protoContainer, happ, htx, Bool.false_eq_true, if_false])
          (by
            simp only [recEffect, addAll]
            exact .seq (holdsAll_append (.cons (.num _ _) .nil) (holds_seq hst)))
      · simp [packedOf, hpk] at hb
    | assoc multi hashed sz key mapped =>
      cases mapped with
      | some mp => simp [packedOf] at hb
      | none =>
        simp only [pbFieldOk, Bool.and_eq_true] at hf
        by_cases hpk : isPacked key = true
        · obtain ⟨x, p, rfl, h1, h2, happ, htx⟩ := elem key hpk hf.1.2 (by simp [packedOf, hpk])
          obtain ⟨es, hold, hes⟩ := holds_set hst
          exact single p h1 h2 (.list (cp.elems ++ [.num x])) (by
              simp only [protoField, protoContainer, happ, htx, Bool.false_eq_true, if_false])
            (by
              simp only [recEffect]
              rw [hes, addAll_append]
              exact .set (holdsAll_append (.cons (.num _ _) .nil) hold))
        · simp [packedOf, hpk] at hb
    | _ => simp [packedOf] at hb
  | blank m' =>
    simp only [Rec.member, Option.some.injEq] at hmem
    subst hmem
    simp only [recBytes, ht] at hb
    split at hb
    case isFalse => cases hb
    case isTrue hpo =>
      cases hb
      have hpay : PayOk (.len []) := by simp [PayOk]
      have happ : ∀ el, isPacked el = true → protoAppend new sub c.env el (.len []) = some (some []) := by
        intro el hpk
        simp only [protoAppend, hpk, if_true]
        rfl
      cases t with
      | seq k sz el =>
        have hpk : isPacked el = true := by
          simp only [packedOf] at hpo
          split at hpo <;> simp_all
        refine single (.len []) hpay rfl (if isText el then .list [] else .list (cp.elems ++ [])) (by
          simp only [protoField, protoContainer, happ el hpk]) ?_
        simp only [recEffect, List.append_nil]
        by_cases htx : isText el = true
        · have : fixedElem el = true := by
            cases el with
            | scalar k n => cases k <;> simp [isText] at htx <;> rfl
            | _ => simp [isText] at htx
          simp only [htx, this, if_true]
          exact .seq .nil
        · simp only [htx, Bool.false_eq_true, if_false]
          by_cases hfx : fixedElem el = true
          · obtain ⟨rfl, hi⟩ := hcur (by simp [firstOnly, hfx, htx]) rfl
            cases hi
            simp only [hfx, if_true, Val.elems]
            exact .seq .nil
          · simp only [hfx, Bool.false_eq_true, if_false]
            exact .seq (holds_seq hst)
      | assoc multi hashed sz key mapped =>
        cases mapped with
        | some mp => simp [packedOf] at hpo
        | none =>
          have hpk : isPacked key = true := by
            simp only [packedOf] at hpo
            split at hpo <;> simp_all
          refine single (.len []) hpay rfl (if isText key then .list [] else .list (cp.elems ++ [])) (by
            simp only [protoField, protoContainer, happ key hpk]) ?_
          simp only [recEffect, List.append_nil]
          by_cases htx : isText key = true
          · obtain ⟨rfl, hi⟩ := hcur htx rfl
            cases hi
            simp only [htx, if_true, Val.elems]
            exact .set .nil
          · simp only [htx, Bool.false_eq_true, if_false]
            obtain ⟨es, hold, hes⟩ := holds_set hst
            rw [hes]
            exact .set hold
      | _ => simp [packedOf] at hpo
  | sub m' rs =>
    simp only [Rec.member, Option.some.injEq] at hmem
    subst hmem
    simp only [recBytes, ht] at hb
    split at hb
    case h_2 => cases hb
    case h_1 maps' nums' fs' hmo =>
      obtain ⟨body, h1, h2, rfl⟩ := pbLen_some hb
      obtain ⟨rfl, hi⟩ := hcur (by
        cases t with
        | seq k sz e => simp [msgOf] at hmo
        | assoc multi hashed sz key mp => simp [msgOf] at hmo
        | _ => simp [firstOnly, hmo]) rfl
      obtain ⟨os, rfl, hos⟩ := initial_msg hmo hi
      have hmf : members c.env t = fs' := by simp [members, hmo]
      obtain ⟨ws, hr, hsw⟩ := hread maps' nums' fs' rs os body (good_msgOf hc henv hmo hg) h1
        (Nat.lt_of_lt_of_le (pbRecord_length_len _ body) hL) (hok t maps' nums' fs' ht hmo)
        (by simpa only [RecPlain, hmf] using hp) hos
      refine single (.len body) h2 rfl (.list ws) ?_ ?_
      · have hpf : protoField new sub c.env t (.list os) (.len body) = protoMessage sub c.env t (.list os) body := by
          cases t <;> first | rfl | simp [msgOf] at hmo
        rw [hpf]
        simp only [protoMessage, hmo, Val.elems, hr, Option.map]
      · simp only [recEffect, hmf, Val.elems, emptied_initial hos]
        exact .msg hmo hsw
  | elem m' o rs =>
    simp only [Rec.member, Option.some.injEq] at hmem
    subst hmem
    simp only [recBytes, ht] at hb
    simp only [RecPlain] at hp
    split at hb
    case h_2 => cases hb
    case h_1 maps' nums' fs' hmo =>
      obtain ⟨body, h1, h2, rfl⟩ := pbLen_some hb
      obtain ⟨hi, hrs⟩ := hok _ maps' nums' fs' ht hmo
      obtain ⟨os, rfl, hos⟩ := initial_msg hmo hi
      have hmf : members c.env (elemTy t) = fs' := by simp [members, hmo]
      have hlt := Nat.lt_of_lt_of_le (pbRecord_length_len (numberAt maps nums m') body) hL
      -- elements of sequences and sets
      have elem : ∀ e, elemTy t = e → Good c e = true → ∃ ws, protoAppend new sub c.env e (.len body) = some (some [.list ws]) ∧
          isText e = false ∧ Holds c e (.list ws) (.list (recsEffect c fs' rs os)) := by
        intro e he hge
        rw [he] at hmo hi hmf
        obtain ⟨ws, hr, hsw⟩ := hread maps' nums' fs' rs os body (good_msgOf hc henv hmo hge) h1 hlt hrs
          (by rw [he, hmf] at hp; exact hp) hos
        have hne : new e = .list os := hnew _ _ hi
        refine ⟨ws, ?_, ?_, .msg hmo hsw⟩
        · cases e with
          | msg sz' ok' maps'' nums'' fs'' =>
            simp only [protoAppend, isPacked, Bool.false_eq_true, if_false, protoMessage, hmo, hne, Val.elems, hr, Option.map]
          | ref i =>
            simp only [protoAppend, isPacked, Bool.false_eq_true, if_false, protoMessage, hmo, hne, Val.elems, hr, Option.map]
          | _ => simp [msgOf] at hmo
        · cases e <;> first | rfl | simp [msgOf] at hmo
      cases t with
      | seq k sz e =>
        simp only [Good, Bool.and_eq_true] at hg
        obtain ⟨ws, happ, htx, hsw⟩ := elem e rfl hg.2
        refine single (.len body) h2 rfl (.list (cp.elems ++ [.list ws])) (by
          simp only [protoField, protoContainer, happ, htx, Bool.false_eq_true, if_false]) ?_
        simp only [recEffect, hmf, addAll]
        rw [show (Val.list os).elems = os from rfl, emptied_initial hos]
        exact .seq (holdsAll_append (.cons hsw .nil) (holds_seq hst))
      | assoc multi hashed sz key mapped =>
        cases mapped with
        | none =>
          simp only [Good] at hg
          obtain ⟨ws, happ, htx, hsw⟩ := elem key rfl hg
          refine single (.len body) h2 rfl (.list (cp.elems ++ [.list ws])) (by
            simp only [protoField, protoContainer, happ, htx, Bool.false_eq_true, if_false]) ?_
          obtain ⟨es, hold, hes⟩ := holds_set hst
          simp only [recEffect, hmf]
          rw [show (Val.list os).elems = os from rfl, emptied_initial hos, hes, addAll_append]
          exact .set (holdsAll_append (.cons hsw .nil) hold)
        | some mp =>
          simp only [pbFieldOk, Bool.and_eq_true] at hf
          simp only [Good, Bool.and_eq_true] at hg
          have hge : Good c (elemTy (.assoc multi hashed sz key (some mp))) = true := by
            have := good_entry (c := c) (by have := inPb_pbCfg c; rwa [show pbCfg c = c from hc] at this) hf.1.2 hf.2 hg.1 hg.2
            simpa only [elemTy, entryMember_eq, pbEntry] using this
          simp only [elemTy, msgOf, Option.some.injEq, Prod.mk.injEq] at hmo
          obtain ⟨rfl, rfl, rfl⟩ := hmo
          have hos' : InitialL c.env [key, mp] os := initialL_entry (fs := [key, mp]) hos
          have hmg := good_msgOf (maps := []) (nums := [none, none]) (fs := [entryMember key, entryMember mp]) hc henv rfl hge
          obtain ⟨ws, hr, hsw⟩ := hread _ _ _ rs os body hmg h1 hlt hrs (by rw [hmf] at hp; exact hp) hos
          have hr' := henum [] [none, none] [key, mp] os body
          simp only [List.map_cons, List.map_nil] at hr'
          rw [hr] at hr'
          have hne : new (.msg none false [] [none, none] [key, mp]) = .list os := hnew _ _ (.msg hos')
          have happ : protoAppend new sub c.env (.msg none false [] [none, none] [key, mp]) (.len body) = some (some [.list ws]) := by
            simp only [protoAppend, isPacked, Bool.false_eq_true, if_false, protoMessage, msgOf, hne, Val.elems, ← hr', Option.map]
          refine single (.len body) h2 rfl (.list (cp.elems ++ [.list ws])) (by
            simp only [protoField, protoContainer, happ, isText, Bool.false_eq_true, if_false]) ?_
          obtain ⟨es, hold, hes⟩ := holds_map hst
          simp only [recEffect, hmf]
          rw [show (Val.list os).elems = os from rfl, emptied_initial hos, hes, addAll_append]
          exact .map (holdsAll_append (.cons (.msg rfl (holdsEach_entry (fs := [key, mp]) hsw)) .nil) hold)
      | _ => simp [elemTy, msgOf] at hmo
  | unknown num wt => simp [Rec.member] at hmem

theorem recs_parse {c : Cfg} (hc : insideMsg c = c) (henv : ∀ i, Good c (c.env i) = true) {new : Ty → Val}
    (hnew : NewObjects c.env new) {L : Nat} {sub : SubParser} (hsub : SubOk c new L sub) (hread : SubReads c L sub)
    (henum : SubEnum sub) {maps : List (Nat × Nat)} {nums : List (Option Nat)} {fs : List Ty} (hm : MsgGood c maps nums fs) :
    ∀ (rs : List Rec) (seen : List Nat) (ps vs : List Val) (body : List UInt8), recsBytes c.env maps nums fs rs = some body →
    body.length ≤ L → RecsOk c maps nums fs rs → RecsPlain c.env fs seen rs → HoldsEach c fs ps vs →
    (∀ m t, m ∉ seen → fs[m]? = some t → firstOnly c.env t = true → ps[m]? = vs[m]? ∧ ∃ o, vs[m]? = some o ∧ Initial c.env t o) →
    ∃ rr ws, body = recordBytes rr ∧ (∀ r ∈ rr, 0 < r.1 ∧ r.1 < 2 ^ 29 ∧ PayOk r.2) ∧
      protoAll new sub c.env (protoFields maps nums fs) ps rr = some ws ∧ HoldsEach c fs ws (recsEffect c fs rs vs)
  | [], seen, ps, vs, body, h, _, _, _, hst, _ => by
    simp only [recsBytes, Option.some.injEq] at h
    subst h
    exact ⟨[], ps, rfl, nofun, rfl, by simpa only [recsEffect] using hst⟩
  | r :: rs, seen, ps, vs, body, h, hL, hok, hp, hst, hinv => by
    simp only [recsBytes, cat_eq_some] at h
    obtain ⟨a, b, ha, hb, rfl⟩ := h
    rw [List.length_append] at hL
    simp only [RecsOk] at hok
    simp only [RecsPlain] at hp
    have hmem : ∃ m t, r.member = some m ∧ fs[m]? = some t := by
      cases r with
      | unknown num wt => simp [RecPlain] at hp
      | field m v => cases h : fs[m]? with | none => simp [recBytes, h] at ha | some t => exact ⟨m, t, rfl, h⟩
      | one m v => cases h : fs[m]? with | none => simp [recBytes, h] at ha | some t => exact ⟨m, t, rfl, h⟩
      | blank m => cases h : fs[m]? with | none => simp [recBytes, h] at ha | some t => exact ⟨m, t, rfl, h⟩
      | sub m v => cases h : fs[m]? with | none => simp [recBytes, h] at ha | some t => exact ⟨m, t, rfl, h⟩
      | elem m o v => cases h : fs[m]? with | none => simp [recBytes, h] at ha | some t => exact ⟨m, t, rfl, h⟩
    obtain ⟨m, t, hmm, ht⟩ := hmem
    have htd : fs.getD m .empty = t := by simp [List.getD, ht]
    simp only [hmm, Option.getD_some, htd] at hp
    obtain ⟨hml, _, hn0, hn1⟩ := pbFieldsOk_get fs 0 nums m t hm.fields ht
    rw [Nat.zero_add] at hn0 hn1
    obtain ⟨cp, cl, hcp, hcl, hsc⟩ := holdsEach_get hst ht
    have hvd : vs.getD m .unit = cl := by simp [List.getD, hcl]
    obtain ⟨rr, w, rfl, h1, h2, h2'⟩ := rec_parses hc henv hnew hsub hread henum hm hmm ht ha (by omega) hok.1 hp.1 cp cl hsc (by
      intro hf ho
      obtain ⟨e, o, ho1, ho2⟩ := hinv m t (hp.2.1 hf ho) ht hf
      rw [hcp, hcl] at e
      rw [hcl] at ho1
      cases e
      cases ho1
      exact ⟨rfl, ho2⟩)
    obtain ⟨rr', ws, rfl, h3, h4, h4'⟩ := recs_parse hc henv hnew hsub hread henum hm rs (m :: seen) (ps.set m w)
      (vs.set m (recEffect c t r cl)) b hb (by omega) hok.2 hp.2.2 (holdsEach_set hst ht h2') (by
        intro k u hk hu hf
        simp only [List.mem_cons, not_or] at hk
        obtain ⟨e, o, ho1, ho2⟩ := hinv k u hk.2 hu hf
        exact ⟨by rw [List.getElem?_set_ne (Ne.symm hk.1), List.getElem?_set_ne (Ne.symm hk.1), e], o,
          by rw [List.getElem?_set_ne (Ne.symm hk.1)]; exact ho1, ho2⟩)
    refine ⟨rr ++ rr', ws, by simp [recordBytes], ?_, ?_, ?_⟩
    · intro x hx
      simp only [List.mem_append] at hx
      rcases hx with hx | hx
      · obtain ⟨e, hpay⟩ := h1 x hx
        rw [e]
        exact ⟨hn0, hn1, hpay⟩
      · exact h3 x hx
    · have hfn := fieldNumbers_get (maps := maps) nums 0 m hml
      rw [Nat.zero_add] at hfn
      have hfield : (protoFields maps nums fs)[m]? = some (numberAt maps nums m, t) := by
        simp only [protoFields, List.getElem?_zip_eq_some]
        exact ⟨hfn, ht⟩
      rw [protoAll_at hfield (by
        intro k x hk hx he
        simp only [protoFields, List.getElem?_zip_eq_some] at hx
        rw [he] at hx
        have := nodup_get hm.distinct hx.1 hfn
        omega) rr ps cp _ hcp (fun x hx => (h1 x hx).1) h2, h4]
    · simp only [recsEffect, hmm, htd, hvd]
      exact h4'

theorem protoMsg_reads {c : Cfg} (hc : insideMsg c = c) (henv : ∀ i, Good c (c.env i) = true) {new : Ty → Val}
    (hnew : NewObjects c.env new) : ∀ d, SubReads c d (protoMsg new c.env d)
  | 0 => fun _ _ _ _ _ _ _ _ h => absurd h (Nat.not_lt_zero _)
  | d + 1 => by
    intro maps nums fs rs os body hm h hL hok hp hi
    obtain ⟨rr, ws, rfl, h1, h2, h3⟩ := recs_parse hc henv hnew (protoMsg_parses hc henv hnew d) (protoMsg_reads hc henv hnew d)
      (protoMsg_entry new c.env d) hm rs [] os os body h (by omega) hok hp (holdsEach_initial hc henv hm.fields hm.types hi)
      (fun m t _ ht _ => ⟨rfl, initialL_get hi ht⟩)
    simp only [protoMsg, protoRecords_recordBytes rr _ h1 (Nat.le_refl _)]
    exact ⟨ws, h2, h3⟩

/-! ### Objects without sets and maps -/

mutual
theorem holds_eq {c : Cfg} (henv : ∀ i, assocFree (c.env i) = true) : ∀ {t : Ty} {w v : Val}, assocFree t = true → Holds c t w v → v = w
  | _, _, _, _, .num _ _ => rfl
  | _, _, _, _, .unit => rfl
  | _, _, _, hf, .seq h => by
    simp only [assocFree] at hf
    rw [holdsAll_eq henv hf h]
  | _, _, _, hf, .set h => by simp [assocFree] at hf
  | _, _, _, hf, .map h => by simp [assocFree] at hf
  | t, _, _, hf, .msg (fs := fs) ht h => by
    have hfs : assocFreeL fs = true := by
      rcases msgOf_msg ht with ⟨ok, rfl⟩ | ⟨i, ok, rfl, hi⟩
      · simpa only [assocFree] using hf
      · have := henv i
        rw [hi] at this
        simpa only [assocFree] using this
    rw [holdsEach_eq henv hfs h]
theorem holdsAll_eq {c : Cfg} (henv : ∀ i, assocFree (c.env i) = true) : ∀ {t : Ty} {ws vs : List Val}, assocFree t = true →
    HoldsAll c t ws vs → vs = ws
  | _, _, _, _, .nil => rfl
  | _, _, _, hf, .cons h hs => by rw [holds_eq henv hf h, holdsAll_eq henv hf hs]
theorem holdsEach_eq {c : Cfg} (henv : ∀ i, assocFree (c.env i) = true) : ∀ {fs : List Ty} {ws vs : List Val}, assocFreeL fs = true →
    HoldsEach c fs ws vs → vs = ws
  | _, _, _, _, .nil => rfl
  | _, _, _, hf, .cons h hs => by
    simp only [assocFreeL, Bool.and_eq_true] at hf
    rw [holds_eq henv hf.1 h, holdsEach_eq henv hf.2 hs]
end

theorem firsts_distinct {same : Val → Val → Bool} : ∀ {es : List Val}, es.Pairwise (fun x y => same x y = false) → firsts same es = es
  | [], _ => rfl
  | e :: es, h => by
    rw [List.pairwise_cons] at h
    rw [firsts, firsts_distinct h.2, List.filter_eq_self.mpr]
    intro x hx
    simp [h.1 x hx]

end Zpp
