import Verif.Spec.UserLib
import Verif.Spec.Depth
import Verif.Proof.InRecords
import Verif.Proof.UserNest
/-!
# A class whose function lists its members is serialized as the class without the function
-/

namespace Zpp
open Spec

theorem decAll_congr {rec rec' : Val → Nat → Res} : ∀ (os : List Val) (p : Nat),
    (∀ v ∈ os, ∀ p, rec v p = rec' v p) → decAll rec os p = decAll rec' os p
  | [], _, _ => rfl
  | o :: os, p, h => by
    rw [decAll, decAll, h o (by simp)]
    generalize rec' o p = r
    obtain ⟨s, v, p'⟩ := r
    cases s <;> dsimp only
    rw [decAll_congr os p' (fun v hv => h v (by simp [hv]))]

theorem decAssoc_congr {e e' : Nat → Res} (ins : Val → List Val → List Val)
    (h : ∀ p, (e p).s = (e' p).s ∧ (e p).p = (e' p).p ∧ ((e p).s = .ok → (e p).v = (e' p).v)) :
    ∀ (n : Nat) (vs : List Val) (p : Nat), decAssoc e ins n vs p = decAssoc e' ins n vs p
  | 0, _, _ => rfl
  | n + 1, vs, p => by
    rw [decAssoc, decAssoc]
    have hp := h p
    generalize e p = r at *
    generalize e' p = r' at *
    obtain ⟨s, v, q⟩ := r
    obtain ⟨s', v', q'⟩ := r'
    dsimp only at hp
    obtain ⟨rfl, rfl, hv⟩ := hp
    cases s <;> dsimp only
    rw [hv rfl, decAssoc_congr ins h n]

/-- Members of the given types, one by one. -/
def BuiltL : List UTy → List Val → Prop
  | [], [] => True
  | t :: ts, o :: os => Built t o ∧ BuiltL ts os
  | _, _ => False

theorem objL_of_listing : ∀ (ts : List UTy) (pre os : List Val), os.length = ts.length →
    BuiltS (listing pre.length ts) (pre ++ os) → BuiltL ts os
  | [], _, [], _, _ => trivial
  | [], _, _ :: _, h, _ => by simp at h
  | _ :: _, _, [], h, _ => by simp at h
  | t :: ts, pre, o :: os, hl, h => by
    rw [listing, BuiltS] at h
    refine ⟨?_, ?_⟩
    · have := h.1
      simpa [memberOf] using this
    · refine objL_of_listing ts (pre ++ [o]) os (by simpa using hl) ?_
      simpa using h.2 .unit

theorem listing_of_objL : ∀ (ts : List UTy) (pre os : List Val), BuiltL ts os →
    BuiltS (listing pre.length ts) (pre ++ os)
  | [], _, _, _ => by rw [listing]; simp only [BuiltS]
  | _ :: _, _, [], h => h.elim
  | t :: ts, pre, o :: os, h => by
    rw [listing, BuiltS]
    refine ⟨by simpa [memberOf] using h.1, fun _ => ?_⟩
    have := listing_of_objL ts (pre ++ [o]) os h.2
    simpa using this

theorem objL_length : ∀ (ts : List UTy) (os : List Val), BuiltL ts os → os.length = ts.length
  | [], [], _ => rfl
  | [], _ :: _, h => h.elim
  | _ :: _, [], h => h.elim
  | _ :: ts, _ :: os, h => by simp [objL_length ts os h.2]

theorem objL_get : ∀ {ts : List UTy} {os : List Val} {i : Nat} {t : UTy} {o : Val}, BuiltL ts os → ts[i]? = some t →
    os[i]? = some o → Built t o
  | [], [], _, _, _, _, h, _ => by simp at h
  | [], _ :: _, _, _, _, h, _, _ => h.elim
  | _ :: _, [], _, _, _, h, _, _ => h.elim
  | t :: ts, o :: os, 0, _, _, h, h1, h2 => by
    simp at h1 h2; subst h1 h2; exact h.1
  | t :: ts, o :: os, i + 1, _, _, h, h1, h2 => objL_get (ts := ts) (os := os) (i := i) h.2 (by simpa using h1) (by simpa using h2)

theorem asLibL_length {u : UCfg} {D : Nat} {R : Nat → Nat → Prop} : ∀ {ts : List UTy} {fs : List Ty},
    AsLibL u D R ts fs → ts.length = fs.length
  | _, _, .nil => rfl
  | _, _, .cons _ hs => by simp [asLibL_length hs]

theorem initialL_length {env : Nat → Ty} : ∀ {fs : List Ty} {os : List Val}, InitialL env fs os → os.length = fs.length
  | _, _, .nil => rfl
  | _, _, .cons _ hs => by simp [initialL_length hs]

/-- A function that lists members runs as the library on the members. -/
theorem uScriptIn_listing {rec : UTy → Val → Nat → Res} {rec' : Ty → Val → Nat → Res} :
    ∀ (ts : List UTy) (fs : List Ty) (pre os : List Val) (p : Nat), ts.length = fs.length → os.length = ts.length →
    (∀ (i : Nat) (t : UTy) (f : Ty) (o : Val), ts[i]? = some t → fs[i]? = some f → os[i]? = some o → ∀ p, rec t o p = rec' f o p) →
    uScriptIn rec (listing pre.length ts) (pre ++ os) p =
      ⟨(decFields rec' fs os p).s, pre ++ (decFields rec' fs os p).vs, (decFields rec' fs os p).p⟩
  | [], [], _, [], _, _, _, _ => by simp [listing, uScriptIn, decFields]
  | [], _ :: _, _, _, _, h, _, _ => by simp at h
  | _ :: _, [], _, _, _, h, _, _ => by simp at h
  | [], [], _, _ :: _, _, _, h, _ => by simp at h
  | _ :: _, _ :: _, _, [], _, _, h, _ => by simp at h
  | t :: ts, f :: fs, pre, o :: os, p, h1, h2, h => by
    have hm : memberOf (pre ++ o :: os) pre.length = o := by simp [memberOf]
    have h0 := h 0 t f o rfl rfl rfl p
    rw [listing, uScriptIn, hm, decFields, List.headD_cons, List.tail_cons, h0]
    generalize rec' f o p = r
    obtain ⟨s, v, p'⟩ := r
    have hset : (pre ++ o :: os).set pre.length v = pre ++ [v] ++ os := by
      rw [List.set_append_right _ _ (Nat.le_refl _)]; simp
    cases s <;> dsimp only <;> rw [hset]
    case ok =>
      have ih := uScriptIn_listing (rec := rec) (rec' := rec') ts fs (pre ++ [v]) os p' (by simpa using h1)
        (by simpa using h2) (fun i t f o a b c => h (i + 1) t f o (by simpa using a) (by simpa using b) (by simpa using c))
      rw [List.length_append] at ih
      simp only [List.length_singleton] at ih
      rw [ih]
      simp
    all_goals simp

theorem resizeVals_self (vs : List Val) (dv : Val) : resizeVals vs vs.length dv = vs := by simp [resizeVals]

theorem heightL_get : ∀ {fs : List Ty} {i : Nat} {f : Ty}, fs[i]? = some f → height f ≤ heightL fs
  | [], _, _, h => by simp at h
  | f :: fs, 0, g, h => by
    simp at h; subst h; rw [heightL]; omega
  | f :: fs, i + 1, g, h => by
    have := heightL_get (fs := fs) (i := i) (f := g) (by simpa using h)
    rw [heightL]; omega

theorem asLibL_get {u : UCfg} {D : Nat} {R : Nat → Nat → Prop} : ∀ {ts : List UTy} {fs : List Ty},
    AsLibL u D R ts fs → ∀ i : Nat, match ts[i]?, fs[i]? with
      | some t, some f => AsLib u D R t f
      | none, none => True
      | _, _ => False
  | _, _, .nil, i => by simp
  | _, _, .cons h hs, 0 => by simpa using h
  | _, _, .cons h hs, i + 1 => by simpa using asLibL_get hs i

theorem objAlt_get : ∀ {ts : List UTy} {i : Nat} {x : Val} {t : UTy}, BuiltAlt ts i x → ts[i]? = some t → Built t x
  | [], _, _, _, _, h => by simp at h
  | t :: ts, 0, x, t', h, h' => by
    simp at h'; subst h'; rw [BuiltAlt] at h; exact h
  | t :: ts, i + 1, x, t', h, h' => objAlt_get (ts := ts) (i := i) (by rw [BuiltAlt] at h; exact h) (by simpa using h')

abbrev noRefs : Nat → Nat → Prop := fun _ _ => False

mutual
/-- New objects are the same. -/
theorem uFresh_asLib {u : UCfg} {D : Nat} {t : UTy} {e : Ty} (h : AsLib u D noRefs t e) :
    ∀ d, D + height e ≤ d → uFresh d u t = dflt u.c d e ∧ Built t (uFresh d u t)
  | 0, hd => by
    exfalso
    have : 1 ≤ height e := by cases e <;> (try cases ‹Option Ty›) <;> simp only [height] <;> omega
    omega
  | d + 1, hd => by
    match h with
    | .lib t => exact ⟨by rw [uFresh], by simp only [Built]⟩
    | .user (ts := ts) (fs := fs) (fresh := fresh) hts hi hdp =>
      simp only [height] at hd
      have h1 := initialL_dflt hi d (by omega)
      have h2 := objL_fresh hts hi d (by omega) (by omega)
      refine ⟨by rw [uFresh, dflt, h1], ?_⟩
      rw [uFresh, Built]
      exact ⟨rfl, listing_of_objL ts [] fresh h2⟩
    | .seq sz h hk hb hs => exact ⟨by rw [uFresh, dflt], by simp [uFresh, Built, Val.elems]⟩
    | .array n h hb =>
      simp only [height] at hd
      have ih := uFresh_asLib h d (by omega)
      refine ⟨by rw [uFresh, dflt, ih.1], ?_⟩
      rw [uFresh, Built]
      refine ⟨by simp [Val.elems], fun x hx => ?_⟩
      rw [Val.elems] at hx
      rw [List.eq_of_mem_replicate hx]
      exact ih.2
    | .set _ _ _ _ _ => exact ⟨by rw [uFresh, dflt], by simp only [Built]⟩
    | .map _ _ _ _ _ _ => exact ⟨by rw [uFresh, dflt], by simp only [Built]⟩
    | .optional _ _ => exact ⟨by rw [uFresh, dflt], by simp [uFresh, Built]⟩
    | .optPtr _ => exact ⟨by rw [uFresh, dflt], by simp only [Built]⟩
    | .uptr _ => exact ⟨by rw [uFresh, dflt], by simp only [Built]⟩
    | .variant _ _ _ hts =>
      simp only [height] at hd
      match hts with
      | .nil => exact ⟨by rw [uFresh, dflt], by simp [uFresh, Built]⟩
      | .cons (t := t) h _ =>
        simp only [heightL] at hd
        have ih := uFresh_asLib h d (by omega)
        refine ⟨by rw [uFresh, dflt]; simp only [ih.1], ?_⟩
        rw [uFresh, Built]
        intro i x hx
        cases hx
        rw [BuiltAlt]
        exact ih.2
    | .ref h => exact h.elim
/-- New members are members of the right types. -/
theorem objL_fresh {u : UCfg} {D : Nat} {ts : List UTy} {fs : List Ty} {os : List Val} (h : AsLibL u D noRefs ts fs)
    (hi : InitialL u.c.env fs os) (d : Nat) (h1 : D + heightL fs ≤ d) (h2 : 2 * depthL os ≤ d) : BuiltL ts os := by
  match h, hi with
  | .nil, .nil => trivial
  | .cons h hs, .cons hi his =>
    simp only [heightL] at h1
    simp only [depthL] at h2
    have ih := uFresh_asLib h d (by omega)
    rw [ih.1, initial_dflt hi d (by split <;> omega)] at ih
    exact ⟨ih.2, objL_fresh hs his d (by omega) (by omega)⟩
end

theorem uEntryIn_congr {key mapped : Nat → Res} {rec : Ty → Val → Nat → Res} {kt mt : Ty} {ko mo : Val} (p : Nat)
    (hk : ∀ p, key p = rec kt ko p) (hm : ∀ p, mapped p = rec mt mo p) :
    let a := uEntryIn key mapped p
    let b := (decFields rec [kt, mt] [ko, mo] p).toRes
    a.s = b.s ∧ a.p = b.p ∧ (a.s = .ok → a.v = b.v) := by
  simp only [uEntryIn, decFields, List.headD_cons, List.tail_cons, hk, ResL.toRes]
  generalize rec kt ko p = r
  obtain ⟨s, v, q⟩ := r
  cases s <;> dsimp only
  case ok =>
    rw [hm]
    generalize rec mt mo q = r'
    obtain ⟨s, v, q⟩ := r'
    cases s <;> simp
  all_goals simp

theorem seqFill_notBytes {c : Cfg} {k : SeqKind} {e : Ty} {n : Nat} {rec rec' : Val → Nat → Res} {dv old : Val}
    {data : List UInt8} (hk : k ≠ .view) (hb : asBytes c e = false) (size : Nat) (hs : size = c.sizeof e) (p : Nat)
    (h : ∀ v, (v ∈ old.elems ∨ v = dv) → ∀ p, rec v p = rec' v p) :
    uSeqFill c.g k size rec dv old n p = seqFill c k e rec' dv old data n p := by
  subst hs
  have h1 : decAll rec (old.elems.take n) p = decAll rec' (old.elems.take n) p :=
    decAll_congr _ _ fun v hv => h v (.inl (List.mem_of_mem_take hv))
  have h2 : decAll rec (resizeVals old.elems n dv) p = decAll rec' (resizeVals old.elems n dv) p :=
    decAll_congr _ _ fun v hv => h v (by
      simp only [resizeVals, List.mem_append] at hv
      rcases hv with hv | hv
      · exact .inl (List.mem_of_mem_take hv)
      · exact .inr (List.eq_of_mem_replicate hv))
  cases k <;> simp only [uSeqFill, seqFill, seqBody, hb, h1, h2] <;> first | exact (hk rfl).elim | simp

theorem decAlt_congr {rec rec' : Val → Nat → Res} {dc : Bool} {i : Nat} {dv old : Val} (p : Nat)
    (h1 : ∀ p, rec dv p = rec' dv p) (h2 : ∀ v, old = .alt i v → ∀ p, rec v p = rec' v p) :
    decAlt rec dc i dv old p = decAlt rec' dc i dv old p := by
  cases dc <;> simp only [decAlt, Bool.false_eq_true, ↓reduceIte, h1]
  cases old <;> simp only [h1]
  rename_i j v
  by_cases hj : j = i
  · subst hj; simp only [↓reduceIte, h2 v rfl]
  · simp only [hj, ↓reduceIte, h1]

mutual
/-- Reading is the same. -/
theorem uDecode_asLib {u : UCfg} {D : Nat} {t : UTy} {e : Ty} (h : AsLib u D noRefs t e) (data : List UInt8) :
    ∀ d, D + height e ≤ d → ∀ (old : Val) (p : Nat), Built t old → uDecode d u t old data p = decode d u.c e old data p
  | 0, _, _, _, _ => by rw [uDecode, decode]
  | d + 1, hd, old, p, hb => by
    match h with
    | .lib t => rw [uDecode]
    | .user (ts := ts) (fs := fs) (fresh := fresh) hts hi hdp =>
      simp only [height] at hd
      rw [Built] at hb
      rw [uDecode, decode, if_neg (by simp [asBytes, Ty.endianIndep, Ty.byteSer]), ← hb.1, resizeVals_self]
      have hl := asLibL_length hts
      have hl2 := initialL_length hi
      have h3 := objL_of_listing ts [] old.elems (by rw [hb.1]; omega) hb.2
      have := uScriptIn_listing (rec := fun t v p => uDecode d u t v data p) (rec' := fun t v p => decode d u.c t v data p)
        ts fs [] old.elems p hl (by rw [hb.1]; omega) (fun i t f o a b x p =>
          uDecodeL_asLib hts data d (by omega) i t f a b o p (objL_get h3 a x))
      simp only [List.length_nil, List.nil_append] at this
      rw [this]
    | .seq sz (t := t') (e := e') ht hk hnb hs =>
      simp only [height] at hd
      rw [Built] at hb
      have hf := uFresh_asLib ht d (by omega)
      have ih := uDecode_asLib ht data d (by omega)
      rw [uDecode, decode]
      cases effSz u.c sz with
      | none =>
        dsimp only
        rw [if_neg hk, decAll_congr old.elems p (fun v hv p => ih v p (hb v hv))]
        rename_i k
        cases k <;> simp only [seqUnsized, seqBody, hnb] <;> first | exact (hk rfl).elim | simp
      | _ =>
        dsimp only
        generalize decHdr u.c _ data p = r
        obtain ⟨s, n, p1⟩ := r
        cases s <;> try rfl
        dsimp only
        rw [← hf.1]
        refine seqFill_notBytes hk hnb _ hs _ fun v hv p => ih v p ?_
        rcases hv with hv | rfl
        · exact hb v hv
        · exact hf.2
    | .array n ht hnb =>
      simp only [height] at hd
      rw [Built] at hb
      have ih := uDecode_asLib ht data d (by omega)
      rw [uDecode, decode]
      simp only [hnb, Bool.false_eq_true, ↓reduceIte, ← hb.1, resizeVals_self]
      rw [decAll_congr old.elems p (fun v hv p => ih v p (hb.2 v hv))]
    | .set multi hashed sz ht hl =>
      simp only [height] at hd
      have hf := uFresh_asLib ht d (by omega)
      have ih := uDecode_asLib ht data d (by omega)
      rw [uDecode, decode]
      generalize decHdr u.c _ data p = r
      obtain ⟨s, n, p1⟩ := r
      cases s <;> try rfl
      dsimp only
      simp only [fun p => ih _ p hf.2, hl]
      rw [hf.1]
      rfl
    | .map multi hashed sz (k := k) (key := key) hk hl ht =>
      simp only [height] at hd
      have hf := uFresh_asLib ht d (by omega)
      have hfk := uFresh_asLib hk d (by omega)
      have ih := uDecode_asLib ht data d (by omega)
      have ihk := uDecode_asLib hk data d (by omega)
      rw [uDecode, decode]
      generalize decHdr u.c _ data p = r
      obtain ⟨s, n, p1⟩ := r
      cases s <;> try rfl
      dsimp only
      rw [decAssoc_congr _ (fun p => uEntryIn_congr (rec := fun t v p => decode d u.c t v data p) p (fun p => ihk _ p hfk.2)
        (fun p => ih _ p hf.2)), hf.1, hfk.1, hl]
      rfl
    | .optional dc ht =>
      simp only [height] at hd
      rw [Built] at hb
      have hf := uFresh_asLib ht d (by omega)
      have ih := uDecode_asLib ht data d (by omega)
      have ih0 := fun p => ih _ p hf.2
      rw [hf.1] at ih0
      rw [uDecode.eq_def, decode.eq_def]
      dsimp only
      rw [uOptIn, hf.1]
      generalize getBytes data p 1 = r
      obtain ⟨s, bs, p1⟩ := r
      cases s <;> try rfl
      dsimp only
      cases dc
      · simp only [Bool.false_eq_true, ↓reduceIte, ih0]
        generalize decode d u.c _ _ data p1 = r
        obtain ⟨s, v, p1⟩ := r
        cases s <;> rfl
      · cases old <;> simp only [ih0, ↓reduceIte]
        rename_i x
        rw [ih x p1 (hb x rfl)]
    | .optPtr ht =>
      simp only [height] at hd
      have hf := uFresh_asLib ht d (by omega)
      have ih := uDecode_asLib ht data d (by omega)
      rw [uDecode, decode]
      have ih0 := fun p => ih _ p hf.2
      rw [hf.1] at ih0
      rw [uOptIn, hf.1]
      generalize getBytes data p 1 = r
      obtain ⟨s, bs, p1⟩ := r
      cases s <;> try rfl
      simp only [Bool.false_eq_true, ↓reduceIte, ih0]
      generalize decode d u.c _ _ data p1 = r
      obtain ⟨s, v, p1⟩ := r
      cases s <;> rfl
    | .uptr ht =>
      simp only [height] at hd
      have hf := uFresh_asLib ht d (by omega)
      have ih := uDecode_asLib ht data d (by omega)
      rw [uDecode, decode, ih _ _ hf.2, hf.1]
      generalize decode d u.c _ _ data p = r
      obtain ⟨s, v, p1⟩ := r
      cases s <;> rfl
    | .variant idTy ids dcs (ts := ts) (es := es) hts =>
      simp only [height] at hd
      rw [Built] at hb
      rw [uDecode, decode]
      generalize decode d u.c idTy _ data p = r
      obtain ⟨s, v, p1⟩ := r
      cases s <;> try rfl
      dsimp only
      generalize findId v ids 0 = o
      cases o with
      | none => rfl
      | some i =>
        dsimp only
        have hg := asLibL_get hts i
        have ih := uDecodeL_asLib hts data d (by omega) i
        have hh := fun f => heightL_get (fs := es) (i := i) (f := f)
        have hba := fun x hx t => objAlt_get (t := t) (hb i x hx)
        generalize ts[i]? = a at *
        generalize es[i]? = b at *
        cases a <;> cases b <;> simp only at hg
        · rfl
        · cases dcs[i]? with
          | none => rfl
          | some dc =>
            dsimp only
            have hf := uFresh_asLib hg d (by have := hh _ rfl; omega)
            rw [hf.1]
            refine decAlt_congr p1 (fun p => ?_) fun x hx p => ih _ _ rfl rfl _ _ (hba x hx _ rfl)
            rw [← hf.1]
            exact ih _ _ rfl rfl _ _ hf.2
    | .ref h => exact h.elim
/-- Reading of members and alternatives is the same. -/
theorem uDecodeL_asLib {u : UCfg} {D : Nat} {ts : List UTy} {es : List Ty} (h : AsLibL u D noRefs ts es)
    (data : List UInt8) (d : Nat) (hd : D + heightL es ≤ d) (i : Nat) :
    ∀ (t : UTy) (e : Ty), ts[i]? = some t → es[i]? = some e →
      ∀ o p, Built t o → uDecode d u t o data p = decode d u.c e o data p := by
  match h with
  | .nil => intro t e hi; simp at hi
  | .cons h hs =>
    simp only [heightL] at hd
    intro t e h1 h2
    cases i with
    | zero =>
      simp at h1 h2
      subst h1 h2
      exact uDecode_asLib h data d (by omega)
    | succ i => exact uDecodeL_asLib hs data d (by omega) i t e (by simpa using h1) (by simpa using h2)
end

/-- The first operation does what the second does, unless the second is given an object of another type. -/
def Agree (a b : OutM) : Prop := ∀ st, (b st).1 ≠ .illFormed → a st = b st

theorem Agree.refl (a : OutM) : Agree a a := fun _ _ => rfl

theorem Agree.ill {a : OutM} : Agree a (OutM.fail .illFormed) := fun _ h => (h rfl).elim

theorem Agree.andThen {a a' b b' : OutM} (h1 : Agree a a') (h2 : Agree b b') : Agree (a.andThen b) (a'.andThen b') := by
  intro st h
  have h1 := h1 st
  simp only [OutM.andThen] at h ⊢
  generalize a' st = r at *
  obtain ⟨s, st1⟩ := r
  cases s <;> simp only [ne_eq, reduceCtorEq, not_false_eq_true, forall_const, not_true_eq_false] at h h1
  case ok => rw [h1]; exact h2 st1 h
  all_goals rw [h1]

theorem Agree.all {f g : Val → OutM} (h : ∀ v, Agree (f v) (g v)) : ∀ vs, Agree (encAll f vs) (encAll g vs)
  | [] => .refl _
  | v :: vs => by rw [encAll, encAll]; exact (h v).andThen (Agree.all h vs)

theorem agree_listing {f : UTy → Val → OutM} {g : Ty → Val → OutM} {u : UCfg} {D : Nat} {R : Nat → Nat → Prop}
    (h : ∀ t e, AsLib u D R t e → ∀ v, Agree (f t v) (g e v)) : ∀ {ts : List UTy} {es : List Ty}, AsLibL u D R ts es →
    ∀ (pre vs : List Val), Agree (uScriptOut f (pre ++ vs) (listing pre.length ts)) (encFields g es vs)
  | _, _, .nil, _, [] => .refl _
  | _, _, .nil, _, _ :: _ => .ill
  | _, _, .cons _ _, _, [] => .ill
  | _, _, .cons (ts := ts) ht hs, pre, v :: vs => by
    have hm : memberOf (pre ++ v :: vs) pre.length = v := by simp [memberOf]
    rw [listing, uScriptOut, hm, encFields]
    have := agree_listing h hs (pre ++ [v]) vs
    simp only [List.append_assoc, List.singleton_append, List.length_append, List.length_singleton] at this
    exact (h _ _ ht v).andThen this

/-- Writing is the same. -/
theorem uEncode_asLib {u : UCfg} {D : Nat} {R : Nat → Nat → Prop}
    (hR : ∀ i j, R i j → AsLib u D R (u.env i) (u.c.env j)) : ∀ (d : Nat) (t : UTy) (e : Ty), AsLib u D R t e → ∀ v,
    Agree (uEncode d u t v) (encode d u.c e v)
  | 0, _, _, _, _ => by rw [uEncode, encode]; exact .refl _
  | d + 1, t, e, h, v => by
    have ih := uEncode_asLib hR d
    match h with
    | .lib t => rw [uEncode]; exact .refl _
    | .user hts _ _ =>
      cases v <;> simp only [uEncode, encode] <;> try exact .ill
      rw [if_neg (by simp [asBytes, Ty.endianIndep, Ty.byteSer])]
      exact agree_listing ih hts [] _
    | .seq sz ht hk hnb hs =>
      cases v <;> simp only [uEncode, encode] <;> try exact .ill
      rw [if_neg (by simp [hnb])]
      exact (Agree.refl _).andThen (.all (ih _ _ ht) _)
    | .array n ht hnb =>
      cases v <;> simp only [uEncode, encode] <;> try exact .ill
      split
      · exact .refl _
      · rw [if_neg (by simp [hnb])]
        exact .all (ih _ _ ht) _
    | .set _ _ sz ht _ =>
      cases v <;> simp only [uEncode, encode] <;> try exact .ill
      exact (Agree.refl _).andThen (.all (ih _ _ ht) _)
    | .map _ _ sz hk _ ht =>
      cases v <;> simp only [uEncode, encode] <;> try exact .ill
      refine (Agree.refl _).andThen (.all (fun x => ?_) _)
      cases x <;> try exact .ill
      rename_i es
      match es with
      | [k, x] =>
        simp only [uEntryOut, encFields]
        refine (ih _ _ hk k).andThen ?_
        intro st hst
        have := ih _ _ ht x st
        simp only [OutM.andThen, OutM.skip] at hst ⊢
        generalize encode d u.c _ x st = r at *
        obtain ⟨s, st1⟩ := r
        cases s <;> simp_all
      | [] => exact .ill
      | [k] => exact (ih _ _ hk k).andThen .ill
      | k :: x :: _ :: _ =>
        simp only [uEntryOut, encFields]
        intro st hst
        refine ((((ih _ _ hk k).andThen (ih _ _ ht x)).andThen .ill) st ?_).trans ?_
        all_goals rw [andThen_assoc]
        exact hst
    | .optional dc ht =>
      cases v <;> simp only [uEncode, encode, encOptional] <;> first | exact .ill | exact .refl _ | skip
      exact (Agree.refl _).andThen (ih _ _ ht _)
    | .optPtr ht =>
      cases v <;> simp only [uEncode, encode, encOptional] <;> first | exact .ill | exact .refl _ | skip
      exact (Agree.refl _).andThen (ih _ _ ht _)
    | .uptr ht =>
      cases v <;> simp only [uEncode, encode, encUptr] <;> first | exact .ill | exact .refl _ | skip
      exact ih _ _ ht _
    | .variant idTy ids dcs (ts := ts) (es := es) hts =>
      cases v <;> simp only [uEncode, encode, encVariant] <;> first | exact .ill | exact .refl _ | skip
      rename_i i x
      have hg := asLibL_get hts i
      generalize ts[i]? = a at *
      generalize es[i]? = b at *
      cases ids[i]? <;> cases a <;> cases b <;> simp only at hg <;> try exact .ill
      exact (Agree.refl _).andThen (ih _ _ hg _)
    | .ref h => rw [uEncode, encode]; exact ih _ _ (hR _ _ h) v

end Zpp
