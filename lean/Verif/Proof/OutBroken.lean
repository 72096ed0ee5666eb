import Verif.Proof.OutCall
import Mathlib.Tactic.Tauto
/-! # Objects without encoding, and fitting of growing buffers -/

namespace Zpp
open Spec

/-- `m` writes `bs` and then fails with `s`, or has no room for `bs`. -/
def FailsAfter (g : Growth) (z : Bool) (bs : List UInt8) (s : Status) (m : OutM) : Prop :=
  ∀ pre rest : List UInt8, (z = true → AllZero rest) → pre.length + rest.length < 2 ^ 63 →
    (m ⟨pre ++ rest, pre.length⟩).1 = s ∨
    (g.resizable = false ∧ (m ⟨pre ++ rest, pre.length⟩).1 = .err .resultOutOfRange ∧ rest.length < bs.length) ∨
    (g.resizable = true ∧ (m ⟨pre ++ rest, pre.length⟩).1 = .err .noBufferSpace ∧
      ¬ LimitRoom g (pre.length + bs.length)) ∨
    (g.resizable = true ∧ (m ⟨pre ++ rest, pre.length⟩).1 = .badAlloc ∧ ¬ MemRoom g (pre.length + bs.length))

theorem FailsAfter.fail (g : Growth) (z : Bool) (s : Status) : FailsAfter g z [] s (OutM.fail s) :=
  fun _ _ _ _ => Or.inl rfl

theorem FailsAfter.after {g : Growth} {z : Bool} {b1 b2 : List UInt8} {s : Status} {m1 m2 : OutM}
    (h1 : Emits g z b1 m1) (h2 : FailsAfter g z b2 s m2) : FailsAfter g z (b1 ++ b2) s (m1.andThen m2) := by
  intro pre rest hz hl
  rcases h1 pre rest hz hl with ⟨k, he, hk, hf, hb⟩ | ⟨hr, he, hlt⟩ | ⟨hr, he, hlt⟩ | ⟨hr, he, hlt⟩
  · rw [OutM.andThen_ok he]
    have hlen : ((rest ++ List.replicate k 0).drop b1.length).length = rest.length + k - b1.length := by simp
    have h' := h2 (pre ++ b1) ((rest ++ List.replicate k 0).drop b1.length)
      (fun hz' => (hz hz').rest k _) (by rw [hlen]; simp; omega)
    rw [List.length_append] at h'
    rcases h' with h' | ⟨hr, he2, hlt⟩ | ⟨hr, he2, hlt⟩ | ⟨hr, he2, hlt⟩
    · exact Or.inl h'
    · right; left
      refine ⟨hr, he2, ?_⟩
      rw [hlen] at hlt; simp; have := hf hr; omega
    · right; right; left
      refine ⟨hr, he2, ?_⟩
      rwa [List.length_append, ← Nat.add_assoc]
    · right; right; right
      refine ⟨hr, he2, ?_⟩
      rwa [List.length_append, ← Nat.add_assoc]
  · rw [OutM.andThen_ne (by rw [he]; simp)]
    right; left
    exact ⟨hr, he, by simp; omega⟩
  · rw [OutM.andThen_ne (by rw [he]; simp)]
    right; right; left
    exact ⟨hr, he, fun hh => hlt (hh.mono (by simp))⟩
  · rw [OutM.andThen_ne (by rw [he]; simp)]
    right; right; right
    exact ⟨hr, he, fun hh => hlt (hh.mono (by simp))⟩

theorem FailsAfter.stop {g : Growth} {z : Bool} {bs : List UInt8} {s : Status} {m1 m2 : OutM}
    (hs : s ≠ .ok) (h1 : FailsAfter g z bs s m1) : FailsAfter g z bs s (m1.andThen m2) := by
  intro pre rest hz hl
  have h := h1 pre rest hz hl
  have hne : (m1 ⟨pre ++ rest, pre.length⟩).1 ≠ .ok := by
    rcases h with he | ⟨_, he, _⟩ | ⟨_, he, _⟩ | ⟨_, he, _⟩ <;> rw [he] <;> first | exact hs | simp
  rw [OutM.andThen_ne hne]
  exact h

theorem encAll_fails {g : Growth} {z : Bool} {rec : Val → OutM} {s : Status} (hs : s ≠ .ok)
    {w : Val → Option (List UInt8)} {W : List Val → Option (List UInt8)} (hnil : W [] = some [])
    (hcons : ∀ v vs, W (v :: vs) = cat (w v) (W vs)) {v : Val} {b : List UInt8} (vs' : List Val) :
    ∀ (vs : List Val) (x : List UInt8), W vs = some x → (x ++ b).length < 2 ^ 63 →
      (∀ v ∈ vs, ∀ b, w v = some b → b.length < 2 ^ 63 → Emits g z b (rec v)) →
      FailsAfter g z b s (rec v) → FailsAfter g z (x ++ b) s (encAll rec (vs ++ v :: vs')) := by
  intro vs
  induction vs with
  | nil =>
    intro x h _ _ hf
    rw [hnil] at h; cases h
    exact hf.stop hs
  | cons a as ih =>
    intro x h hl hr hf
    rw [hcons, cat_eq_some] at h
    obtain ⟨p, q, hp, hq, rfl⟩ := h
    simp only [List.length_append] at hl
    rw [List.append_assoc]
    exact FailsAfter.after (hr a (by simp) p hp (by omega))
      (ih q hq (by simp; omega) (fun v' h' => hr v' (by simp [h'])) hf)

theorem encFields_fails {g : Growth} {z : Bool} {f : Fmt} {rec : Ty → Val → OutM} {s : Status} (hs : s ≠ .ok)
    {t : Ty} {v : Val} {b : List UInt8} (ts' : List Ty) (vs' : List Val) :
    ∀ (ts : List Ty) (vs : List Val) (x : List UInt8), wireFields f ts vs = some x → (x ++ b).length < 2 ^ 63 →
      (∀ t ∈ ts, ∀ v ∈ vs, ∀ b, wire f t v = some b → b.length < 2 ^ 63 → Emits g z b (rec t v)) →
      FailsAfter g z b s (rec t v) → FailsAfter g z (x ++ b) s (encFields rec (ts ++ t :: ts') (vs ++ v :: vs')) := by
  intro ts
  induction ts with
  | nil =>
    intro vs x h _ _ hf
    cases vs with
    | nil => simp only [wireFields, Option.some.injEq] at h; subst h; exact hf.stop hs
    | cons v vs => simp [wireFields] at h
  | cons a as ih =>
    intro vs x h hl hr hf
    cases vs with
    | nil => simp [wireFields] at h
    | cons y ys =>
      simp only [wireFields, cat_eq_some] at h
      obtain ⟨p, q, hp, hq, rfl⟩ := h
      simp only [List.length_append] at hl
      rw [List.append_assoc]
      exact FailsAfter.after (hr a (by simp) y (by simp) p hp (by omega))
        (ih ys q hq (by simp; omega) (fun t' ht v' hv => hr t' (by simp [ht]) v' (by simp [hv])) hf)

theorem byteSerAll_append {so : Ty → Nat} {ts ts' : List Ty} {t : Ty}
    (h : Ty.byteSerAll so (ts ++ t :: ts') = true) : Ty.byteSer so t = true := by
  induction ts with
  | nil => simp only [List.nil_append, Ty.byteSerAll, Bool.and_eq_true] at h; exact h.1
  | cons a as ih => simp only [List.cons_append, Ty.byteSerAll, Bool.and_eq_true] at h; exact ih h.2

theorem Broken.byteSer {f : Fmt} {so : Ty → Nat} {t : Ty} {v : Val} {b : List UInt8} (h : Broken f t v b) :
    Ty.byteSer so t = false ∧ t.endianIndep = false := by
  induction h with
  | member _ _ ih =>
    refine ⟨?_, rfl⟩
    rw [Bool.eq_false_iff]
    intro hh
    simp only [Ty.byteSer, Bool.and_eq_true] at hh
    rw [byteSerAll_append hh.1.1.2] at ih
    simp at ih
  | arrayElem _ _ _ ih => exact ⟨by simpa [Ty.byteSer] using ih.1, by simpa [Ty.endianIndep] using ih.2⟩
  | _ => exact ⟨rfl, rfl⟩

theorem Broken.asBytes {f : Fmt} {c : Cfg} {t : Ty} {v : Val} {b : List UInt8} (h : Broken f t v b) :
    asBytes c t = false := by
  obtain ⟨h1, h2⟩ := Broken.byteSer (so := c.sizeof) h
  simp [Zpp.asBytes, h1, h2]

theorem depthL_append (vs : List Val) (v : Val) (vs' : List Val) : depth v ≤ depthL (vs ++ v :: vs') :=
  depth_mem (by simp)

theorem GoodL_append {c : Cfg} {ts ts' : List Ty} {t : Ty} (h : GoodL c (ts ++ t :: ts') = true) :
    Good c t = true ∧ ∀ t' ∈ ts, Good c t' = true :=
  ⟨GoodL_mem h t (by simp), fun t' h' => GoodL_mem h t' (by simp [h'])⟩

/-- Serializing a broken object writes what precedes the defect and then fails with `invalid_argument`. -/
theorem encode_broken (z : Bool) {c : Cfg} (hg : GrowthOk c.g) (ha : AbiOk c.sizeof) (he : EnvGood c)
    {t : Ty} {v : Val} {b : List UInt8} (h : Broken (fmtOf c) t v b) : ∀ d, Good c t = true → b.length < 2 ^ 63 →
    (z = true ∨ noBits v = true) → 2 * depth v ≤ (if t.isRef then d else d + 1) →
    FailsAfter c.g z b (.err .invalidArgument) (encode d c t v) := by
  have hne : Status.err .invalidArgument ≠ .ok := by simp
  induction h with
  | null t =>
    intro d _ _ _ hd
    cases d with
    | zero => simp [depth, Ty.isRef] at hd
    | succ d => exact FailsAfter.fail _ _ _
  | valueless =>
    intro d _ _ _ hd
    cases d with
    | zero => simp [depth, Ty.isRef] at hd
    | succ d => exact FailsAfter.fail _ _ _
  | @optional dc t v b hb ih =>
    intro d gt hl hz hd
    simp only [depth, Ty.isRef, Bool.false_eq_true, if_false] at hd
    cases d with
    | zero => omega
    | succ d =>
      simp only [List.length_cons] at hl
      exact FailsAfter.after (b1 := [1]) (put_emits hg z [1] (by simp))
        (ih d (by simpa only [Good] using gt) (by omega) hz (by split <;> omega))
  | @optPtr t v b hb ih =>
    intro d gt hl hz hd
    simp only [depth, Ty.isRef, Bool.false_eq_true, if_false] at hd
    cases d with
    | zero => omega
    | succ d =>
      simp only [List.length_cons] at hl
      exact FailsAfter.after (b1 := [1]) (put_emits hg z [1] (by simp))
        (ih d (by simpa only [Good] using gt) (by omega) hz (by split <;> omega))
  | @uptr t v b hb ih =>
    intro d gt hl hz hd
    simp only [depth, Ty.isRef, Bool.false_eq_true, if_false] at hd
    cases d with
    | zero => omega
    | succ d => exact ih d (by simpa only [Good] using gt) hl hz (by split <;> omega)
  | @variant idTy ids dcs alts i id t v p b hid halt hp hb ih =>
    intro d gt hl hz hd
    simp only [depth, Ty.isRef, Bool.false_eq_true, if_false] at hd
    cases d with
    | zero => omega
    | succ d =>
      simp only [List.length_append] at hl
      simp only [Good, Bool.and_eq_true, nodeOk] at gt
      obtain ⟨⟨⟨⟨⟨g1, g2⟩, g3⟩, g4⟩, g5⟩, g6⟩ := gt
      obtain ⟨w1, w2, w3, w4⟩ := wireId_wire g1 hp
      simp only [encode, encVariant, hid, halt]
      refine FailsAfter.after (encode_ok z d c hg ha he idTy id p g5 w1 (by omega) (Or.inr w3) ?_)
        (ih d (GoodL_mem g6 t (List.mem_of_getElem? halt)) (by omega) hz (by split <;> omega))
      rw [w4]; simp only [Bool.false_eq_true, if_false]; omega
  | @member ok ts t ts' vs v vs' x b hx hb ih =>
    intro d gt hl hz hd
    simp only [depth, Ty.isRef, Bool.false_eq_true, if_false] at hd
    cases d with
    | zero => omega
    | succ d =>
      have hab := Broken.asBytes (c := c) (Broken.member (ok := ok) (ts' := ts') (vs' := vs') hx hb)
      simp only [encode, hab, Bool.false_eq_true, if_false]
      have gl : GoodL c (ts ++ t :: ts') = true := by simp only [Good, Bool.and_eq_true] at gt; exact gt.2
      obtain ⟨g1, g2⟩ := GoodL_append gl
      have hdv := depthL_append vs v vs'
      refine encFields_fails hne ts' vs' ts vs x hx hl ?_ (ih d g1 (by simp at hl; omega) ?_ (by split <;> omega))
      · intro t' ht v' hv b' hb' hbl
        refine encode_ok z d c hg ha he t' v' b' (g2 t' ht) hb' hbl ?_ ?_
        · exact hz.imp id fun h => noBits_mem (by simp [hv]) h
        · have := depth_mem (v := v') (vs := vs ++ v :: vs') (by simp [hv])
          split <;> omega
      · exact hz.imp id fun h => noBits_mem (vs := vs ++ v :: vs') (by simp) h
  | @arrayElem n t vs v vs' x b hn hx hb ih =>
    intro d gt hl hz hd
    simp only [depth, Ty.isRef, Bool.false_eq_true, if_false] at hd
    cases d with
    | zero => omega
    | succ d =>
      have hab := Broken.asBytes (c := c) hb
      simp only [encode, hab, Bool.false_eq_true, if_false]
      rw [if_neg (by simp [hn])]
      have g1 : Good c t = true := by simp only [Good, Bool.and_eq_true] at gt; exact gt.2
      have hdv := depthL_append vs v vs'
      refine encAll_fails hne (w := wire (fmtOf c) t) (W := wireAll (fmtOf c) t) rfl (fun _ _ => rfl) vs' vs x hx hl ?_
        (ih d g1 (by simp at hl; omega) ?_ (by split <;> omega))
      · intro v' hv b' hb' hbl
        refine encode_ok z d c hg ha he t v' b' g1 hb' hbl ?_ ?_
        · exact hz.imp id fun h => noBits_mem (by simp [hv]) h
        · have := depth_mem (v := v') (vs := vs ++ v :: vs') (by simp [hv])
          split <;> omega
      · exact hz.imp id fun h => noBits_mem (vs := vs ++ v :: vs') (by simp) h
  | @seqElem k sz t vs v vs' p x b hp hx hb ih =>
    intro d gt hl hz hd
    simp only [depth, Ty.isRef, Bool.false_eq_true, if_false] at hd
    cases d with
    | zero => omega
    | succ d =>
      have hab := Broken.asBytes (c := c) hb
      simp only [encode, hab, Bool.false_eq_true, and_false, if_false]
      have g1 : Good c t = true := by simp only [Good, Bool.and_eq_true] at gt; exact gt.2
      have hdv := depthL_append vs v vs'
      rw [List.length_append, ] at hl
      refine FailsAfter.after (encHdr_emits hg z hp (by omega)) ?_
      refine encAll_fails hne (w := wire (fmtOf c) t) (W := wireAll (fmtOf c) t) rfl (fun _ _ => rfl) vs' vs x hx
        (by omega) ?_ (ih d g1 (by simp at hl; omega) ?_ (by split <;> omega))
      · intro v' hv b' hb' hbl
        refine encode_ok z d c hg ha he t v' b' g1 hb' hbl ?_ ?_
        · exact hz.imp id fun h => noBits_mem (by simp [hv]) h
        · have := depth_mem (v := v') (vs := vs ++ v :: vs') (by simp [hv])
          split <;> omega
      · exact hz.imp id fun h => noBits_mem (vs := vs ++ v :: vs') (by simp) h
  | @setElem mu ha' sz t vs v vs' p x b hp hx hb ih =>
    intro d gt hl hz hd
    simp only [depth, Ty.isRef, Bool.false_eq_true, if_false] at hd
    cases d with
    | zero => omega
    | succ d =>
      simp only [encode]
      have g1 : Good c t = true := by simpa only [Good] using gt
      have hdv := depthL_append vs v vs'
      rw [List.length_append] at hl
      refine FailsAfter.after (encHdr_emits hg z hp (by omega)) ?_
      refine encAll_fails hne (w := wire (fmtOf c) t) (W := wireAll (fmtOf c) t) rfl (fun _ _ => rfl) vs' vs x hx
        (by omega) ?_ (ih d g1 (by simp at hl; omega) ?_ (by split <;> omega))
      · intro v' hv b' hb' hbl
        refine encode_ok z d c hg ha he t v' b' g1 hb' hbl ?_ ?_
        · exact hz.imp id fun h => noBits_mem (by simp [hv]) h
        · have := depth_mem (v := v') (vs := vs ++ v :: vs') (by simp [hv])
          split <;> omega
      · exact hz.imp id fun h => noBits_mem (vs := vs ++ v :: vs') (by simp) h
  | @mapElem mu ha' sz key m vs v vs' p x b hp hx hb ih =>
    intro d gt hl hz hd
    simp only [depth, Ty.isRef, Bool.false_eq_true, if_false] at hd
    cases d with
    | zero => omega
    | succ d =>
      simp only [encode]
      simp only [Good, Bool.and_eq_true] at gt
      have g1 : Good c (.struct false [key, m]) = true := by
        simp only [Good, GoodL, gt.1, gt.2, nodeOk, copyOk, oneBlock]
        simp
      have hdv := depthL_append vs v vs'
      have hel : ∀ e vs0, e ∈ vs0 → 2 * (1 + depthL vs0) ≤ d + 1 + 1 → (z = true ∨ noBits (.list vs0) = true) →
          ∀ b', wire (fmtOf c) (.struct false [key, m]) e = some b' → b'.length < 2 ^ 63 →
          Emits c.g z b' (match e with
              | .list es => encFields (encode d c) [key, m] es
              | _ => OutM.fail .illFormed) := by
        intro e vs0 hv hd' hz' b' hb' hbl
        cases e <;> simp only [wire, wireNum] at hb' <;> first | cases hb' | skip
        rename_i es
        refine encFields_emits [key, m] es b' hb' hbl ?_
        intro t ht v' hv' b'' hb'' hbl''
        have gtt : Good c t = true := by
          simp only [List.mem_cons, List.not_mem_nil, or_false] at ht
          rcases ht with rfl | rfl
          · exact gt.1
          · exact gt.2
        refine encode_ok z d c hg ha he t v' b'' gtt hb'' hbl'' ?_ ?_
        · exact hz'.imp id fun h => noBits_mem hv' (noBits_mem hv h)
        · have h1 := depth_mem hv
          have h2 := depth_mem hv'
          simp only [depth] at h1
          split <;> omega
      rw [List.length_append] at hl
      have key2 := ih (d + 1) g1 (by simp at hl; omega)
        (hz.imp id fun h => noBits_mem (vs := vs ++ v :: vs') (by simp) h) (by simp only [Ty.isRef]; simp; omega)
      have hab : asBytes c (.struct false [key, m]) = false := by
        simp [asBytes, Ty.endianIndep, Ty.byteSer]
      simp only [encode, hab, Bool.false_eq_true, if_false] at key2
      refine FailsAfter.after (encHdr_emits hg z hp (by omega)) ?_
      exact encAll_fails hne (w := wire (fmtOf c) (.struct false [key, m]))
        (W := wireAll (fmtOf c) (.struct false [key, m])) rfl (fun _ _ => rfl) vs' vs x hx
        (by omega) (fun v' hv b' hb' hbl => hel v' (vs ++ v :: vs') (by simp [hv]) hd hz b' hb' hbl) key2
  | @ref i v b hb ih =>
    intro d gt hl hz hd
    simp only [Ty.isRef, if_true] at hd
    cases d with
    | zero => have := depth_pos v; omega
    | succ d =>
      refine ih d (he i).1 hl hz ?_
      have : ((fmtOf c).env i).isRef = false := by
        simp only [Good, nodeOk] at gt
        show (c.env i).isRef = false
        cases hc : c.env i <;> simp only [hc] at gt <;> first | rfl | cases gt
      rw [this]
      simp only [Bool.false_eq_true, if_false]
      exact hd

/-- A call whose items start with encodable ones followed by a broken one. -/
theorem encMany_broken {d : Nat} {c : Cfg} (z : Bool) {before after : List (Ty × Val)} {t : Ty} {v : Val}
    {x b : List UInt8} (hs : Supported c (before ++ (t, v) :: after)) (hd : StackOk d (before ++ (t, v) :: after))
    (hz : z = true ∨ ∀ y ∈ before ++ (t, v) :: after, noBits y.2 = true)
    (hw : wireItems (fmtOf c) before = some x) (hb : Broken (fmtOf c) t v b) (hl : (x ++ b).length < 2 ^ 63) :
    FailsAfter c.g z (x ++ b) (.err .invalidArgument) (encMany d c (before ++ (t, v) :: after)) := by
  induction before generalizing x with
  | nil =>
    cases hw
    refine FailsAfter.stop (by simp) ?_
    refine encode_broken z hs.growth hs.abi hs.env hb d (hs.types (t, v) (by simp)) (by simpa using hl)
      (hz.imp id fun h => h (t, v) (by simp)) ?_
    have := hd (t, v) (by simp)
    simp only at this
    split <;> omega
  | cons y ys ih =>
    obtain ⟨t', v'⟩ := y
    simp only [wireItems, cat_eq_some] at hw
    obtain ⟨p, q, hp, hq, rfl⟩ := hw
    rw [List.append_assoc]
    simp only [List.length_append] at hl
    refine FailsAfter.after ?_ (ih ⟨hs.growth, hs.abi, hs.env, fun y hy => hs.types y (by simp at hy ⊢; tauto)⟩
      (fun y hy => hd y (by simp at hy ⊢; tauto)) (hz.imp id fun h y hy => h y (by simp at hy ⊢; tauto)) hq (by simp; omega))
    refine encode_ok z d c hs.growth hs.abi hs.env t' v' p (hs.types (t', v') (by simp)) hp (by omega)
      (hz.imp id fun h => h (t', v') (by simp)) ?_
    have := hd (t', v') (by simp)
    simp only at this
    split <;> omega

/-! ## Fitting -/

/-- If the buffer has grown, the position is at or beyond the old end. -/
def Tight (m : OutM) : Prop :=
  ∀ st, Valid st → (m st).2.data.length = st.data.length ∨ st.data.length ≤ (m st).2.pos

theorem Tight.skip : Tight OutM.skip := fun _ _ => Or.inl rfl
theorem Tight.fail (s : Status) : Tight (OutM.fail s) := fun _ _ => Or.inl rfl

theorem Tight.andThen {g : Growth} (hg : GrowthOk g) {a b : OutM} (sa : SafeOut g a) (sb : SafeOut g b)
    (ha : Tight a) (hb : Tight b) : Tight (a.andThen b) := by
  intro st hv
  have h1 := ha st hv
  have s1 := sa st hv
  unfold OutM.andThen
  split
  · rename_i st' he
    rw [he] at h1 s1
    have hv' := s1.valid hg hv
    have h2 := hb st' hv'
    have s2 := sb st' hv'
    have m := s2.mono
    have l := s1.len_ge
    simp only at *
    omega
  · exact h1

theorem claimWrite_tight {g : Growth} (hg : GrowthOk g) {n : Nat} {m : OutM}
    (hm : ∀ st, Valid st → st.pos + n ≤ st.data.length →
      (m st).2.data.length = st.data.length ∧ (m st).2.pos = st.pos + n) :
    Tight ((claim g n).andThen m) := by
  intro st hv
  have hp := hv.pos_le
  obtain ⟨c1, c2, c3⟩ := claim_safe hg n st hv
  have key : (claim g n st).2.data.length = st.data.length ∨ ((claim g n st).1 = .ok ∧ st.data.length < st.pos + n) := by
    unfold claim
    split
    · exact Or.inl rfl
    · split
      · rename_i h1 h2
        rcases enlargeFor_spec g (hg h2) n st hv (by omega) with ⟨h, e⟩ | ⟨h, ⟨e, _⟩ | ⟨e, _⟩ | ⟨e, h1, h2, h3⟩⟩ <;> rw [e]
        · exact Or.inl rfl
        · exact Or.inl rfl
        · exact Or.inl rfl
        · exact Or.inr ⟨rfl, by omega⟩
      · split <;> exact Or.inl rfl
  unfold OutM.andThen
  split
  · rename_i st' he
    rw [he] at c1 c2 c3 key
    have hv' := c1.valid hg hv
    have := hm st' hv' (by have := c3 rfl; simp only at c2 this; omega)
    simp only at *
    omega
  · rename_i hr
    rcases key with k | k
    · exact Or.inl k
    · exact absurd (Prod.ext k.1 rfl : claim g n st = (.ok, (claim g n st).2)) (hr _)

theorem put_tight {g : Growth} (hg : GrowthOk g) (bs : List UInt8) : Tight (put g bs) := by
  refine claimWrite_tight hg ?_
  intro st hv h
  rw [memcpyAt_eq h]
  simp; omega

theorem putBytes_tight {g : Growth} (hg : GrowthOk g) (bs : List UInt8) : Tight (putBytes g bs) := by
  unfold putBytes; split
  · exact Tight.skip
  · exact put_tight hg bs

theorem encRep_tight {g : Growth} (hg : GrowthOk g) (r) : Tight (encRep g r) := by
  cases r
  · exact Tight.fail _
  · exact putBytes_tight hg _

theorem encAll_tight {g : Growth} (hg : GrowthOk g) {rec : Val → OutM} (s : ∀ v, SafeOut g (rec v))
    (h : ∀ v, Tight (rec v)) : ∀ vs, Tight (encAll rec vs)
  | [] => Tight.skip
  | v :: vs => Tight.andThen hg (s v) (encAll_safe hg s vs) (h v) (encAll_tight hg s h vs)

theorem encFields_tight {g : Growth} (hg : GrowthOk g) {rec : Ty → Val → OutM} (s : ∀ t v, SafeOut g (rec t v)) :
    ∀ ts vs, (∀ t ∈ ts, ∀ v, Tight (rec t v)) → Tight (encFields rec ts vs)
  | [], [], _ => Tight.skip
  | [], _ :: _, _ => Tight.fail _
  | _ :: _, [], _ => Tight.fail _
  | t :: ts, v :: vs, h => Tight.andThen hg (s t v) (encFields_safe hg s ts vs) (h t (by simp) v)
      (encFields_tight hg s ts vs fun t' ht => h t' (by simp [ht]))

theorem encHdr_tight {c : Cfg} (hg : GrowthOk c.g) {sz : SizeTy} (hsz : sz ≠ .varint) (n : Nat) :
    Tight (encHdr c sz n) := by
  cases sz with
  | fixed k => exact put_tight hg _
  | varint => exact absurd rfl hsz
  | none => exact Tight.skip

theorem noVarintL_mem {dsz : SizeTy} {ts : List Ty} (h : noVarint.noVarintL dsz ts = true) :
    ∀ t ∈ ts, noVarint dsz t = true := by
  induction ts with
  | nil => intro t ht; cases ht
  | cons a as ih =>
    simp only [noVarint.noVarintL, Bool.and_eq_true] at h
    intro t ht
    rcases List.mem_cons.mp ht with e | e
    · subst e; exact h.1
    · exact ih h.2 t e

theorem encBitset_tight {g : Growth} (hg : GrowthOk g) (n : Nat) (bits : List Bool) : Tight (encBitset g n bits) := by
  unfold encBitset
  split
  · rename_i hn
    refine claimWrite_tight hg ?_
    intro st hv h
    rw [if_pos h]
    obtain ⟨r, e, hl⟩ := orBits_isSome bits 0 ((st.data.drop st.pos).take (bitsetBytes n))
      (by simp [bitsetBytes] at h ⊢; omega)
    rw [e]
    simp only
    have hlr : r.length = bitsetBytes n := by rw [hl]; simp; omega
    rw [memcpyAt_eq (by omega)]
    simp; omega
  · exact Tight.fail _

theorem encode_tight (d : Nat) {c : Cfg} (hg : GrowthOk c.g) (henv : ∀ i, noVarint c.dsz (c.env i) = true) :
    ∀ t v, noVarint c.dsz t = true → Tight (encode d c t v) := by
  induction d with
  | zero => intro t v _; exact Tight.fail _
  | succ d ih =>
    intro t v hn
    have hs := encode_safe d c hg
    unfold encode
    cases t with
    | scalar k n => cases v <;> first | exact Tight.fail _ | exact put_tight hg _
    | bool => cases v <;> first | exact Tight.fail _ | exact put_tight hg _
    | varint n zz => simp [noVarint] at hn
    | empty => exact Tight.skip
    | struct ok fs =>
      cases v <;> first | exact Tight.fail _ | skip
      simp only
      split
      · exact encRep_tight hg _
      · exact encFields_tight hg hs _ _ fun t ht v => ih t v (noVarintL_mem (by simpa [noVarint] using hn) t ht)
    | array n t' =>
      cases v <;> first | exact Tight.fail _ | skip
      simp only
      split
      · exact Tight.fail _
      · split
        · exact encRep_tight hg _
        · exact encAll_tight hg (hs _) (fun v => ih t' v (by simpa [noVarint] using hn)) _
    | seq k sz t' =>
      cases v <;> first | exact Tight.fail _ | skip
      simp only [noVarint, Bool.and_eq_true, bne_iff_ne, ne_eq] at hn
      simp only
      refine Tight.andThen hg (encHdr_safe hg _ _) ?_ (encHdr_tight hg hn.1 _) ?_
      · split
        · exact encRep_safe hg _
        · exact encAll_safe hg (hs _) _
      · split
        · exact encRep_tight hg _
        · exact encAll_tight hg (hs _) (fun v => ih t' v hn.2) _
    | assoc multi hashed sz key mapped =>
      cases v <;> first | exact Tight.fail _ | skip
      have hk : sz.getD c.dsz ≠ .varint ∧ noVarint c.dsz key = true ∧ ∀ m, mapped = some m → noVarint c.dsz m = true := by
        cases mapped with
        | none => simp [noVarint] at hn; exact ⟨hn.1, hn.2, nofun⟩
        | some m =>
          simp [noVarint] at hn
          exact ⟨hn.1.1, hn.1.2, fun m' e => by cases e; exact hn.2⟩
      simp only
      have hsafe : ∀ e, SafeOut c.g (match mapped with
            | none => encode d c key e
            | some m =>
              match e with
              | .list es => encFields (encode d c) [key, m] es
              | _ => OutM.fail .illFormed) := by
        intro e
        split
        · exact hs _ _
        · split
          · exact encFields_safe hg hs _ _
          · exact SafeOut.fail _ fun _ => trivial
      refine Tight.andThen hg (encHdr_safe hg _ _) (encAll_safe hg hsafe _) (encHdr_tight hg hk.1 _)
        (encAll_tight hg hsafe ?_ _)
      intro e
      split
      · exact ih _ _ hk.2.1
      · rename_i m
        split
        · refine encFields_tight hg hs _ _ fun t ht v => ih t v ?_
          simp only [List.mem_cons, List.not_mem_nil, or_false] at ht
          rcases ht with rfl | rfl
          · exact hk.2.1
          · exact hk.2.2 _ rfl
        · exact Tight.fail _
    | optional dc t' =>
      have := fun v => ih t' v (by simpa [noVarint] using hn)
      cases v <;> first | exact Tight.fail _ | exact put_tight hg _ |
        exact Tight.andThen hg (put_safe hg _) (hs _ _) (put_tight hg _) (this _)
    | optPtr t' =>
      have := fun v => ih t' v (by simpa [noVarint] using hn)
      cases v <;> first | exact Tight.fail _ | exact put_tight hg _ |
        exact Tight.andThen hg (put_safe hg _) (hs _ _) (put_tight hg _) (this _)
    | uptr t' =>
      have := fun v => ih t' v (by simpa [noVarint] using hn)
      cases v <;> first | exact Tight.fail _ | exact this _
    | variant idTy ids dcs alts =>
      simp only [noVarint, Bool.and_eq_true] at hn
      cases v <;> first | exact Tight.fail _ | skip
      simp only [encVariant]
      split
      · rename_i id t hid halt
        exact Tight.andThen hg (hs _ _) (hs _ _) (ih _ _ hn.1)
          (ih _ _ (noVarintL_mem hn.2 t (List.mem_of_getElem? halt)))
      · exact Tight.fail _
    | bitset n => cases v <;> first | exact Tight.fail _ | exact encBitset_tight hg _ _
    | msg sz ok maps nums fs => simp [noVarint] at hn
    | ref i => exact ih _ _ (henv i)

theorem encMany_tight (d : Nat) {c : Cfg} (hg : GrowthOk c.g) (henv : ∀ i, noVarint c.dsz (c.env i) = true) :
    ∀ items : List (Ty × Val), (∀ x ∈ items, noVarint c.dsz x.1 = true) → Tight (encMany d c items)
  | [], _ => Tight.skip
  | (t, v) :: rest, h => Tight.andThen hg (encode_safe d c hg t v) (encMany_safe d c hg rest)
      (encode_tight d hg henv t v (h (t, v) (by simp)))
      (encMany_tight d hg henv rest fun y hy => h y (by simp [hy]))

end Zpp
