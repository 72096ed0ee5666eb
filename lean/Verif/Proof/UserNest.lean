import Verif.Proof.Assoc
import Verif.Spec.UserNest
import Verif.Proof.InCall
import Verif.Proof.InRoundMain
import Verif.Proof.OutBits
/-! # User-written `serialize` functions anywhere inside an object -/

namespace Zpp
open Spec

/-! ## Output -/

theorem uScriptOut_emits {T : Type} {g : Growth} {z : Bool} {rec : T → Val → OutM}
    {w : T → Val → Option (List UInt8)} (self : List Val) : ∀ (s : ScriptOf T) (bs : List UInt8),
      uSays w self s = some bs → bs.length < 2 ^ 63 →
      (∀ x ∈ uVisits self s, ∀ b, w x.2 (memberOf self x.1) = some b → b.length < 2 ^ 63 →
        Emits g z b (rec x.2 (memberOf self x.1))) →
      Emits g z bs (uScriptOut rec self s) := by
  intro s
  induction s with
  | done => intro bs h _ _; cases h; exact Emits.skip g z
  | fail e => intro bs h; cases h
  | archive m t next ih =>
    intro bs h hl hr
    rw [uSays] at h
    split at h
    · rw [cat_eq_some] at h
      obtain ⟨x, y, hx, hy, rfl⟩ := h
      simp only [List.length_append] at hl
      exact (hr (m, t) (by simp [uVisits]) x hx (by omega)).andThen
        (ih (memberOf self m) y hy (by omega) fun x hx => hr x (by simp [uVisits, hx]))
    · cases h

theorem uEncode_emits (z : Bool) (u : UCfg) (hg : GrowthOk u.c.g) (ha : AbiOk u.c.sizeof) (he : EnvGood u.c) :
    ∀ (d : Nat) (t : UTy) (v : Val) (bs : List UInt8), uWire (fmtOf u.c) u.env d t v = some bs →
      bs.length < 2 ^ 63 →
      uEach u.env (fun n t v => Good u.c t = true ∧ 2 * depth v ≤ n ∧ (z = true ∨ noBits v = true))
        (fun _ _ _ => True) d t v →
      Emits u.c.g z bs (uEncode d u t v) := by
  intro d
  have hlib : ∀ d t v bs, wire (fmtOf u.c) t v = some bs → bs.length < 2 ^ 63 →
      (Good u.c t = true ∧ 2 * depth v ≤ d ∧ (z = true ∨ noBits v = true)) → Emits u.c.g z bs (encode d u.c t v) := by
    intro d t v bs hw hl ⟨h1, h2, h3⟩
    exact encode_ok z d u.c hg ha he t v bs h1 hw hl h3 (by split <;> omega)
  induction d with
  | zero => intro t v bs h; cases h
  | succ d ih =>
    intro t v bs hw hl hp
    have hall : ∀ t', ∀ vs bs, catAll (uWire (fmtOf u.c) u.env d t') vs = some bs → bs.length < 2 ^ 63 →
        (∀ v ∈ vs, uEach u.env (fun n t v => Good u.c t = true ∧ 2 * depth v ≤ n ∧ (z = true ∨ noBits v = true))
        (fun _ _ _ => True) d t' v) → Emits u.c.g z bs (encAll (uEncode d u t') vs) := by
      intro t' vs bs h hl hv
      exact encAll_emits rfl (fun _ _ => rfl) vs bs h hl fun v hm b hb hbl => ih t' v b hb hbl (hv v hm)
    cases t with
    | lib t' => exact hlib (d + 1) t' v bs hw hl hp
    | user fresh s =>
      cases v <;> first | cases hw | skip
      rename_i vs
      exact uScriptOut_emits vs s bs hw hl fun x hx b hb hbl => ih x.2 _ b hb hbl (hp.2 x hx)
    | seq k sz t' =>
      cases v <;> first | cases hw | skip
      rename_i vs
      simp only [uWire, cat_eq_some] at hw
      obtain ⟨x, y, hx, hy, rfl⟩ := hw
      simp only [List.length_append] at hl
      exact (encHdr_emits hg z hx (by omega)).andThen (hall t' vs y hy (by omega) hp.2)
    | array n t' =>
      cases v <;> first | cases hw | skip
      rename_i vs
      simp only [uWire] at hw
      split at hw
      · next hn =>
        simp only [uEncode, hn, ne_eq, not_true_eq_false, if_false]
        exact hall t' vs bs hw hl hp.2
      · cases hw
    | set multi hashed sz t' =>
      cases v <;> first | cases hw | skip
      rename_i vs
      simp only [uWire, cat_eq_some] at hw
      obtain ⟨x, y, hx, hy, rfl⟩ := hw
      simp only [List.length_append] at hl
      exact (encHdr_emits hg z hx (by omega)).andThen (hall t' vs y hy (by omega) hp.2)
    | map multi hashed sz key t' =>
      cases v <;> first | cases hw | skip
      rename_i vs
      simp only [uWire, cat_eq_some] at hw
      obtain ⟨x, y, hx, hy, rfl⟩ := hw
      simp only [List.length_append] at hl
      refine (encHdr_emits hg z hx (by omega)).andThen
        (encAll_emits rfl (fun _ _ => rfl) vs y hy (by omega) fun e hm b hb hbl => ?_)
      unfold uEntry at hb
      split at hb
      · rename_i k x
        rw [cat_eq_some] at hb
        obtain ⟨b1, b2, hb1, hb2, rfl⟩ := hb
        simp only [List.length_append] at hbl
        have := hp.2 k x hm
        exact (ih key k b1 hb1 (by omega) this.1).andThen (ih t' x b2 hb2 (by omega) this.2)
      · cases hb
    | optional dc t' =>
      cases v <;> first | cases hw | skip
      · exact put_emits hg z [0] (by simp)
      · simp only [uWire, cat_eq_some] at hw
        obtain ⟨x, y, hx, hy, rfl⟩ := hw
        cases hx
        simp only [List.length_append] at hl
        exact (put_emits hg z [1] (by simp)).andThen (ih t' _ y hy (by omega) hp)
    | optPtr t' =>
      cases v <;> first | cases hw | skip
      · exact put_emits hg z [0] (by simp)
      · simp only [uWire, cat_eq_some] at hw
        obtain ⟨x, y, hx, hy, rfl⟩ := hw
        cases hx
        simp only [List.length_append] at hl
        exact (put_emits hg z [1] (by simp)).andThen (ih t' _ y hy (by omega) hp)
    | uptr t' =>
      cases v <;> first | cases hw | skip
      exact ih t' _ bs hw hl hp
    | variant idTy ids dcs alts =>
      cases v <;> first | cases hw | skip
      rename_i i x
      simp only [uWire] at hw
      split at hw
      · next id t' h1 h2 =>
        rw [cat_eq_some] at hw
        obtain ⟨b1, b2, hb1, hb2, rfl⟩ := hw
        simp only [List.length_append] at hl
        have := And.intro (hp.2.1 id h1) (hp.2.2 t' h2)
        simp only [uEncode, h1, h2]
        exact (hlib d idTy id b1 hb1 (by omega) this.1).andThen (ih t' x b2 hb2 (by omega) this.2)
      · cases hw
    | ref i => exact ih (u.env i) v bs hw hl hp

/-- Safe, or ended by an error of a user-written function, in a state that is safe as well. -/
def SafeOutU (g : Growth) (E : Errc → Prop) (m : OutM) : Prop := ∀ st, Valid st →
  SafeStep g st (m st) ∨ ∃ e, E e ∧ (m st).1 = .err e ∧ SafeStep g st (.ok, (m st).2)

theorem SafeOut.u {g : Growth} {E : Errc → Prop} {m : OutM} (h : SafeOut g m) : SafeOutU g E m :=
  fun st hv => .inl (h st hv)

theorem SafeOutU.andThen {g : Growth} (hg : GrowthOk g) {E : Errc → Prop} {a b : OutM} (ha : SafeOutU g E a)
    (hb : SafeOutU g E b) : SafeOutU g E (a.andThen b) := by
  intro st hv
  have h1 := ha st hv
  unfold OutM.andThen
  generalize a st = r at h1
  obtain ⟨s, st'⟩ := r
  cases s with
  | ok =>
    rcases h1 with h1 | ⟨e, _, h, _⟩
    · rcases hb st' (h1.valid hg hv) with h2 | ⟨e, hE, h2, h3⟩
      · exact .inl (SafeStep.trans h1 h2)
      · exact .inr ⟨e, hE, h2, SafeStep.trans h1 h3⟩
    · cases h
  | _ => exact h1

theorem uEncode_safe (u : UCfg) (hg : GrowthOk u.c.g) {P : Ty → Prop} {E : Errc → Prop}
    (henv : ∀ i, UAll P E (u.env i)) : ∀ (d : Nat) (t : UTy) (v : Val), UAll P E t →
      SafeOutU u.c.g E (uEncode d u t v) := by
  intro d
  have hs : ∀ s, (∀ n, OutCode u.c.g n s) → SafeOutU u.c.g E (OutM.fail s) := fun s h => (SafeOut.fail _ h).u
  have hf := hs .illFormed fun _ => trivial
  have hi := hs (.err .invalidArgument) fun _ => trivial
  induction d with
  | zero => intro t v _; exact hs .stack fun _ => trivial
  | succ d ih =>
    intro t v ht
    have hall : ∀ t', UAll P E t' → ∀ vs, SafeOutU u.c.g E (encAll (uEncode d u t') vs) := by
      intro t' h vs
      induction vs with
      | nil => exact (SafeOut.skip _).u
      | cons v vs ihv => exact (ih t' v h).andThen hg ihv
    cases ht with
    | lib h => exact (encode_safe (d + 1) u.c hg _ v).u
    | @user fresh s h =>
      cases v <;> first | exact hf | skip
      rename_i vs
      show SafeOutU u.c.g E (uScriptOut (uEncode d u) vs s)
      clear hall
      induction s with
      | done => exact (SafeOut.skip _).u
      | fail e =>
        cases h with
        | fail hE => exact fun st hv => .inr ⟨e, hE, rfl, .refl hv trivial⟩
      | archive m t next ihs =>
        cases h with
        | archive h hn => exact (ih t _ h).andThen hg (ihs _ (hn _))
    | seq h =>
      cases v <;> first | exact hf | skip
      exact (encHdr_safe hg _ _).u.andThen hg (hall _ h _)
    | array h =>
      cases v <;> first | exact hf | skip
      simp only [uEncode]
      split
      · exact hf
      · exact hall _ h _
    | set h =>
      cases v <;> first | exact hf | skip
      exact (encHdr_safe hg _ _).u.andThen hg (hall _ h _)
    | @map _ _ _ key t' hk h =>
      cases v <;> first | exact hf | skip
      rename_i vs
      refine (encHdr_safe hg _ _).u.andThen hg ?_
      induction vs with
      | nil => exact (SafeOut.skip _).u
      | cons v vs ihv =>
        refine SafeOutU.andThen hg ?_ ihv
        unfold uEntryOut
        split
        · exact (ih key _ hk).andThen hg (ih t' _ h)
        · exact ((ih key _ hk).andThen hg (ih t' _ h)).andThen hg hf
        · exact (ih key _ hk).andThen hg hf
        · exact hf
    | optional h =>
      cases v <;> first | exact hf | exact (put_safe hg _).u | exact (put_safe hg _).u.andThen hg (ih _ _ h)
    | optPtr h =>
      cases v <;> first | exact hf | exact (put_safe hg _).u | exact (put_safe hg _).u.andThen hg (ih _ _ h)
    | uptr h =>
      cases v <;> first | exact hf | exact hi | exact ih _ _ h
    | variant hid h =>
      cases v <;> first | exact hf | exact hi | skip
      simp only [uEncode]
      split
      · next h1 h2 => exact (encode_safe d u.c hg _ _).u.andThen hg (ih _ _ (h _ (List.mem_of_getElem? h2)))
      · exact hf
    | ref i => exact ih _ v (henv i)

mutual
theorem uAll_true : ∀ t : UTy, UAll (fun _ => True) (fun _ => True) t
  | .lib _ => .lib trivial
  | .user _ s => .user (uAllS_true s)
  | .seq _ _ t => .seq (uAll_true t)
  | .array _ t => .array (uAll_true t)
  | .set _ _ _ t => .set (uAll_true t)
  | .map _ _ _ key t => .map (uAll_true key) (uAll_true t)
  | .optional _ t => .optional (uAll_true t)
  | .optPtr t => .optPtr (uAll_true t)
  | .uptr t => .uptr (uAll_true t)
  | .variant _ _ _ alts => .variant trivial (uAllL_true alts)
  | .ref i => .ref i
theorem uAllS_true : ∀ s : ScriptOf UTy, UAllS (fun _ => True) (fun _ => True) s
  | .done => .done
  | .fail _ => .fail trivial
  | .archive _ t next => .archive (uAll_true t) fun v => uAllS_true (next v)
theorem uAllL_true : ∀ ts : List UTy, ∀ t ∈ ts, UAll (fun _ => True) (fun _ => True) t
  | [], _, h => by cases h
  | t :: ts, t', h => by
    cases h with
    | head => exact uAll_true t
    | tail _ h => exact uAllL_true ts t' h
end

theorem uEncode_valid (u : UCfg) (hg : GrowthOk u.c.g) (d : Nat) (t : UTy) (v : Val) {st : OutSt}
    (hv : Valid st) : Valid (uEncode d u t v st).2 := by
  rcases uEncode_safe u hg (fun i => uAll_true (u.env i)) d t v (uAll_true t) st hv with h | ⟨_, _, _, h⟩
  · exact h.valid hg hv
  · exact h.valid hg hv

/-! ## Input: arbitrary bytes -/

/-- A step of reading: an outcome of the archive or an error of a user-written function; the position moves forward
inside the input. -/
structure UStep (E : Errc → Prop) (len p : Nat) (s : Status) (q : Nat) : Prop where
  code : InOutcome s ∨ ∃ e, E e ∧ s = .err e
  mono : p ≤ q
  inb : q ≤ len

theorem InStep.u {E : Errc → Prop} {len p : Nat} {s : Status} {q : Nat} (h : InStep len p s q) : UStep E len p s q :=
  ⟨.inl h.code, h.mono, h.inb⟩

theorem UStep.trans {E : Errc → Prop} {len p q r : Nat} {s s' : Status} (h : UStep E len p s q)
    (h' : UStep E len q s' r) : UStep E len p s' r := ⟨h'.code, Nat.le_trans h.mono h'.mono, h'.inb⟩

theorem UStep.ok {E : Errc → Prop} {len p q : Nat} {s : Status} (h : UStep E len p s q) : UStep E len p .ok q :=
  ⟨.inl trivial, h.mono, h.inb⟩

theorem UStep.refl {E : Errc → Prop} {len p : Nat} {s : Status} (h : InOutcome s) (hp : p ≤ len) :
    UStep E len p s p := ⟨.inl h, Nat.le_refl _, hp⟩

theorem decAll_u {E : Errc → Prop} {len : Nat} {rec : Val → Nat → Res}
    (h : ∀ v p, p ≤ len → UStep E len p (rec v p).s (rec v p).p) :
    ∀ vs p, p ≤ len → UStep E len p (decAll rec vs p).s (decAll rec vs p).p := by
  intro vs
  induction vs with
  | nil => intro p hp; exact .refl trivial hp
  | cons v vs ih =>
    intro p hp
    unfold decAll
    have h1 := h v p hp
    generalize rec v p = r at *
    obtain ⟨s, v', p'⟩ := r
    cases s with
    | ok => exact h1.trans (ih p' h1.inb)
    | _ => exact h1

theorem uScriptIn_u {T : Type} {E : Errc → Prop} {len : Nat} {rec : T → Val → Nat → Res} {A : ScriptOf T → Prop}
    (hA : ∀ m t next, A (.archive m t next) → (∀ v p, p ≤ len → UStep E len p (rec t v p).s (rec t v p).p) ∧
      ∀ v, A (next v)) (hE : ∀ e, A (.fail e) → E e) :
    ∀ (s : ScriptOf T), A s → ∀ vs p, p ≤ len → UStep E len p (uScriptIn rec s vs p).s (uScriptIn rec s vs p).p := by
  intro s
  induction s with
  | done => intro _ vs p hp; exact .refl trivial hp
  | fail e => intro h vs p hp; exact ⟨.inr ⟨e, hE e h, rfl⟩, Nat.le_refl _, hp⟩
  | archive m t next ih =>
    intro h vs p hp
    unfold uScriptIn
    have h1 := (hA m t next h).1 (memberOf vs m) p hp
    generalize rec t (memberOf vs m) p = r at *
    obtain ⟨s, v', p'⟩ := r
    cases s with
    | ok => exact h1.trans (ih v' ((hA m t next h).2 v') _ p' h1.inb)
    | _ => exact h1

theorem decAssoc_u {E : Errc → Prop} {len : Nat} {elem : Nat → Res} {ins : Val → List Val → List Val}
    (h : ∀ p, p ≤ len → UStep E len p (elem p).s (elem p).p) :
    ∀ n vs p, p ≤ len → UStep E len p (decAssoc elem ins n vs p).s (decAssoc elem ins n vs p).p := by
  intro n
  induction n with
  | zero => intro vs p hp; exact .refl trivial hp
  | succ n ih =>
    intro vs p hp
    unfold decAssoc
    have h1 := h p hp
    generalize elem p = r at *
    obtain ⟨s, v', p'⟩ := r
    cases s with
    | ok => exact h1.trans (ih _ p' h1.inb)
    | _ => exact h1

theorem decAlt_u {E : Errc → Prop} {len : Nat} {rec : Val → Nat → Res}
    (h : ∀ v p, p ≤ len → UStep E len p (rec v p).s (rec v p).p) (dc : Bool) (i : Nat) (dv old : Val) {p : Nat}
    (hp : p ≤ len) : UStep E len p (decAlt rec dc i dv old p).s (decAlt rec dc i dv old p).p := by
  unfold decAlt
  cases dc
  · simp only [Bool.false_eq_true, if_false]
    have h1 := h dv p hp
    generalize rec dv p = r at *
    obtain ⟨s, v', p'⟩ := r
    cases s <;> exact h1
  · exact h _ p hp

theorem uOptIn_u {E : Errc → Prop} {data : List UInt8} {rec : Val → Nat → Res}
    (h : ∀ v p, p ≤ data.length → UStep E data.length p (rec v p).s (rec v p).p) (b : Bool) (cur dv old : Val)
    {p : Nat} (hp : p ≤ data.length) :
    UStep E data.length p (uOptIn b rec cur dv old data p).s (uOptIn b rec cur dv old data p).p := by
  unfold uOptIn
  have h1 := (getBytes_safe 1 hp).1.u (E := E)
  generalize getBytes data p 1 = r at *
  obtain ⟨s, bs, p1⟩ := r
  cases s with
  | ok =>
    dsimp only at h1 ⊢
    split
    · exact h1
    · split
      · exact h1.trans (h cur p1 h1.inb)
      · have h2 := h dv p1 h1.inb
        generalize rec dv p1 = r at *
        obtain ⟨s, v, p2⟩ := r
        have h3 := h1.trans h2
        cases s <;> exact h3
  | _ => exact h1

theorem uDecode_safe (u : UCfg) {E : Errc → Prop} (hlib : ∀ i, widthsOk (u.c.env i) = true)
    (henv : ∀ i, UAll (widthsOk · = true) E (u.env i)) (data : List UInt8) :
    ∀ (d : Nat) (t : UTy) (old : Val) (p : Nat), UAll (widthsOk · = true) E t → p ≤ data.length →
      UStep E data.length p (uDecode d u t old data p).s (uDecode d u t old data p).p := by
  intro d
  induction d with
  | zero => intro t old p _ hp; exact .refl trivial hp
  | succ d ih =>
    intro t old p ht hp
    cases ht with
    | lib h => exact (decode_safe (d + 1) u.c _ old data p hlib h hp).u
    | @user fresh s h =>
      simp only [uDecode, ResL.toRes]
      refine uScriptIn_u (A := UAllS (widthsOk · = true) E) ?_ ?_ s h _ p hp
      · intro m t next h
        cases h with
        | archive h hn => exact ⟨fun v p hp => ih t v p h hp, hn⟩
      · intro e h
        cases h with
        | fail h => exact h
    | @seq k sz t' h =>
      have hall := decAll_u (E := E) (rec := fun v p => uDecode d u t' v data p) fun v p hp => ih t' v p h hp
      have hsz : ∀ s : SizeTy, UStep E data.length p
          (match decHdr u.c s data p with
            | (.ok, n, p1) =>
              uSeqFill u.c.g k (u.sizeof t') (fun v p => uDecode d u t' v data p) (uFresh d u t') old n p1
            | (s', _, p1) => ⟨s', old, p1⟩ : Res).s
          (match decHdr u.c s data p with
            | (.ok, n, p1) =>
              uSeqFill u.c.g k (u.sizeof t') (fun v p => uDecode d u t' v data p) (uFresh d u t') old n p1
            | (s', _, p1) => ⟨s', old, p1⟩ : Res).p := by
        intro s
        have h1 := (decHdr_safe (c := u.c) s hp).u (E := E)
        generalize decHdr u.c s data p = r at *
        obtain ⟨s, n, p1⟩ := r
        cases s with
        | ok =>
          refine h1.trans ?_
          dsimp only at h1 ⊢
          unfold uSeqFill
          split
          · exact .refl trivial h1.inb
          · split
            · exact .refl trivial h1.inb
            · exact hall _ p1 h1.inb
          · split
            · exact .refl trivial h1.inb
            · split
              · exact .refl trivial h1.inb
              · exact hall _ p1 h1.inb
        | _ => exact h1
      simp only [uDecode]
      split
      · split
        · exact .refl trivial hp
        · exact hall _ p hp
      · exact hsz _
    | @array n t' h =>
      exact decAll_u (E := E) (rec := fun v p => uDecode d u t' v data p) (fun v p hp => ih t' v p h hp) _ p hp
    | @set multi hashed sz t' h =>
      simp only [uDecode]
      have h1 := (decHdr_safe (c := u.c) (effSz u.c sz) hp).u (E := E)
      generalize decHdr u.c (effSz u.c sz) data p = r at *
      obtain ⟨s, n, p1⟩ := r
      cases s with
      | ok => exact h1.trans (decAssoc_u (fun p hp => ih t' _ p h hp) n [] p1 h1.inb)
      | _ => exact h1
    | @map multi hashed sz key t' hk h =>
      simp only [uDecode]
      have h1 := (decHdr_safe (c := u.c) (effSz u.c sz) hp).u (E := E)
      generalize decHdr u.c (effSz u.c sz) data p = r at *
      obtain ⟨s, n, p1⟩ := r
      cases s with
      | ok =>
        refine h1.trans (decAssoc_u (fun p hp => ?_) n [] p1 h1.inb)
        unfold uEntryIn
        dsimp only
        have h2 := ih key (uFresh d u key) p hk hp
        generalize uDecode d u key (uFresh d u key) data p = r at *
        obtain ⟨s, v, p2⟩ := r
        cases s with
        | ok => exact h2.trans (ih t' _ p2 h h2.inb)
        | _ => exact h2
      | _ => exact h1
    | @optional dc t' h =>
      exact uOptIn_u (fun v p hp => ih t' v p h hp) dc _ _ old hp
    | @optPtr t' h =>
      exact uOptIn_u (fun v p hp => ih t' v p h hp) false _ _ old hp
    | @uptr t' h =>
      simp only [uDecode]
      have h1 := ih t' (uFresh d u t') p h hp
      generalize uDecode d u t' (uFresh d u t') data p = r at *
      obtain ⟨s, v, p1⟩ := r
      cases s <;> exact h1
    | @variant idTy ids dcs alts hid h =>
      simp only [uDecode]
      have h1 := (decode_safe d u.c idTy (dflt u.c d idTy) data p hlib hid hp).u (E := E)
      generalize decode d u.c idTy (dflt u.c d idTy) data p = r at *
      obtain ⟨s, id, p1⟩ := r
      cases s with
      | ok =>
        dsimp only at h1 ⊢
        split
        · exact ⟨.inl trivial, h1.mono, h1.inb⟩
        · split
          · next t' dc ha hd =>
            exact h1.trans (decAlt_u (fun v p hp => ih t' v p (h t' (List.mem_of_getElem? ha)) hp) dc _ _ old h1.inb)
          · exact ⟨.inl trivial, h1.mono, h1.inb⟩
      | _ => exact h1
    | ref i => exact ih (u.env i) old p (henv i) hp

/-! ## Input: reading what was written -/

/-- On input that goes on with `bs`, `r` reads exactly these bytes and yields an object satisfying `S`. -/
def RdS (data : List UInt8) (r : Nat → Res) (bs : List UInt8) (S : Val → Prop) : Prop :=
  ∀ p rest, p ≤ data.length → data.drop p = bs ++ rest → ∃ w, r p = ⟨.ok, w, p + bs.length⟩ ∧ S w

theorem decAll_rds {data : List UInt8} {rec : Val → Nat → Res} {w : Val → Option (List UInt8)}
    {S : Val → Val → Prop} : ∀ (vs olds : List Val) (bs : List UInt8), catAll w vs = some bs →
      olds.length = vs.length → (∀ v ∈ vs, ∀ b, w v = some b → ∀ old, RdS data (rec old) b (S v)) →
      ∀ p rest, p ≤ data.length → data.drop p = bs ++ rest →
        ∃ ws, decAll rec olds p = ⟨.ok, ws, p + bs.length⟩ ∧ Pairwise2 S vs ws := by
  intro vs
  induction vs with
  | nil =>
    intro olds bs h hl _ p rest _ _
    cases h
    have : olds = [] := List.eq_nil_of_length_eq_zero hl
    subst this
    exact ⟨[], rfl, trivial⟩
  | cons v vs ih =>
    intro olds bs h hl hr p rest hp hd
    rw [catAll, cat_eq_some] at h
    obtain ⟨x, y, hx, hy, rfl⟩ := h
    cases olds with
    | nil => simp at hl
    | cons o os =>
    rw [List.append_assoc] at hd
    obtain ⟨w1, h1, hs1⟩ := hr v (by simp) x hx o p _ hp hd
    have hs := drop_split hp hd
    obtain ⟨ws, h2, hs2⟩ := ih os y hy (by simpa using hl) (fun v' h' => hr v' (by simp [h'])) _ rest hs.1 hs.2
    exact ⟨w1 :: ws, by simp only [decAll, h1, h2, List.length_append, Nat.add_assoc], hs1, hs2⟩

theorem memberOf_set {vs : List Val} {m k : Nat} {v : Val} :
    memberOf (vs.set m v) k = if k = m ∧ m < vs.length then v else memberOf vs k := by
  unfold memberOf
  rw [List.getElem?_set]
  by_cases h : m = k
  · subst h
    by_cases h2 : m < vs.length
    · simp [h2]
    · simp [h2]
  · rw [if_neg h, if_neg fun h' => h h'.1.symm]

theorem uScriptIn_rds {T : Type} {data : List UInt8} {rec : T → Val → Nat → Res} {w : T → Val → Option (List UInt8)}
    {S : T → Val → Val → Prop} (self : List Val) : ∀ (s : ScriptOf T) (bs : List UInt8) (cur : List Val),
      uSays w self s = some bs → cur.length = self.length → ((uVisits self s).map Prod.fst).Nodup →
      uDecides S self s →
      (∀ x ∈ uVisits self s, ∀ b, w x.2 (memberOf self x.1) = some b →
        ∀ old, RdS data (rec x.2 old) b (S x.2 (memberOf self x.1))) →
      ∀ p rest, p ≤ data.length → data.drop p = bs ++ rest →
        ∃ ws, uScriptIn rec s cur p = ⟨.ok, ws, p + bs.length⟩ ∧ ws.length = self.length ∧
          (∀ x ∈ uVisits self s, S x.2 (memberOf self x.1) (memberOf ws x.1)) ∧
          ∀ m, m ∉ (uVisits self s).map Prod.fst → memberOf ws m = memberOf cur m := by
  intro s
  induction s with
  | done =>
    intro bs cur h hl _ _ _ p rest _ _
    cases h
    exact ⟨cur, rfl, hl, by simp [uVisits], fun _ _ => rfl⟩
  | fail e => intro bs cur h; cases h
  | archive m t next ih =>
    intro bs cur h hl hnd hdec hr p rest hp hd
    rw [uSays] at h
    split at h
    · next hm =>
      rw [cat_eq_some] at h
      obtain ⟨x, y, hx, hy, rfl⟩ := h
      rw [List.append_assoc] at hd
      obtain ⟨w1, h1, hs1⟩ := hr (m, t) (by simp [uVisits]) x hx (memberOf cur m) p _ hp hd
      have hs := drop_split hp hd
      have hnx := hdec.1 w1 hs1
      simp only [uVisits, List.map_cons, List.nodup_cons] at hnd
      obtain ⟨ws, h2, hlen, hs2, hk⟩ := ih (memberOf self m) y (cur.set m w1) hy (by simpa using hl) hnd.2 hdec.2
        (fun x h' => hr x (by simp [uVisits, h'])) _ rest hs.1 hs.2
      refine ⟨ws, ?_, hlen, ?_, ?_⟩
      · simp only [uScriptIn, h1, hnx, h2, List.length_append, Nat.add_assoc]
      · intro x hx
        simp only [uVisits, List.mem_cons] at hx
        rcases hx with rfl | hx
        · simp only
          rw [hk m hnd.1, memberOf_set, if_pos ⟨rfl, by omega⟩]
          exact hs1
        · exact hs2 x hx
      · intro k hk'
        simp only [uVisits, List.map_cons, List.mem_cons, not_or] at hk'
        rw [hk k hk'.2, memberOf_set, if_neg fun h => hk'.1 h.1]
    · cases h

theorem ordered_prefix {lt : Val → Val → Bool} {multi hashed isMap : Bool} {vs ws : List Val}
    (h : Ordered lt multi hashed isMap (vs ++ ws)) : Ordered lt multi hashed isMap vs := by
  unfold Ordered at h ⊢
  exact (List.pairwise_append.mp h).1

theorem decAssoc_rds {data : List UInt8} {elem : Nat → Res} {lt : Val → Val → Bool} {multi hashed isMap : Bool}
    {w : Val → Option (List UInt8)} {R : Val → Val → Prop} :
    ∀ (vs acc : List Val) (bs : List UInt8), catAll w vs = some bs →
      (∀ ws, Pairwise2 R vs ws → Ordered lt multi hashed isMap (acc ++ ws)) →
      (∀ v ∈ vs, ∀ b, w v = some b → RdS data elem b (R v)) →
      ∀ p rest, p ≤ data.length → data.drop p = bs ++ rest →
        ∃ ws, decAssoc elem (assocInsert lt multi hashed isMap) vs.length acc p = ⟨.ok, acc ++ ws, p + bs.length⟩ ∧
          Pairwise2 R vs ws := by
  intro vs
  induction vs with
  | nil =>
    intro acc bs h _ _ p rest _ _
    cases h
    exact ⟨[], by simp [decAssoc], trivial⟩
  | cons v vs ih =>
    intro acc bs h ho hr p rest hp hd
    rw [catAll, cat_eq_some] at h
    obtain ⟨x, y, hx, hy, rfl⟩ := h
    rw [List.append_assoc] at hd
    obtain ⟨w1, h1, hs1⟩ := hr v (by simp) x hx p _ hp hd
    have hs := drop_split hp hd
    obtain ⟨ws, h2, hs2⟩ := ih (acc ++ [w1]) y hy (fun ws hw => by simpa using ho (w1 :: ws) ⟨hs1, hw⟩)
      (fun v' h' => hr v' (by simp [h'])) _ rest hs.1 hs.2
    have ho1 : Ordered lt multi hashed isMap (acc ++ w1 :: ws) := ho (w1 :: ws) ⟨hs1, hs2⟩
    refine ⟨w1 :: ws, ?_, hs1, hs2⟩
    simp only [List.length_cons, decAssoc, h1, assocInsert_append ho1, h2, List.length_append, Nat.add_assoc]
    simp

theorem uOptIn_rds {data : List UInt8} {rec : Val → Nat → Res} {b : List UInt8} {S : Val → Prop}
    (h : ∀ old, RdS data (rec old) b S) (inPlace : Bool) (cur dv old : Val) :
    RdS data (uOptIn inPlace rec cur dv old data) ([1] ++ b) (fun w => ∃ x, w = .some x ∧ S x) := by
  intro p rest hp hd
  rw [List.append_assoc] at hd
  have h1 := getBytes_rd hp hd
  have hs := drop_split hp hd
  simp only [List.length_singleton] at h1 hs
  unfold uOptIn
  cases inPlace
  · obtain ⟨w, h2, h3⟩ := h dv _ rest hs.1 hs.2
    refine ⟨.some w, ?_, w, rfl, h3⟩
    simp [h1, leNat, h2, Nat.add_assoc, Nat.add_comm 1]
  · obtain ⟨w, h2, h3⟩ := h cur _ rest hs.1 hs.2
    refine ⟨.some w, ?_, w, rfl, h3⟩
    simp [h1, leNat, h2, Nat.add_assoc, Nat.add_comm 1]

theorem uOptIn_none {data : List UInt8} {rec : Val → Nat → Res} (inPlace : Bool) (cur dv old : Val) :
    Rd data (uOptIn inPlace rec cur dv old data) [0] .none := by
  intro p rest hp hd
  have h1 := getBytes_rd hp hd
  simp only [List.length_singleton] at h1
  simp [uOptIn, h1, leNat]

theorem decAlt_rds {data : List UInt8} {rec : Val → Nat → Res} {b : List UInt8} {S : Val → Prop}
    (h : ∀ old, RdS data (rec old) b S) (dc : Bool) (i : Nat) (dv old : Val) :
    RdS data (decAlt rec dc i dv old) b (fun w => ∃ x, w = .alt i x ∧ S x) := by
  intro p rest hp hd
  have hw : ∀ cur, ∃ w, (⟨(rec cur p).s, .alt i (rec cur p).v, (rec cur p).p⟩ : Res) = ⟨.ok, w, p + b.length⟩ ∧
      ∃ x, w = .alt i x ∧ S x := by
    intro cur
    obtain ⟨w, h2, h3⟩ := h cur p rest hp hd
    exact ⟨.alt i w, by rw [h2], w, rfl, h3⟩
  unfold decAlt
  cases dc
  · obtain ⟨w, h2, h3⟩ := h dv p rest hp hd
    exact ⟨.alt i w, by simp [h2], w, rfl, h3⟩
  · exact hw _

theorem uDecode_rds (u : UCfg) (ha : AbiOk u.c.sizeof) (he : EnvGood u.c) (data : List UInt8)
    (hlen : data.length < 2 ^ 64) : ∀ (d : Nat) (t : UTy) (v : Val) (bs : List UInt8),
      uWire (fmtOf u.c) u.env d t v = some bs →
      uEach u.env (fun n t v => Good u.c t = true ∧ Loadable u.c t v ∧ 2 * depth v ≤ n) (uReads u) d t v →
      ∀ old, RdS data (uDecode d u t old data) bs (uSame u.env d t v) := by
  intro d
  have hlib : ∀ d t v bs, wire (fmtOf u.c) t v = some bs →
      (Good u.c t = true ∧ Loadable u.c t v ∧ 2 * depth v ≤ d) → ∀ old, Rd data (decode d u.c t old data) bs v := by
    intro d t v bs hw ⟨h1, h2, h3⟩
    exact (decode_round d u.c ha he).1 data hlen t v bs h1 hw h2 (by split <;> omega)
  induction d with
  | zero => intro t v bs h; cases h
  | succ d ih =>
    intro t v bs hw hp old
    cases t with
    | lib t' =>
      intro p rest hpl hd
      exact ⟨v, hlib (d + 1) t' v bs hw hp old p rest hpl hd, rfl⟩
    | user fresh s =>
      cases v <;> first | cases hw | skip
      rename_i vs
      obtain ⟨⟨hl, hnd, hdec⟩, hv⟩ := hp
      intro p rest hpl hd
      obtain ⟨ws, h1, h2, h3, _⟩ := uScriptIn_rds (data := data) (rec := fun t v p => uDecode d u t v data p)
        (w := uWire (fmtOf u.c) u.env d) (S := uSame u.env d) vs s bs
        (resizeVals old.elems fresh.length .unit) hw (by simp [resizeVals]; omega) hnd hdec
        (fun x hx b hb old => ih x.2 _ b hb (hv x hx) old) p rest hpl hd
      exact ⟨.list ws, by simp only [uDecode, h1, ResL.toRes], h2, h3⟩
    | seq k sz t' =>
      cases v <;> first | cases hw | skip
      rename_i vs
      obtain ⟨⟨hk1, hk2, hsz, hfit⟩, hv⟩ := hp
      simp only [uWire, cat_eq_some] at hw
      obtain ⟨x, y, hx, hy, rfl⟩ := hw
      intro p rest hpl hd
      rw [List.append_assoc] at hd
      have hs := drop_split hpl hd
      have hsz' : effSz u.c sz ≠ .none := hsz
      have hh : decHdr u.c (effSz u.c sz) data p = (.ok, vs.length, p + x.length) := decHdr_rd hsz' hx hpl hd
      have hd1 : uDecode (d + 1) u (.seq k sz t') old data p = uSeqFill u.c.g k (u.sizeof t')
          (fun v p => uDecode d u t' v data p) (uFresh d u t') old vs.length (p + x.length) := by
        rw [uDecode.eq_def]
        cases hz : effSz u.c sz with
        | none => exact absurd hz hsz'
        | _ => rw [hz] at hh; simp only [hz, hh]
      have hd2 : uSeqFill u.c.g k (u.sizeof t') (fun v p => uDecode d u t' v data p) (uFresh d u t') old vs.length
          (p + x.length) = (decAll (fun v p => uDecode d u t' v data p)
            (resizeVals old.elems vs.length (uFresh d u t')) (p + x.length)).toRes := by
        unfold uSeqFill
        split
        · exact absurd rfl hk2
        · exact absurd rfl hk1
        · rw [if_neg, if_neg]
          · have := hfit.2; omega
          · rintro ⟨h1, h2⟩
            rcases hfit.1 with h | h
            · exact h1 h
            · omega
      obtain ⟨ws, h1, h2⟩ := decAll_rds (data := data) (rec := fun v p => uDecode d u t' v data p)
        (S := uSame u.env d t') vs (resizeVals old.elems vs.length (uFresh d u t')) y hy (by simp [resizeVals]; omega)
        (fun v hm b hb old => ih t' v b hb (hv v hm) old) _ rest hs.1 hs.2
      refine ⟨.list ws, ?_, h2⟩
      rw [hd1, hd2, h1]
      simp [ResL.toRes, Nat.add_assoc]
    | array n t' =>
      cases v <;> first | cases hw | skip
      rename_i vs
      simp only [uWire] at hw
      split at hw
      · next hn =>
        intro p rest hpl hd
        obtain ⟨ws, h1, h2⟩ := decAll_rds (data := data) (rec := fun v p => uDecode d u t' v data p)
          (S := uSame u.env d t') vs (resizeVals old.elems n .unit) bs hw (by simp [resizeVals]; omega)
          (fun v hm b hb old => ih t' v b hb (hp.2 v hm) old) p rest hpl hd
        exact ⟨.list ws, by simp only [uDecode, h1, ResL.toRes], h2⟩
      · cases hw
    | set multi hashed sz t' =>
      cases v <;> first | cases hw | skip
      rename_i vs
      obtain ⟨⟨hsz, hord⟩, hv⟩ := hp
      simp only [uWire, cat_eq_some] at hw
      obtain ⟨x, y, hx, hy, rfl⟩ := hw
      intro p rest hpl hd
      rw [List.append_assoc] at hd
      have hs := drop_split hpl hd
      have hh : decHdr u.c (effSz u.c sz) data p = (.ok, vs.length, p + x.length) := decHdr_rd hsz hx hpl hd
      obtain ⟨ws, h1, h2⟩ := decAssoc_rds (data := data)
        (elem := fun p => uDecode d u t' (uFresh d u t') data p) (lt := u.lt t') (multi := multi) (hashed := hashed)
        (isMap := false) (R := uSame u.env d t') vs [] y hy hord.2
        (fun v hm b hb => ih t' v b hb (hv v hm) _) _ rest hs.1 hs.2
      refine ⟨.list ws, ?_, h2⟩
      simp only [uDecode, hh, h1, ResL.toRes, List.length_append, Nat.add_assoc, List.nil_append]
    | map multi hashed sz key t' =>
      cases v <;> first | cases hw | skip
      rename_i vs
      obtain ⟨⟨hsz, hord⟩, hv⟩ := hp
      simp only [uWire, cat_eq_some] at hw
      obtain ⟨x, y, hx, hy, rfl⟩ := hw
      intro p rest hpl hd
      rw [List.append_assoc] at hd
      have hs := drop_split hpl hd
      have hh : decHdr u.c (effSz u.c sz) data p = (.ok, vs.length, p + x.length) := decHdr_rd hsz hx hpl hd
      obtain ⟨ws, h1, h2⟩ := decAssoc_rds (data := data)
        (elem := uEntryIn (fun p => uDecode d u key (uFresh d u key) data p)
            (fun p => uDecode d u t' (uFresh d u t') data p)) (lt := u.lt key) (multi := multi) (hashed := hashed)
        (isMap := true) (R := sameEntry (uSame u.env d key) (uSame u.env d t')) vs [] y hy hord.2 (by
          intro e hm b hb
          unfold uEntry at hb
          split at hb
          · rename_i k x
            rw [cat_eq_some] at hb
            obtain ⟨b1, b2, hb1, hb2, rfl⟩ := hb
            have hkx := hv k x hm
            intro p rest hpl hd
            rw [List.append_assoc] at hd
            obtain ⟨k', h1, hk'⟩ := ih key k b1 hb1 hkx.1 (uFresh d u key) p _ hpl hd
            have hs := drop_split hpl hd
            obtain ⟨w, h2, h3⟩ := ih t' x b2 hb2 hkx.2 (uFresh d u t') _ rest hs.1 hs.2
            refine ⟨.list [k', w], ?_, hk', h3⟩
            simp only [uEntryIn, h1, h2, List.length_append, Nat.add_assoc]
          · cases hb) _ rest hs.1 hs.2
      refine ⟨.list ws, ?_, h2⟩
      simp only [uDecode, hh, h1, ResL.toRes, List.length_append, Nat.add_assoc, List.nil_append]
    | optional dc t' =>
      cases v <;> first | cases hw | skip
      · intro p rest hpl hd
        exact ⟨.none, uOptIn_none (rec := fun v p => uDecode d u t' v data p) dc _ _ old p rest hpl hd, trivial⟩
      · simp only [uWire, cat_eq_some] at hw
        obtain ⟨x, y, hx, hy, rfl⟩ := hw
        cases hx
        intro p rest hpl hd
        obtain ⟨w, h1, x, rfl, h2⟩ := uOptIn_rds (rec := fun v p => uDecode d u t' v data p)
          (fun old => ih t' _ y hy hp old) dc _ _ old p rest hpl hd
        exact ⟨.some x, h1, h2⟩
    | optPtr t' =>
      cases v <;> first | cases hw | skip
      · intro p rest hpl hd
        exact ⟨.none, uOptIn_none (rec := fun v p => uDecode d u t' v data p) false _ _ old p rest hpl hd, trivial⟩
      · simp only [uWire, cat_eq_some] at hw
        obtain ⟨x, y, hx, hy, rfl⟩ := hw
        cases hx
        intro p rest hpl hd
        obtain ⟨w, h1, x, rfl, h2⟩ := uOptIn_rds (rec := fun v p => uDecode d u t' v data p)
          (fun old => ih t' _ y hy hp old) false _ _ old p rest hpl hd
        exact ⟨.some x, h1, h2⟩
    | uptr t' =>
      cases v <;> first | cases hw | skip
      intro p rest hpl hd
      obtain ⟨w, h1, h2⟩ := ih t' _ bs hw hp (uFresh d u t') p rest hpl hd
      exact ⟨.some w, by simp only [uDecode, h1], h2⟩
    | variant idTy ids dcs alts =>
      cases v <;> first | cases hw | skip
      rename_i i x
      simp only [uWire] at hw
      split at hw
      · next id t' hi ht =>
        rw [cat_eq_some] at hw
        obtain ⟨b1, b2, hb1, hb2, rfl⟩ := hw
        obtain ⟨⟨hnd, hdl⟩, hv⟩ := hp
        have hix := And.intro (hv.1 id hi) (hv.2 t' ht)
        intro p rest hpl hd
        rw [List.append_assoc] at hd
        have h1 := hlib d idTy id b1 hb1 hix.1 (dflt u.c d idTy) p _ hpl hd
        have hs := drop_split hpl hd
        have hf := findId_nodup hnd 0 hi
        have hlt : i < dcs.length := by
          have := (List.getElem?_eq_some_iff.mp ht).1
          omega
        have hdc : dcs[i]? = some dcs[i] := List.getElem?_eq_getElem hlt
        simp only [uDecode, h1, hf, Nat.add_zero, ht, hdc]
        obtain ⟨w, h2, x', rfl, h3⟩ := decAlt_rds (rec := fun v p => uDecode d u t' v data p)
          (fun old => ih t' x b2 hb2 hix.2 old) dcs[i] i (uFresh d u t') old _ rest hs.1 hs.2
        exact ⟨.alt i x', by rw [h2, List.length_append, Nat.add_assoc], rfl, t', ht, h3⟩
      · cases hw
    | ref i => exact ih (u.env i) v bs hw hp old

theorem pairwise2_eq {R : Val → Val → Prop} : ∀ (vs ws : List Val), (∀ v ∈ vs, ∀ w, R v w → v = w) →
    Pairwise2 R vs ws → vs = ws := by
  intro vs
  induction vs with
  | nil => intro ws _ h; cases ws with
    | nil => rfl
    | cons w ws => cases h
  | cons v vs ih =>
    intro ws h hp
    cases ws with
    | nil => cases hp
    | cons w ws => rw [h v (by simp) w hp.1, ih ws (fun v hv => h v (by simp [hv])) hp.2]

theorem pairwise2_mem {R : Val → Val → Prop} : ∀ {vs ws : List Val}, Pairwise2 R vs ws → ∀ w ∈ ws, ∃ v ∈ vs, R v w
  | [], [], _, w, hw => by cases hw
  | v :: vs, w' :: ws, h, w, hw => by
    rcases List.mem_cons.mp hw with rfl | hw
    · exact ⟨v, by simp, h.1⟩
    · obtain ⟨v', h1, h2⟩ := pairwise2_mem h.2 w hw
      exact ⟨v', by simp [h1], h2⟩
  | [], _ :: _, h, _, _ => h.elim
  | _ :: _, [], h, _, _ => h.elim

theorem ordered_pairwise2 {lt : Val → Val → Bool} {multi isMap : Bool} {R : Val → Val → Prop}
    (hR : ∀ x x' y y', R x x' → R y y' → lt (assocKey isMap x') (assocKey isMap y') = lt (assocKey isMap x) (assocKey isMap y) ∧
      lt (assocKey isMap y') (assocKey isMap x') = lt (assocKey isMap y) (assocKey isMap x)) :
    ∀ {vs ws : List Val}, Ordered lt multi false isMap vs → Pairwise2 R vs ws → Ordered lt multi false isMap ws
  | [], [], h, _ => h
  | v :: vs, w :: ws, h, hp => by
    rw [← orderedK_iff] at h ⊢
    unfold OrderedK at h ⊢
    rw [List.pairwise_cons] at h ⊢
    refine ⟨fun y hy => ?_, orderedK_iff.mpr (ordered_pairwise2 hR (orderedK_iff.mp h.2) hp.2)⟩
    obtain ⟨x, hx, hxy⟩ := pairwise2_mem hp.2 y hy
    have h1 := h.1 x hx
    have h2 := hR v w x y hp.1 hxy
    simp only [Bool.false_eq_true, if_false] at h1 ⊢
    rw [h2.1, h2.2]
    exact h1
  | [], _ :: _, _, h => h.elim
  | _ :: _, [], _, h => h.elim

theorem ordered_sameKeysIn {lt : Val → Val → Bool} {multi hashed isMap : Bool} {R : Val → Val → Prop} :
    ∀ {vs ws : List Val}, (∀ x ∈ vs, ∀ y, R x y → assocKey isMap x = assocKey isMap y) → Ordered lt multi hashed isMap vs →
      Pairwise2 R vs ws → Ordered lt multi hashed isMap ws
  | [], [], _, h, _ => h
  | v :: vs, w :: ws, hR, h, hp => by
    rw [← orderedK_iff] at h ⊢
    unfold OrderedK at h ⊢
    rw [List.pairwise_cons] at h ⊢
    refine ⟨fun y hy => ?_, orderedK_iff.mpr (ordered_sameKeysIn (fun x hx => hR x (by simp [hx])) (orderedK_iff.mp h.2) hp.2)⟩
    obtain ⟨x, hx, hxy⟩ := pairwise2_mem hp.2 y hy
    have h1 := h.1 x hx
    have h2 := hR v (by simp) w hp.1
    have h3 := hR x (by simp [hx]) y hxy
    rw [← h2, ← h3]
    exact h1
  | [], _ :: _, _, _, h => h.elim
  | _ :: _, [], _, _, h => h.elim

theorem ordered_sameKeys {lt : Val → Val → Bool} {multi hashed isMap : Bool} {R : Val → Val → Prop} {vs ws : List Val}
    (hR : ∀ x y, R x y → assocKey isMap x = assocKey isMap y) (h : Ordered lt multi hashed isMap vs) (hp : Pairwise2 R vs ws) :
    Ordered lt multi hashed isMap ws := ordered_sameKeysIn (fun x _ => hR x) h hp

theorem memberOf_ext {vs ws : List Val} (hl : ws.length = vs.length)
    (h : ∀ m, m < vs.length → memberOf vs m = memberOf ws m) : vs = ws := by
  apply List.ext_getElem hl.symm
  intro m h1 h2
  have := h m h1
  simpa [memberOf, List.getElem?_eq_getElem h1, List.getElem?_eq_getElem h2] using this

theorem uSame_eq (env : Nat → UTy) : ∀ (d : Nat) (t : UTy) (v w : Val), uComplete env d t v → uSame env d t v w →
    v = w := by
  intro d
  induction d with
  | zero => intro t v w _ h; cases h
  | succ d ih =>
    intro t v w hc hs
    cases t with
    | lib t' => exact hs
    | user fresh s =>
      cases v <;> first | exact hs.elim | skip
      cases w <;> first | exact hs.elim | skip
      rename_i vs ws
      obtain ⟨hl, hs⟩ := hs
      obtain ⟨hall, hc⟩ := hc
      congr 1
      apply memberOf_ext hl
      intro m hm
      obtain ⟨x, hx, rfl⟩ := List.mem_map.mp (hall m hm)
      exact ih x.2 _ _ (hc x hx) (hs x hx)
    | seq k sz t' =>
      cases v <;> first | cases hs | skip
      cases w <;> first | cases hs | skip
      rename_i vs ws
      rw [pairwise2_eq vs ws (fun v hv w => ih t' v w (hc.2 v hv)) hs]
    | array n t' =>
      cases v <;> first | cases hs | skip
      cases w <;> first | cases hs | skip
      rename_i vs ws
      rw [pairwise2_eq vs ws (fun v hv w => ih t' v w (hc.2 v hv)) hs]
    | set multi hashed sz t' =>
      cases v <;> first | cases hs | skip
      cases w <;> first | cases hs | skip
      rename_i vs ws
      rw [pairwise2_eq vs ws (fun v hv w => ih t' v w (hc.2 v hv)) hs]
    | map multi hashed sz key t' =>
      cases v <;> first | cases hs | skip
      cases w <;> first | cases hs | skip
      rename_i vs ws
      rw [pairwise2_eq vs ws (fun v hv w h => ?_) hs]
      unfold sameEntry at h
      split at h
      · rename_i k x k' y
        rw [ih key k k' (hc.2 k x hv).1 h.1, ih t' x y (hc.2 k x hv).2 h.2]
      · cases h
    | optional dc t' =>
      cases v <;> first | cases hs | skip
      · cases w <;> first | rfl | cases hs
      · cases w <;> first | cases hs | skip
        rw [ih t' _ _ hc hs]
    | optPtr t' =>
      cases v <;> first | cases hs | skip
      · cases w <;> first | rfl | cases hs
      · cases w <;> first | cases hs | skip
        rw [ih t' _ _ hc hs]
    | uptr t' =>
      cases v <;> first | cases hs | skip
      cases w <;> first | cases hs | skip
      rw [ih t' _ _ hc hs]
    | variant idTy ids dcs alts =>
      cases v <;> first | exact hs.elim | skip
      cases w <;> first | exact hs.elim | skip
      obtain ⟨rfl, t', ht, hs⟩ := hs
      rw [ih t' _ _ (hc.2.2 t' ht) hs]
    | ref i => exact ih (env i) v w hc hs

/-! ## Calls -/

theorem uEncode_result {d : Nat} {u : UCfg} {t : UTy} {v : Val} {clean : Bool} {bs : List UInt8} {st : OutSt}
    (hs : UWritable u d t v clean) (hz : clean = true → ∀ b ∈ st.data.drop st.pos, b = 0)
    (hw : uWire (fmtOf u.c) u.env d t v = some bs) (hl : bs.length < 2 ^ 63) (hv : Valid st) :
    EmitRes u.c.g bs (st.data.take st.pos) (st.data.drop st.pos) (uEncode d u t v st) := by
  have hp := hv.pos_le
  have e : st = ⟨st.data.take st.pos ++ st.data.drop st.pos, (st.data.take st.pos).length⟩ := by
    cases st; simp at hp ⊢; omega
  have hlen : (st.data.take st.pos).length + (st.data.drop st.pos).length < 2 ^ 63 := by
    have := hv.len_lt; simp; omega
  have := uEncode_emits clean u hs.growth hs.abi hs.env d t v bs hw hl hs.parts (st.data.take st.pos)
    (st.data.drop st.pos) hz hlen
  rwa [← e] at this

theorem fitCall_appends {c : Cfg} {noFit : Bool} {body : OutM} {st st' : OutSt} {bs : List UInt8}
    (hpos : st.pos ≤ st.data.length)
    (h : EmitRes c.g bs (st.data.take st.pos) (st.data.drop st.pos) (body st))
    (hok : fitCall c noFit body st = (.ok, st')) :
    st'.pos = st.pos + bs.length ∧
    ∃ k, st'.data = st.data.take st.pos ++ bs ++ st.data.drop (st.pos + bs.length) ++ List.replicate k 0 := by
  have hpl : (st.data.take st.pos).length = st.pos := by simp; omega
  have hdrop : ∀ k, ∃ k', ((st.data.drop st.pos ++ List.replicate k (0 : UInt8)).drop bs.length) =
      st.data.drop (st.pos + bs.length) ++ List.replicate k' 0 := by
    intro k
    rw [List.drop_append, List.drop_drop, List.drop_replicate]
    exact ⟨_, rfl⟩
  unfold fitCall at hok
  split at hok
  · rcases h with ⟨k, he, hk, hf, _⟩ | ⟨_, he, _⟩ | ⟨_, he, _⟩ | ⟨_, he, _⟩
    · rw [he] at hok
      simp only at hok
      split at hok
      · split at hok
        · cases hok
        · cases hok
          simp only [hpl]
          refine ⟨trivial, 0, ?_⟩
          rename_i hge _
          simp only [hpl] at hge
          simp only [List.length_drop] at hk
          rw [List.drop_eq_nil_of_le (as := st.data) hge]
          simp only [resizeBytes]
          rw [List.take_append_of_le_length (by simp; omega), List.take_of_length_le (by simp; omega)]
          simp
          omega
      · cases hok
        simp only [hpl]
        refine ⟨trivial, ?_⟩
        obtain ⟨k', hk'⟩ := hdrop k
        exact ⟨k', by rw [hk']; simp⟩
    all_goals
      exfalso
      generalize body st = r at he hok
      obtain ⟨s, st1⟩ := r
      simp only at he
      subst he
      simp only at hok
      first
      | (split at hok
         · split at hok <;> cases hok
         · cases hok)
      | cases hok
  · rcases h with ⟨k, he, hk, hf, _⟩ | ⟨_, he, _⟩ | ⟨_, he, _⟩ | ⟨_, he, _⟩
    · rw [he] at hok
      cases hok
      simp only [hpl]
      refine ⟨trivial, ?_⟩
      obtain ⟨k', hk'⟩ := hdrop k
      exact ⟨k', by rw [hk']; simp⟩
    all_goals (rw [hok] at he; cases he)

theorem fitCall_status {c : Cfg} {noFit : Bool} {body : OutM} {st : OutSt}
    (hin : (body st).2.pos ≤ (body st).2.data.length) : (fitCall c noFit body st).1 = (body st).1 := by
  unfold fitCall
  split
  · generalize body st = r at *
    obtain ⟨s, st'⟩ := r
    simp only at hin
    have hn : ¬ (st'.data.length < st'.pos ∧ c.g.maxMem < st'.pos) := by omega
    cases s <;> first | rfl | (simp only; rw [if_neg hn]; split <;> rfl)
  · rfl

theorem SafeStep.fit {g : Growth} (hr : g.resizable = true) {st : OutSt} {s : Status} {st' : OutSt}
    (h : SafeStep g st (s, st')) (hle : st.data.length ≤ st'.pos) :
    SafeStep g st (s, { st' with data := resizeBytes st'.data st'.pos }) := by
  have hinb := h.inb
  simp only at hinb
  have hrs : resizeBytes st'.data st'.pos = st'.data.take st'.pos := by
    simp [resizeBytes, Nat.sub_eq_zero_of_le hinb]
  rw [hrs]
  refine ⟨?_, h.mono, by simp; omega, ?_, ?_, ?_, ?_, ?_⟩
  · exact h.code
  · have := h.mono
    simp only [List.take_take] at this ⊢
    rw [Nat.min_eq_left this]; exact h.keep
  · simp; omega
  · have := h.len_bd
    simp at this ⊢; omega
  · intro hf; rw [hr] at hf; cases hf
  · simp
    omega

theorem fitCall_safeU {c : Cfg} {E : Errc → Prop} {noFit : Bool} {body : OutM} (h : SafeOutU c.g E body) :
    SafeOutU c.g E (fitCall c noFit body) := by
  intro st hv
  have h1 := h st hv
  unfold fitCall
  split
  · rename_i hc
    generalize body st = r at h1
    obtain ⟨s, st'⟩ := r
    have hin : st'.pos ≤ st'.data.length := by
      rcases h1 with h | ⟨_, _, _, h⟩
      · exact h.inb
      · exact h.inb
    have hn : ¬ (st'.data.length < st'.pos ∧ c.g.maxMem < st'.pos) := by omega
    have hkey : SafeStep c.g st (if st.data.length ≤ st'.pos then
          if st'.data.length < st'.pos ∧ c.g.maxMem < st'.pos then (.badAlloc, st')
          else (s, { st' with data := resizeBytes st'.data st'.pos }) else (s, st')) ∨
        ∃ e, E e ∧ (if st.data.length ≤ st'.pos then
          if st'.data.length < st'.pos ∧ c.g.maxMem < st'.pos then (.badAlloc, st')
          else (s, { st' with data := resizeBytes st'.data st'.pos }) else (s, st') : Status × OutSt).1 = .err e ∧
          SafeStep c.g st (.ok, (if st.data.length ≤ st'.pos then
          if st'.data.length < st'.pos ∧ c.g.maxMem < st'.pos then (.badAlloc, st')
          else (s, { st' with data := resizeBytes st'.data st'.pos }) else (s, st') : Status × OutSt).2) := by
      rw [if_neg hn]
      by_cases hle : st.data.length ≤ st'.pos
      · simp only [if_pos hle]
        rcases h1 with h | ⟨e, h2, h3, h4⟩
        · exact .inl (h.fit hc.1 hle)
        · exact .inr ⟨e, h2, h3, h4.fit hc.1 hle⟩
      · simp only [if_neg hle]
        exact h1
    cases s <;> first | exact hkey | exact h1
  · exact h1

theorem uCall_valid (u : UCfg) (hg : GrowthOk u.c.g) (d : Nat) (t : UTy) (v : Val) (noFit : Bool) {st : OutSt}
    (hv : Valid st) : Valid (uCall d u noFit t v st).2 := by
  rcases fitCall_safeU (noFit := noFit) (uEncode_safe u hg (fun i => uAll_true (u.env i)) d t v (uAll_true t)) st hv
    with h | ⟨_, _, _, h⟩
  · exact h.valid hg hv
  · exact h.valid hg hv

end Zpp
