import Verif.Spec.Storage
import Verif.Proof.InSafe
import Verif.Proof.InLimit
/-!
# How much containers can grow for every byte of input
-/

namespace Zpp
open Zpp.Spec

variable {so : Ty → Nat} {env : Nat → Ty}

theorem storage_unit : ∀ (f : Nat) (t : Ty), storage so env f t .unit = 0 := by
  intro f
  induction f with
  | zero => intro t; rfl
  | succ f ih => intro t; cases t <;> simp [storage, ih]

/-- Numbers hold nothing. -/
theorem storage_num {t : Ty} (ht : isPacked t = true) (f : Nat) (v : Val) : storage so env f t v = 0 := by
  cases f with
  | zero => rfl
  | succ f => cases t <;> simp [isPacked] at ht <;> simp [storage]

theorem sum_zero {l : List Nat} (h : ∀ x ∈ l, x = 0) : l.sum = 0 := by
  induction l with
  | nil => rfl
  | cons a l ih =>
    simp only [List.sum_cons]
    rw [h a (by simp), ih fun x hx => h x (by simp [hx])]

theorem map_sum_zero {w : Val → Nat} {vs : List Val} (h : ∀ v ∈ vs, w v = 0) : (vs.map w).sum = 0 :=
  sum_zero fun x hx => by obtain ⟨v, hv, rfl⟩ := List.mem_map.mp hx; exact h v hv

theorem storages_cons (f : Nat) (t : Ty) (ts : List Ty) (os : List Val) :
    storages so env f (t :: ts) os = storage so env f t (os.headD .unit) + storages so env f ts os.tail := by
  cases os with
  | nil => simp [storages, storage_unit]
  | cons o os => simp [storages]

theorem storages_nil (f : Nat) (os : List Val) : storages so env f [] os = 0 := by simp [storages]

theorem storages_struct (f : Nat) (ok : Bool) (fs : List Ty) (vs : List Val) :
    storage so env (f + 1) (.struct ok fs) (.list vs) = storages so env f fs vs := rfl

theorem storages_msg (f : Nat) (sz : Option SizeTy) (ok : Bool) (maps : List (Nat × Nat)) (nums : List (Option Nat)) (fs : List Ty)
    (vs : List Val) : storage so env (f + 1) (.msg sz ok maps nums fs) (.list vs) = storages so env f fs vs := rfl

theorem storage_elems_struct (f : Nat) (ok : Bool) (fs : List Ty) (old : Val) :
    storages so env f fs old.elems ≤ storage so env (f + 1) (.struct ok fs) old := by
  cases old <;> simp [Val.elems, storages, storage]

theorem storage_elems_msg (f : Nat) (sz : Option SizeTy) (ok : Bool) (maps : List (Nat × Nat)) (nums : List (Option Nat))
    (fs : List Ty) (old : Val) : storages so env f fs old.elems ≤ storage so env (f + 1) (.msg sz ok maps nums fs) old := by
  cases old <;> simp [Val.elems, storages, storage]

/-- Objects made of bytes hold nothing. -/
theorem storage_unrep {e : Endian} {so' : Ty → Nat} : ∀ (f : Nat) (t : Ty) (b : List UInt8),
    storage so env f t (unrep e so' t b) = 0 := by
  intro f
  induction f with
  | zero => intro t b; rfl
  | succ f ih =>
    have hfs : ∀ (fs : List Ty) (b : List UInt8), storages so env f fs (unrepFields e so' fs b) = 0 := by
      intro fs
      induction fs with
      | nil => intro b; exact storages_nil _ _
      | cons t ts iht =>
        intro b
        rw [storages_cons]
        simp only [unrepFields, List.headD_cons, List.tail_cons, ih, iht]
    intro t b
    cases t with
    | struct ok fs => simp only [unrep, storages_struct, hfs]
    | msg sz ok maps nums fs => simp only [unrep, storages_msg, hfs]
    | array n t =>
      simp only [unrep, storage]
      exact map_sum_zero fun v hv => by obtain ⟨b, rfl⟩ := chunks_mem hv; exact ih t b
    | ref i => simp only [unrep, storage, storage_unit]
    | _ => simp [unrep, storage]

/-- New objects hold nothing. -/
theorem storage_dflt {c : Cfg} (hc : env = c.env) : ∀ (d f : Nat) (t : Ty), storage so env f t (dflt c d t) = 0 := by
  intro d
  induction d with
  | zero => intro f t; exact storage_unit f t
  | succ d ih =>
    intro f t
    cases f with
    | zero => rfl
    | succ f =>
      have hfs : ∀ (fs : List Ty), storages so env f fs (fs.map (dflt c d)) = 0 := by
        intro fs
        induction fs with
        | nil => exact storages_nil _ _
        | cons t ts iht =>
          rw [storages_cons]
          simp only [List.map_cons, List.headD_cons, List.tail_cons, ih, iht]
      cases t with
      | struct ok fs => simp only [dflt, storages_struct, hfs]
      | msg sz ok maps nums fs => simp only [dflt, storages_msg, hfs]
      | array n t =>
        simp only [dflt, storage]
        exact map_sum_zero fun v hv => by rw [(List.mem_replicate.mp hv).2]; exact ih f t
      | variant idTy ids dcs alts => cases alts <;> simp [dflt, storage, ih]
      | ref i => simp only [dflt, storage]; rw [hc]; rw [← hc]; exact hc ▸ ih f _
      | seq k sz t => simp [dflt, storage]
      | assoc mu ha sz key m => cases m <;> simp [dflt, storage]
      | _ => simp [dflt, storage]

theorem sum_take_le (w : Val → Nat) (vs : List Val) (n : Nat) : ((vs.take n).map w).sum ≤ (vs.map w).sum := by
  induction vs generalizing n with
  | nil => simp
  | cons v vs ih =>
    cases n with
    | zero => simp
    | succ n => have := ih n; simp only [List.take_succ_cons, List.map_cons, List.sum_cons]; omega

theorem sum_resize_le {w : Val → Nat} (vs : List Val) (n : Nat) {dv : Val} (hd : w dv = 0) :
    ((resizeVals vs n dv).map w).sum ≤ (vs.map w).sum := by
  simp only [resizeVals, List.map_append, List.sum_append]
  rw [map_sum_zero (vs := List.replicate _ dv) fun v hv => by rw [(List.mem_replicate.mp hv).2]; exact hd]
  exact sum_take_le w vs n

theorem sum_insertSorted (w : Val → Nat) (lt : Val → Val → Bool) (isMap : Bool) (e : Val) (vs : List Val) :
    ((insertSorted lt isMap e vs).map w).sum = w e + (vs.map w).sum := by
  induction vs with
  | nil => simp [insertSorted]
  | cons x xs ih =>
    simp only [insertSorted]
    split
    · simp
    · simp only [List.map_cons, List.sum_cons, ih]; omega

theorem sum_assocInsert (w : Val → Nat) (lt : Val → Val → Bool) (multi hashed isMap : Bool) (e : Val) (vs : List Val) :
    ((assocInsert lt multi hashed isMap e vs).map w).sum ≤ (vs.map w).sum + w e := by
  unfold assocInsert
  split
  · split
    · simp
    · omega
  · split
    · rw [sum_insertSorted]; omega
    · omega

/-- Reading moves the position forward inside the input, and what is held grows by at most `M` for every byte consumed. -/
def Pays (M len : Nat) (w : Val → Nat) (rec : Val → Nat → Res) : Prop :=
  ∀ v p, p ≤ len → p ≤ (rec v p).p ∧ (rec v p).p ≤ len ∧ w (rec v p).v + M * p ≤ w v + M * (rec v p).p

variable {M len : Nat}

theorem map_sum_le {w w' : Val → Nat} {vs : List Val} (h : ∀ v ∈ vs, w v ≤ w' v) : (vs.map w).sum ≤ (vs.map w').sum := by
  induction vs with
  | nil => exact Nat.le_refl _
  | cons v vs ih =>
    have h1 := h v (by simp)
    have h2 := ih fun v hv => h v (by simp [hv])
    simp only [List.map_cons, List.sum_cons]; omega

theorem decAll_pays {w : Val → Nat} {rec : Val → Nat → Res} (h : Pays M len w rec) : ∀ (vs : List Val) (p : Nat), p ≤ len →
    ((decAll rec vs p).vs.map w).sum + M * p ≤ (vs.map w).sum + M * (decAll rec vs p).p := by
  intro vs
  induction vs with
  | nil => intro p _; simp [decAll]
  | cons v vs ih =>
    intro p hp
    obtain ⟨h1, h2, h3⟩ := h v p hp
    simp only [decAll]
    generalize rec v p = r at h1 h2 h3 ⊢
    obtain ⟨s, v', p'⟩ := r
    dsimp only at h1 h2 h3
    cases s <;> simp only [List.map_cons, List.sum_cons]
    case ok => have := ih p' h2; omega
    all_goals omega

theorem decFields_pays {w : Ty → Val → Nat} (hu : ∀ t, w t .unit = 0) {rec : Ty → Val → Nat → Res} :
    ∀ (ts : List Ty) (os : List Val) (p : Nat), (∀ t ∈ ts, Pays M len (w t) (rec t)) → p ≤ len →
    (List.zipWith w ts (decFields rec ts os p).vs).sum + M * p ≤ (List.zipWith w ts os).sum + M * (decFields rec ts os p).p := by
  intro ts
  induction ts with
  | nil => intro os p _ _; simp [decFields]
  | cons t ts ih =>
    intro os p h hp
    have hz : (List.zipWith w (t :: ts) os).sum = w t (os.headD .unit) + (List.zipWith w ts os.tail).sum := by
      cases os <;> simp [hu]
    obtain ⟨h1, h2, h3⟩ := h t (by simp) (os.headD .unit) p hp
    simp only [decFields]
    rw [hz]
    generalize rec t (os.headD .unit) p = r at h1 h2 h3 ⊢
    obtain ⟨s, v', p'⟩ := r
    dsimp only at h1 h2 h3
    cases s <;> simp only [List.zipWith_cons_cons, List.sum_cons]
    case ok => have := ih os.tail p' (fun t' ht => h t' (by simp [ht])) h2; omega
    all_goals omega

theorem decRep_pays {c : Cfg} {t : Ty} (f n : Nat) (olds : List Val) (data : List UInt8) (p : Nat) (hp : p ≤ data.length) :
    ((decRep c t n olds data p).vs.map (storage so env f t)).sum + M * p ≤
      (olds.map (storage so env f t)).sum + M * (decRep c t n olds data p).p := by
  have hm := (decRep_safe (c := c) (t := t) (n := n) (olds := olds) hp).mono
  have hM := Nat.mul_le_mul_left M hm
  have : ((decRep c t n olds data p).vs.map (storage so env f t)).sum ≤ (olds.map (storage so env f t)).sum := by
    unfold decRep
    split
    · exact Nat.le_refl _
    · generalize getBytes data p (n * c.sizeof t) = r
      obtain ⟨s, bs, p'⟩ := r
      cases s <;> simp only
      case ok =>
        rw [map_sum_zero fun v hv => by obtain ⟨b, rfl⟩ := chunks_mem hv; exact storage_unrep f t b]
        exact Nat.zero_le _
      all_goals exact Nat.le_refl _
  omega

theorem seqBody_pays {c : Cfg} {k : SeqKind} {t : Ty} {rec : Val → Nat → Res} {data : List UInt8} (f : Nat)
    (h : Pays M data.length (storage so env f t) rec) (olds : List Val) (p : Nat) (hp : p ≤ data.length) :
    ∃ vs, (seqBody c k t rec olds data p).v = .list vs ∧ vs.length = olds.length ∧
      (vs.map (storage so env f t)).sum + M * p ≤
        (olds.map (storage so env f t)).sum + M * (seqBody c k t rec olds data p).p := by
  unfold seqBody
  split
  · exact ⟨_, rfl, decRep_length rfl, decRep_pays f _ _ _ _ hp⟩
  · exact ⟨_, rfl, decAll_length _ _, decAll_pays h _ _ hp⟩

theorem decAssoc_pays {w : Val → Nat} {elem : Nat → Res} {ins : Val → List Val → List Val}
    (hins : ∀ e vs, ((ins e vs).map w).sum ≤ (vs.map w).sum + w e)
    (h : ∀ p, p ≤ len → p ≤ (elem p).p ∧ (elem p).p ≤ len ∧ w (elem p).v + M * p ≤ M * (elem p).p) :
    ∀ (n : Nat) (vs : List Val) (p : Nat), p ≤ len →
    ((decAssoc elem ins n vs p).vs.map w).sum + M * p ≤ (vs.map w).sum + M * (decAssoc elem ins n vs p).p := by
  intro n
  induction n with
  | zero => intro vs p _; exact Nat.le_refl _
  | succ n ih =>
    intro vs p hp
    obtain ⟨h1, h2, h3⟩ := h p hp
    simp only [decAssoc]
    generalize elem p = r at h1 h2 h3 ⊢
    obtain ⟨s, v', p'⟩ := r
    dsimp only at h1 h2 h3
    have hM := Nat.mul_le_mul_left M h1
    cases s <;> simp only
    case ok => have := ih (ins v' vs) p' h2; have := hins v' vs; omega
    all_goals omega

/-- A size prefix takes a byte, or announces nothing. -/
theorem decHdr_pays {c : Cfg} {sz : SizeTy} {data : List UInt8} {p n p1 : Nat} (hp : p ≤ data.length)
    (h : decHdr c sz data p = (.ok, n, p1)) : (p + 1 ≤ p1 ∨ n = 0) ∧ p ≤ p1 ∧ p1 ≤ data.length := by
  have hs := decHdr_safe (c := c) sz hp
  rw [h] at hs
  refine ⟨?_, hs.mono, hs.inb⟩
  unfold decHdr at h
  cases sz with
  | none => simp at h
  | fixed k =>
    dsimp only at h
    have hb := (getBytes_safe k hp).2
    generalize getBytes data p k = r at h hb
    obtain ⟨s, bs, q⟩ := r
    cases s <;> simp only [Prod.mk.injEq, reduceCtorEq, false_and] at h
    obtain ⟨b1, b2, b3⟩ := hb rfl
    obtain ⟨-, rfl, rfl⟩ := h
    dsimp only at b1 b3
    cases k with
    | zero =>
      right
      have : bs = [] := by simpa using b3
      subst this
      simp only [ioNat]
      split <;> cases c.host <;> rfl
    | succ k => left; omega
  | varint =>
    dsimp only at h
    have hb := (getVarint_safe intWidth8 false (.num 0) hp).2
    generalize getVarint 8 false (.num 0) data p = r at h hb
    obtain ⟨s, v, q⟩ := r
    cases s <;> try simp at h
    have := hb rfl
    dsimp only at this
    cases v <;> simp at h
    obtain ⟨-, rfl⟩ := h
    left; omega

theorem elemsLeL_mem {m : Nat} {ts : List Ty} (h : elemsLeL so m ts = true) : ∀ t ∈ ts, elemsLe so m t = true := by
  induction ts with
  | nil => intro t ht; cases ht
  | cons a as ih =>
    simp only [elemsLeL, Bool.and_eq_true] at h
    intro t ht
    rcases List.mem_cons.mp ht with e | e
    · subst e; exact h.1
    · exact ih h.2 t e

/-! ## Containers in messages -/

/-- The object added to a container for one element. -/
def unitTy : Ty → Ty
  | .seq _ _ e => e
  | .assoc _ _ _ key none => key
  | .assoc _ _ _ key (some m) => .struct false [key, m]
  | t => t

/-- Sequences, sets and maps. -/
def isBox : Ty → Bool
  | .seq _ _ _ => true
  | .assoc _ _ _ _ _ => true
  | _ => false

theorem storage_elems_box {t : Ty} (ht : isBox t = true) (f : Nat) (old : Val) :
    storage so env (f + 1) t (.list old.elems) ≤ storage so env (f + 1) t old := by
  cases t <;> simp [isBox] at ht
  · cases old <;> simp [Val.elems, storage]
  · next m => cases m <;> cases old <;> simp [Val.elems, storage]

theorem pbPush_pays {c : Cfg} {t : Ty} (ht : isBox t = true) (hm : elemsLe so M t = true) (f : Nat) (v : Val) (vs : List Val) :
    storage so env (f + 1) t (.list (pbPush c t v vs)) ≤
      storage so env (f + 1) t (.list vs) + M + storage so env f (unitTy t) v := by
  cases t <;> simp [isBox] at ht
  case seq k sz e =>
    simp only [elemsLe, Bool.and_eq_true, decide_eq_true_eq] at hm
    simp only [pbPush, storage, unitTy, List.map_append, List.sum_append, List.length_append, List.map_cons, List.map_nil,
      List.sum_cons, List.sum_nil, List.length_cons, List.length_nil]
    split
    · rw [Nat.add_mul]; omega
    · omega
  case assoc mu ha sz key m =>
    cases m with
    | none =>
      simp only [pbPush, storage, unitTy]
      have := sum_assocInsert (storage so env f key) (c.keyLt key) mu ha false v vs
      simp only [Option.isSome_none]
      omega
    | some m =>
      simp only [pbPush, storage, unitTy]
      have := sum_assocInsert (storage so env f (.struct false [key, m])) (c.keyLt key) mu ha true v vs
      simp only [Option.isSome_some]
      omega

theorem pbFetch_pays {c : Cfg} {t : Ty} (ht : isBox t = true) (hm : elemsLe so M t = true) {elem : Nat → Res} (f p : Nat)
    (h1 : p ≤ (elem p).p) (h : storage so env f (unitTy t) (elem p).v + M * p ≤ M * (elem p).p) (vs : List Val) :
    storage so env (f + 1) t (.list (pbFetch c t elem vs p).vs) + M * p ≤
      storage so env (f + 1) t (.list vs) + M + M * (pbFetch c t elem vs p).p := by
  unfold pbFetch
  generalize elem p = r at h1 h ⊢
  obtain ⟨s, v, p'⟩ := r
  have hM := Nat.mul_le_mul_left M h1
  dsimp only at h hM
  have := pbPush_pays (so := so) (env := env) (c := c) ht hm f v vs
  cases s <;> simp only <;> omega

theorem pbPacked_pays {w : List Val → Nat} {fetch : List Val → Nat → ResL} {endPos : Nat}
    (h : ∀ vs p, p ≤ len → p ≤ (fetch vs p).p ∧ (fetch vs p).p ≤ len ∧ w (fetch vs p).vs + M * p ≤ w vs + M * (fetch vs p).p) :
    ∀ f vs p, p ≤ len → w (pbPacked fetch endPos f vs p).vs + M * p ≤ w vs + M * (pbPacked fetch endPos f vs p).p := by
  intro f
  induction f with
  | zero => intro vs p _; exact Nat.le_refl _
  | succ f ih =>
    intro vs p hp
    unfold pbPacked
    split
    · obtain ⟨h1, h2, h3⟩ := h vs p hp
      generalize fetch vs p = r at h1 h2 h3 ⊢
      obtain ⟨s, v', p'⟩ := r
      cases s
      · have := ih v' p' h2; dsimp only at *; omega
      all_goals exact h3
    · exact Nat.le_refl _

theorem unsized_storage {t : Ty} (f : Nat) (v : Val) : storage so env f (unsizedTy t) v = storage so env f t v := by
  cases f with
  | zero => rfl
  | succ f => cases t <;> simp [unsizedTy] <;> cases v <;> rfl

theorem pbDecPacked_pays {c : Cfg} {rec : Ty → Val → Nat → Res} {t elemTy : Ty} {fix : Bool} {wt : Nat} {old : Val}
    {data : List UInt8} {p : Nat} (hp : p ≤ data.length) (hlim : c.g.limit ≤ M) (hsz : c.g.limit ≠ sizeMax)
    (ht : isBox t = true) (hm : elemsLe c.sizeof M t = true) (hn : isPacked (unitTy t) = true)
    (hfix : fix = true → elemTy = unitTy t)
    (he : Consumes data.length rec elemTy) (f : Nat)
    (hu : Pays M data.length (storage c.sizeof env (f + 1) (unsizedTy t)) (rec (unsizedTy t))) :
    storage c.sizeof env (f + 1) t (pbDecPacked c rec t elemTy fix wt old data p).v + M * p ≤
      storage c.sizeof env (f + 1) t old + M + M * (pbDecPacked c rec t elemTy fix wt old data p).p := by
  have hold := storage_elems_box (so := c.sizeof) (env := env) ht f old
  have hfetch : ∀ vs p, p ≤ data.length → storage c.sizeof env (f + 1) t (.list (pbFetch c t (rec elemTy .unit) vs p).vs) + M * p ≤
      storage c.sizeof env (f + 1) t (.list vs) + M + M * (pbFetch c t (rec elemTy .unit) vs p).p := by
    intro vs p hp
    have := (he .unit p hp).1.mono
    refine pbFetch_pays ht hm f p this ?_ vs
    rw [storage_num hn]
    have := Nat.mul_le_mul_left M this
    omega
  unfold pbDecPacked
  simp only
  split
  · have := hfetch old.elems p hp
    simp only [ResL.toRes]
    omega
  · have h1 := decHdr_safe (c := c) .varint hp
    have h2 := fun n p1 => decHdr_pays (c := c) (sz := .varint) (n := n) (p1 := p1) hp
    generalize decHdr c .varint data p = r at h1 h2
    obtain ⟨s, n, p1⟩ := r
    have hM := Nat.mul_le_mul_left M h1.mono
    cases s <;> simp only <;> try (dsimp only at hM; omega)
    dsimp only at hM
    split
    · next hf =>
      simp only [Bool.and_eq_true] at hf
      split
      · dsimp only; omega
      · next hl =>
        split
        · dsimp only; omega
        · obtain ⟨h3, h4, h5⟩ := hu (.list (resizeVals old.elems (n / c.sizeof elemTy) (.num 0))) p1 h1.inb
          rw [unsized_storage, unsized_storage] at h5
          have hs : storage c.sizeof env (f + 1) t (.list (resizeVals old.elems (n / c.sizeof elemTy) (.num 0))) ≤ M := by
            have hel := hfix hf.2
            cases t <;> simp [hasResize] at hf
            case seq k sz e =>
            simp only [unitTy] at hel hn
            subst hel
            simp only [storage]
            rw [map_sum_zero fun v _ => storage_num hn f v, resizeVals_length]
            split
            · have := Nat.div_mul_le_self n (c.sizeof elemTy); omega
            · omega
          omega
    · split
      · dsimp only; omega
      · have := pbPacked_pays (M := M) (len := data.length) (w := fun vs => storage c.sizeof env (f + 1) t (.list vs))
          (fetch := pbFetch c t (rec elemTy .unit)) (endPos := wrap (n + p1)) ?_ (data.length + 1) old.elems p1 h1.inb
        · simp only [ResL.toRes]; omega
        · intro vs q hq
          obtain ⟨c1, c2⟩ := he .unit q hq
          obtain ⟨f1, f2, f3⟩ := pbFetch_safe (c := c) (t := t) (vs := vs) c1
          refine ⟨f1.mono, f1.inb, ?_⟩
          by_cases hok : (rec elemTy .unit q).s = .ok
          · have h3 := c2 hok
            have hpush := pbPush_pays (so := c.sizeof) (env := env) (c := c) ht hm f (rec elemTy .unit q).v vs
            rw [storage_num hn] at hpush
            have h4 : M * q + M ≤ M * (rec elemTy .unit q).p := by
              have := Nat.mul_le_mul_left M (Nat.succ_le_of_lt h3)
              rw [Nat.mul_succ] at this
              exact this
            unfold pbFetch
            generalize rec elemTy .unit q = r at *
            obtain ⟨s, v, p'⟩ := r
            dsimp only at hok
            subst hok
            dsimp only at *
            omega
          · have h4 := Nat.mul_le_mul_left M c1.mono
            unfold pbFetch
            generalize rec elemTy .unit q = r at *
            obtain ⟨s, v, p'⟩ := r
            dsimp only at hok h4
            cases s <;> first | exact absurd rfl hok | (dsimp only; omega)

theorem storage_entryTy (f : Nat) (t : Ty) (v : Val) : storage so env f (pbEntryTy t) v = storage so env f t v := by
  cases f with
  | zero => rfl
  | succ f =>
    cases t with
    | scalar k n => cases k <;> simp [pbEntryTy, storage]
    | _ => rfl

theorem storage_entry (f : Nat) (key m : Ty) (v : Val) :
    storage so env f (.struct false [key, m]) v = storage so env f (pbEntry key m) v := by
  cases f with
  | zero => rfl
  | succ f =>
    have : ∀ vs, storages so env f [key, m] vs = storages so env f [pbEntryTy key, pbEntryTy m] vs := by
      intro vs
      simp only [storages_cons, storages_nil, storage_entryTy]
    cases v <;> first | exact this _ | rfl

theorem elemsLe_entry {key m : Ty} (hk : elemsLe so M key = true) (hm : elemsLe so M m = true) :
    elemsLe so M (pbEntry key m) = true := by
  have : ∀ t, elemsLe so M t = true → elemsLe so M (pbEntryTy t) = true := by
    intro t ht
    cases t with
    | scalar k n => cases k <;> simp [pbEntryTy, elemsLe]
    | _ => exact ht
  simp [pbEntry, elemsLe, elemsLeL, this _ hk, this _ hm]

theorem elemsLe_unsized {t : Ty} (h : elemsLe so M t = true) : elemsLe so M (unsizedTy t) = true := by
  cases t <;> exact h

/-- A member of a container type. -/
theorem pbElem_pays {c : Cfg} {rec : Ty → Val → Nat → Res} {fresh : Ty → Val} {t e : Ty} {wt : Nat} {old : Val}
    {data : List UInt8} {p : Nat} (hp : p ≤ data.length) (hlim : c.g.limit ≤ M) (hsz : c.g.limit ≠ sizeMax)
    (hw : widthsOk t = true) (hwe : widthsOk e = true) (hm : elemsLe c.sizeof M t = true) (hme : elemsLe c.sizeof M e = true)
    (hcl : pbInClass t = pbElemClass e) (ht : isBox t = true) (hun : unitTy t = e)
    (hfresh : ∀ f t, storage c.sizeof env f t (fresh t) = 0)
    (hr : ∀ f t, widthsOk t = true → elemsLe c.sizeof M t = true → Pays M data.length (storage c.sizeof env f t) (rec t))
    (hc : ∀ t, widthsOk t = true → isPacked t = true → Consumes data.length rec t) (f : Nat) :
    storage c.sizeof env (f + 1) t (pbDecField c rec fresh t wt old data p).v + M * p ≤
      storage c.sizeof env (f + 1) t old + M + M * (pbDecField c rec fresh t wt old data p).p := by
  unfold pbDecField
  rw [hcl]
  have hu := hr (f + 1) (unsizedTy t) (widthsOk_unsized hw) (elemsLe_unsized hm)
  have hrep : storage c.sizeof env (f + 1) t (pbFetch c t (rec e (fresh e)) old.elems p).toRes.v + M * p ≤
      storage c.sizeof env (f + 1) t old + M + M * (pbFetch c t (rec e (fresh e)) old.elems p).toRes.p := by
    have h1 := storage_elems_box (so := c.sizeof) (env := env) ht f old
    obtain ⟨h2, h3, h4⟩ := hr f e hwe hme (fresh e) p hp
    have := pbFetch_pays (env := env) (c := c) ht hm f p h2 (by rw [hun]; rw [hfresh] at h4; omega) old.elems
    simp only [ResL.toRes]
    omega
  cases e with
  | scalar k n =>
    cases k <;> simp only [pbElemClass]
    case enum =>
      exact pbDecPacked_pays hp hlim hsz ht hm (by rw [hun]; rfl) (by simp)
        (hc (.varint n false) (widthsOk_varint hwe (.inl rfl)) rfl) f hu
    all_goals exact pbDecPacked_pays hp hlim hsz ht hm (by rw [hun]; rfl) (fun _ => hun.symm) (hc _ hwe rfl) f hu
  | bool => exact pbDecPacked_pays hp hlim hsz ht hm (by rw [hun]; rfl) (fun _ => hun.symm) (hc _ rfl rfl) f hu
  | varint n zz => exact pbDecPacked_pays hp hlim hsz ht hm (by rw [hun]; rfl) (by simp) (hc _ hwe rfl) f hu
  | _ => exact hrep

theorem pbDecField_pays {c : Cfg} {rec : Ty → Val → Nat → Res} {fresh : Ty → Val} {t : Ty} {wt : Nat} {old : Val}
    {data : List UInt8} {p : Nat} (hp : p ≤ data.length) (hlim : c.g.limit ≤ M) (hsz : c.g.limit ≠ sizeMax)
    (hw : widthsOk t = true) (hm : elemsLe c.sizeof M t = true)
    (hs : ∀ t v p, widthsOk t = true → p ≤ data.length → InStep data.length p (rec t v p).s (rec t v p).p)
    (hfresh : ∀ f t, storage c.sizeof env f t (fresh t) = 0)
    (hr : ∀ f t, widthsOk t = true → elemsLe c.sizeof M t = true → Pays M data.length (storage c.sizeof env f t) (rec t))
    (hc : ∀ t, widthsOk t = true → isPacked t = true → Consumes data.length rec t) (f : Nat) :
    storage c.sizeof env (f + 1) t (pbDecField c rec fresh t wt old data p).v + M * p ≤
      storage c.sizeof env (f + 1) t old + M + M * (pbDecField c rec fresh t wt old data p).p := by
  have hsingle : storage c.sizeof env (f + 1) t (rec t old p).v + M * p ≤
      storage c.sizeof env (f + 1) t old + M + M * (rec t old p).p := by
    have := (hr (f + 1) t hw hm old p hp).2.2
    omega
  have hnum : isPacked t = true → storage c.sizeof env (f + 1) t (pbDecField c rec fresh t wt old data p).v + M * p ≤
      storage c.sizeof env (f + 1) t old + M + M * (pbDecField c rec fresh t wt old data p).p := by
    intro hn
    rw [storage_num hn, storage_num hn]
    have := (pbDecField_safe (c := c) (fresh := fresh) (wt := wt) (old := old) hp hw
      (fun t v p hw hp => ?_) hc (rec := rec) (t := t)).mono
    · have := Nat.mul_le_mul_left M this; omega
    · exact hs t v p hw hp
  cases t with
  | scalar k n => exact hnum rfl
  | seq k sz e =>
    simp only [elemsLe, Bool.and_eq_true] at hm
    exact pbElem_pays (e := e) hp hlim hsz hw hw (by simp [elemsLe, hm]) hm.2 rfl rfl rfl hfresh hr hc f
  | assoc mu ha sz key m =>
    cases m with
    | none => exact pbElem_pays (e := key) hp hlim hsz hw hw hm hm rfl rfl rfl hfresh hr hc f
    | some m =>
      have hm' := hm
      simp only [widthsOk, elemsLe, Bool.and_eq_true] at hw hm'
      have h1 := storage_elems_box (so := c.sizeof) (env := env) (t := .assoc mu ha sz key (some m)) rfl f old
      obtain ⟨h2, h3, h4⟩ := hr f (pbEntry key m) (widthsOk_entry hw.1 hw.2) (elemsLe_entry hm'.1 hm'.2) (fresh (pbEntry key m)) p hp
      have := pbFetch_pays (env := env) (c := c) (t := .assoc mu ha sz key (some m)) rfl hm f p h2
        (by simp only [unitTy]; rw [storage_entry]; rw [hfresh] at h4; omega) old.elems
      simp only [pbDecField, pbInClass, ResL.toRes]
      omega
  | _ => exact hsingle

theorem pbDispatch_pays {field : Ty → Nat → Val → Nat → Res} {maps : List (Nat × Nat)} {num wt : Nat} {f : Nat} :
    ∀ (fs : List Ty) (nums : List (Option Nat)) (i : Nat) (os : List Val) (p : Nat),
    (∀ t ∈ fs, ∀ wt v p, p ≤ len → storage so env f t (field t wt v p).v + M * p ≤
      storage so env f t v + M + M * (field t wt v p).p) → p ≤ len →
    storages so env f fs (pbDispatch field maps num wt i nums fs os p).vs + M * p ≤
      storages so env f fs os + M + M * (pbDispatch field maps num wt i nums fs os p).p := by
  intro fs
  induction fs with
  | nil =>
    intro nums i os p _ hp
    cases nums <;> unfold pbDispatch <;> split <;> simp only [storages_nil] <;> omega
  | cons t ts ih =>
    intro nums i os p h hp
    cases nums with
    | nil => unfold pbDispatch; split <;> dsimp only <;> omega
    | cons n ns =>
      unfold pbDispatch
      split
      · have := h t (by simp) wt (os.headD .unit) p hp
        simp only [storages_cons, List.headD_cons, List.tail_cons]
        omega
      · have := ih ns (i + 1) os.tail p (fun t' ht => h t' (by simp [ht])) hp
        simp only [storages_cons, List.headD_cons, List.tail_cons]
        omega

theorem pbLoop_pays {data : List UInt8} {field : Ty → Nat → Val → Nat → Res} {maps : List (Nat × Nat)}
    {nums : List (Option Nat)} {fs : List Ty} {f : Nat}
    (hs : ∀ t ∈ fs, ∀ wt v p, p ≤ data.length → InStep data.length p (field t wt v p).s (field t wt v p).p)
    (h : ∀ t ∈ fs, ∀ wt v p, p ≤ data.length → storage so env f t (field t wt v p).v + M * p ≤
      storage so env f t v + M + M * (field t wt v p).p) :
    ∀ g vs p, p ≤ data.length → storages so env f fs (pbLoop field maps nums fs data g vs p).vs + M * p ≤
      storages so env f fs vs + M * (pbLoop field maps nums fs data g vs p).p := by
  intro g
  induction g with
  | zero => intro vs p _; exact Nat.le_refl _
  | succ g ih =>
    intro vs p hp
    unfold pbLoop
    split
    · have h1 := getVarint_safe (n := 4) (by decide) false (.num 0) hp
      generalize getVarint 4 false (.num 0) data p = r at *
      obtain ⟨s, v, p1⟩ := r
      have hM := Nat.mul_le_mul_left M h1.1.mono
      cases s
      · have h2 := Nat.mul_le_mul_left M (Nat.succ_le_of_lt (h1.2 rfl))
        rw [Nat.mul_succ] at h2
        have h3 := h1.1
        cases v
        case num tag =>
          dsimp only at h2 h3 ⊢
          have h4 := pbDispatch_safe (maps := maps) (num := tag >>> 3) (wt := tag &&& 7) fs nums 0 vs p1 hs h3.inb
          have h5 := pbDispatch_pays (maps := maps) (num := tag >>> 3) (wt := tag &&& 7) fs nums 0 vs p1 h h3.inb
          generalize pbDispatch field maps (tag >>> 3) (tag &&& 7) 0 nums fs vs p1 = q at *
          obtain ⟨s, vs', p2⟩ := q
          cases s
          · have := ih vs' p2 h4.inb; dsimp only at *; omega
          all_goals dsimp only at *; omega
        all_goals dsimp only at *; omega
      all_goals dsimp only at *; omega
    · exact Nat.le_refl _

theorem pbClear_le (f : Nat) : ∀ (fs : List Ty) (os : List Val), storages so env f fs (pbClear fs os) ≤ storages so env f fs os := by
  intro fs
  induction fs with
  | nil => intro os; simp [storages_nil]
  | cons t ts ih =>
    intro os
    have := ih os.tail
    rw [storages_cons, storages_cons]
    simp only [pbClear, List.headD_cons, List.tail_cons]
    have hh : ∀ v, storage so env f t v ≤ storage so env f t (os.headD .unit) →
        storage so env f t v + storages so env f ts (pbClear ts os.tail) ≤
          storage so env f t (os.headD .unit) + storages so env f ts os.tail := by intro v hv; omega
    apply hh
    cases f with
    | zero => simp [storage]
    | succ f =>
      cases t with
      | seq k sz e => simp [storage]
      | assoc mu ha sz key m => cases m <;> simp [storage]
      | empty => simp [storage]
      | _ => exact Nat.le_refl _

theorem msgRun_pays {c' : Cfg} {rec : Ty → Val → List UInt8 → Nat → Res} {fresh : Ty → Val} {maps : List (Nat × Nat)}
    {nums : List (Option Nat)} {fs : List Ty} {old : Val} {data : List UInt8} (size p : Nat) (hp : p ≤ data.length)
    (hlim : c'.g.limit ≤ M) (hsz : c'.g.limit ≠ sizeMax)
    (hw : ∀ t ∈ fs, widthsOk t = true) (hm : ∀ t ∈ fs, elemsLe c'.sizeof M t = true)
    (hs : ∀ t v sub p, widthsOk t = true → p ≤ sub.length → InStep sub.length p (rec t v sub p).s (rec t v sub p).p)
    (hfresh : ∀ f t, storage c'.sizeof env f t (fresh t) = 0)
    (hr : ∀ f t, widthsOk t = true → elemsLe c'.sizeof M t = true → ∀ sub : List UInt8,
      Pays M sub.length (storage c'.sizeof env f t) (fun v p => rec t v sub p))
    (hc : ∀ t, widthsOk t = true → isPacked t = true → ∀ sub : List UInt8, Consumes sub.length (fun t v p => rec t v sub p) t)
    (f : Nat) (sz : Option SizeTy) (ok : Bool) (maps' : List (Nat × Nat)) (nums' : List (Option Nat)) :
    storage c'.sizeof env (f + 1) (.msg sz ok maps' nums' fs) (msgRun c' rec fresh maps nums fs old data size p).v + M * p ≤
      storage c'.sizeof env (f + 1) (.msg sz ok maps' nums' fs) old + M * (msgRun c' rec fresh maps nums fs old data size p).p := by
  unfold msgRun
  rw [if_neg (by omega)]
  have h1 := storage_elems_msg (so := c'.sizeof) (env := env) f sz ok maps' nums' fs old
  have h2 := pbClear_le (so := c'.sizeof) (env := env) f fs old.elems
  have h3 := pbLoop_pays (so := c'.sizeof) (env := env) (M := M) (data := msgSub data p size) (maps := maps) (nums := nums) (fs := fs)
    (field := fun t wt v q => pbDecField c' (fun t v q => rec t v (msgSub data p size) q) fresh t wt v (msgSub data p size) q) (f := f)
    (fun t ht wt v q hq => pbDecField_safe hq (hw t ht) (fun t v q hw hq => hs t v _ q hw hq) (fun t hw hn => hc t hw hn _))
    (fun t ht wt v q hq => by
      cases f with
      | zero =>
        have := (pbDecField_safe (c := c') (rec := fun t v q => rec t v (msgSub data p size) q) (fresh := fresh) (wt := wt) (old := v)
          hq (hw t ht) (fun t v q hw hq => hs t v _ q hw hq) (fun t hw hn => hc t hw hn _)).mono
        have := Nat.mul_le_mul_left M this
        simp only [storage]
        omega
      | succ f =>
        exact pbDecField_pays hq hlim hsz (hw t ht) (hm t ht) (fun t v q hw hq => hs t v _ q hw hq) hfresh
          (fun f t hw hm => hr f t hw hm _) (fun t hw hn => hc t hw hn _) f)
    ((msgSub data p size).length + 1) (pbClear fs old.elems) 0 (by omega)
  simp only [storages_msg, Nat.mul_add]
  omega

/-! ## Reading any object -/

theorem seqBody_storage {c : Cfg} {k k' : SeqKind} {sz : Option SizeTy} {t : Ty} {rec : Val → Nat → Res} {data : List UInt8} {f : Nat}
    (h : Pays M data.length (storage so env f t) rec) (olds : List Val) (p : Nat) (hp : p ≤ data.length) :
    storage so env (f + 1) (.seq k' sz t) (seqBody c k t rec olds data p).v + M * p ≤
      storage so env (f + 1) (.seq k' sz t) (.list olds) + M * (seqBody c k t rec olds data p).p := by
  obtain ⟨vs, hv, hl, hs⟩ := seqBody_pays (c := c) (k := k) (M := M) f h olds p hp
  rw [hv]
  simp only [storage, hl]
  omega

theorem unrepAll_storage {e : Endian} {so' : Ty → Nat} (f : Nat) (sz : Option SizeTy) (t : Ty) (n : Nat) (bs : List UInt8) :
    storage so env (f + 1) (.seq .view sz t) (.list (unrepAll e so' t n bs)) = 0 := by
  simp only [storage, unrepAll, reduceCtorEq, or_self, if_false]
  rw [map_sum_zero fun v hv => by obtain ⟨b, rfl⟩ := chunks_mem hv; exact storage_unrep f t b]

theorem seqUnsized_pays {c : Cfg} {k : SeqKind} {sz : Option SizeTy} {t : Ty} {rec : Val → Nat → Res} {data : List UInt8} {f : Nat}
    (h : Pays M data.length (storage so env f t) rec) (old : Val) (p : Nat) (hp : p ≤ data.length) :
    storage so env (f + 1) (.seq k sz t) (seqUnsized c k t rec old data p).v + M * p ≤
      storage so env (f + 1) (.seq k sz t) old + M * (seqUnsized c k t rec old data p).p := by
  have hold := storage_elems_box (so := so) (env := env) (t := .seq k sz t) rfl f old
  have hb : ∀ k', storage so env (f + 1) (.seq k sz t) (seqBody c k' t rec old.elems data p).v + M * p ≤
      storage so env (f + 1) (.seq k sz t) old + M * (seqBody c k' t rec old.elems data p).p := fun k' =>
    Nat.le_trans (seqBody_storage (c := c) h (k := k') old.elems p hp) (by omega)
  unfold seqUnsized
  cases k with
  | view =>
    dsimp only
    split
    · exact Nat.le_refl _
    · rw [unrepAll_storage]
      have := Nat.mul_le_mul_left M hp
      dsimp only; omega
  | _ => exact hb _

theorem seqFill_pays {c : Cfg} {k : SeqKind} {sz : Option SizeTy} {t : Ty} {rec : Val → Nat → Res} {data : List UInt8} {f : Nat}
    (hso : c.sizeof = so) (hlim : c.g.limit ≤ M) (hsz : c.g.limit ≠ sizeMax)
    (h : Pays M data.length (storage so env f t) rec) (dv old : Val) (hdv : storage so env f t dv = 0) (n p : Nat)
    (hp : p ≤ data.length) :
    storage so env (f + 1) (.seq k sz t) (seqFill c k t rec dv old data n p).v + M * p ≤
      storage so env (f + 1) (.seq k sz t) old + (if n = 0 then 0 else M) + M * (seqFill c k t rec dv old data n p).p := by
  have hold := storage_elems_box (so := so) (env := env) (t := .seq k sz t) rfl f old
  unfold seqFill
  have hsame : storage so env (f + 1) (.seq k sz t) old + M * p ≤
      storage so env (f + 1) (.seq k sz t) old + (if n = 0 then 0 else M) + M * p := by omega
  have hresize : storage so env (f + 1) (.seq k sz t) (.list (resizeVals old.elems n dv)) ≤ storage so env (f + 1) (.seq k sz t) old +
      n * so t := by
    have h1 : ((resizeVals old.elems n dv).map (storage so env f t)).sum ≤ storage so env (f + 1) (.seq k sz t) (.list old.elems) := by
      refine Nat.le_trans (sum_resize_le _ _ hdv) ?_
      simp only [storage]; omega
    have h2 : storage so env (f + 1) (.seq k sz t) (.list (resizeVals old.elems n dv)) ≤
        n * so t + ((resizeVals old.elems n dv).map (storage so env f t)).sum := by
      simp only [storage, resizeVals_length]
      split <;> omega
    omega
  have hbig : ∀ k', storage so env (f + 1) (.seq k sz t)
      (if c.g.limit ≠ sizeMax ∧ c.g.limit / c.sizeof t < n then (⟨.err .messageSize, old, p⟩ : Res)
        else if c.g.maxMem < n * c.sizeof t then ⟨.badAlloc, old, p⟩
        else seqBody c k' t rec (resizeVals old.elems n dv) data p).v + M * p ≤
      storage so env (f + 1) (.seq k sz t) old + (if n = 0 then 0 else M) + M *
      (if c.g.limit ≠ sizeMax ∧ c.g.limit / c.sizeof t < n then (⟨.err .messageSize, old, p⟩ : Res)
        else if c.g.maxMem < n * c.sizeof t then ⟨.badAlloc, old, p⟩
        else seqBody c k' t rec (resizeVals old.elems n dv) data p).p := by
    intro k'
    split
    · exact hsame
    · next hn =>
      split
      · exact hsame
      · have h1 := seqBody_storage (c := c) (k := k') (k' := k) (sz := sz) h (resizeVals old.elems n dv) p hp
        have h2 : n ≤ c.g.limit / so t := by rw [← hso]; omega
        have h3 : n * so t ≤ M :=
          Nat.le_trans (Nat.mul_le_mul_right _ h2) (Nat.le_trans (Nat.div_mul_le_self _ _) hlim)
        split
        · next h0 =>
          subst h0
          rw [Nat.zero_mul] at hresize
          omega
        · omega
  cases k with
  | view =>
    dsimp only
    split
    · exact hsame
    · split
      · rw [unrepAll_storage]
        rw [Nat.mul_add]
        omega
      · exact hsame
  | span =>
    dsimp only
    split
    · exact hsame
    · have h1 := seqBody_storage (c := c) (k := .span) (k' := .span) (sz := sz) h (old.elems.take n) p hp
      have h2 := sum_take_le (storage so env f t) old.elems n
      simp only [storage, reduceCtorEq, or_self, if_false, Nat.zero_add] at h1 hold ⊢
      omega
  | vector => exact hbig _
  | list => exact hbig _

theorem decAlt_pays {rec : Val → Nat → Res} {idTy : Ty} {ids : List Val} {dcs : List Bool} {alts : List Ty} {i : Nat} {t : Ty}
    (ht : alts[i]? = some t) (f : Nat) (h : Pays M len (storage so env f t) rec) (dc : Bool) (dv old : Val)
    (hdv : storage so env f t dv = 0) (p : Nat) (hp : p ≤ len) :
    storage so env (f + 1) (.variant idTy ids dcs alts) (decAlt rec dc i dv old p).v + M * p ≤
      storage so env (f + 1) (.variant idTy ids dcs alts) old + M * (decAlt rec dc i dv old p).p := by
  have hnew : ∀ v, storage so env (f + 1) (.variant idTy ids dcs alts) (.alt i v) = storage so env f t v := by
    intro v; simp only [storage, ht]
  unfold decAlt
  split
  · dsimp only
    rw [hnew]
    have hcur : ∀ cur, storage so env f t cur ≤ storage so env (f + 1) (.variant idTy ids dcs alts) old →
        storage so env f t (rec cur p).v + M * p ≤
          storage so env (f + 1) (.variant idTy ids dcs alts) old + M * (rec cur p).p := by
      intro cur hc
      have := (h cur p hp).2.2
      omega
    apply hcur
    cases old with
    | alt j v =>
      dsimp only
      split
      · next hj => subst hj; rw [hnew]; exact Nat.le_refl _
      · omega
    | _ => dsimp only; omega
  · obtain ⟨h1, h2, h3⟩ := h dv p hp
    generalize rec dv p = r at h1 h2 h3 ⊢
    obtain ⟨s, v, p'⟩ := r
    have hM := Nat.mul_le_mul_left M h1
    cases s <;> dsimp only at * <;> try omega
    rw [hnew]; omega

/-- Reading any object from any position of any input. -/
theorem decode_pays {M : Nat} {so : Ty → Nat} {env : Nat → Ty} : ∀ (d : Nat) (c : Cfg) (t : Ty) (data : List UInt8) (f : Nat),
    c.sizeof = so → c.env = env → c.g.limit ≤ M → c.g.limit ≠ sizeMax →
    (∀ i, widthsOk (env i) = true) → (∀ i, elemsLe so M (env i) = true) → widthsOk t = true → elemsLe so M t = true →
    Pays M data.length (storage so env f t) (fun v p => decode d c t v data p) := by
  intro d
  induction d with
  | zero => intro c t data f _ _ _ _ _ _ _ _ v p hp; exact ⟨Nat.le_refl _, hp, Nat.le_refl _⟩
  | succ d ih =>
    intro c t data f hso henv hlim hsz hwe hme hw hm old p hp
    have hstep := decode_safe (d + 1) c t old data p (by rw [henv]; exact hwe) hw hp
    refine ⟨hstep.mono, hstep.inb, ?_⟩
    have hM := Nat.mul_le_mul_left M hstep.mono
    clear hstep
    have hrec := fun t f hw hm => ih c t data f hso henv hlim hsz hwe hme hw hm
    have hdf : ∀ f t, storage so env f t (dflt c d t) = 0 := fun f t => storage_dflt henv.symm d f t
    cases f with
    | zero => simp only [storage]; omega
    | succ f =>
    dsimp only
    cases t with
    | scalar k n => rw [storage_num rfl]; omega
    | bool => rw [storage_num rfl]; omega
    | varint n zz => rw [storage_num rfl]; omega
    | empty => simp only [storage] at *; omega
    | bitset n => simp only [storage] at *; omega
    | struct ok fs =>
      simp only [decode]
      split
      · have := decRep_pays (so := so) (env := env) (M := M) (c := c) (t := .struct ok fs) (f + 1) 1 [old] data p hp
        have hl := decRep_length (c := c) (t := .struct ok fs) (olds := [old]) (data := data) (p := p) (n := 1) rfl
        generalize decRep c (.struct ok fs) 1 [old] data p = r at this hl
        obtain ⟨s, vs, p'⟩ := r
        match vs, hl with
        | [v], _ => simpa using this
      · have := decFields_pays (M := M) (len := data.length) (w := storage so env f) (storage_unit f)
          (rec := fun t v p => decode d c t v data p) fs old.elems p
          (fun t ht => hrec t f (widthsOkL_mem hw t ht) (elemsLeL_mem hm t ht)) hp
        have h2 := storage_elems_struct (so := so) (env := env) f ok fs old
        simp only [ResL.toRes, storages_struct]
        simp only [storages] at *
        omega
    | array n t =>
      have hold : ((resizeVals old.elems n .unit).map (storage so env f t)).sum ≤ storage so env (f + 1) (.array n t) old := by
        refine Nat.le_trans (sum_resize_le _ _ (storage_unit f t)) ?_
        cases old <;> simp [Val.elems, storage]
      simp only [decode]
      split
      · have := decRep_pays (so := so) (env := env) (M := M) (c := c) (t := t) f n (resizeVals old.elems n .unit) data p hp
        simp only [ResL.toRes, storage]
        simp only [storage] at hold
        omega
      · have := decAll_pays (hrec t f hw hm) (resizeVals old.elems n .unit) p hp
        simp only [ResL.toRes, storage]
        simp only [storage] at hold
        omega
    | seq k sz t =>
      clear hM
      simp only [elemsLe, Bool.and_eq_true, decide_eq_true_eq] at hm
      have hr := hrec t f hw hm.2
      simp only [decode]
      split
      · exact seqUnsized_pays hr old p hp
      · have h2 := fun n p1 => decHdr_pays (c := c) (sz := effSz c sz) (n := n) (p1 := p1) hp
        have h1 := decHdr_safe (c := c) (effSz c sz) hp
        generalize decHdr c (effSz c sz) data p = r at h1 h2 ⊢
        obtain ⟨s, n, p1⟩ := r
        have hM := Nat.mul_le_mul_left M h1.mono
        cases s <;> dsimp only at * <;> try omega
        have h3 := seqFill_pays (sz := sz) (k := k) hso hlim hsz hr (dflt c d t) old (hdf f t) n p1 h1.inb
        rcases (h2 n p1 rfl).1 with h | h
        · have := Nat.mul_le_mul_left M h
          rw [Nat.mul_add, Nat.mul_one] at this
          split at h3 <;> omega
        · rw [if_pos h] at h3
          omega
    | assoc mu ha sz key m =>
      clear hM
      simp only [decode]
      have h1 := decHdr_safe (c := c) (effSz c sz) hp
      generalize decHdr c (effSz c sz) data p = r at h1 ⊢
      obtain ⟨s, n, p1⟩ := r
      have hM := Nat.mul_le_mul_left M h1.mono
      cases s <;> dsimp only at * <;> try omega
      cases m with
      | none =>
        have := decAssoc_pays (M := M) (w := storage so env f key) (len := data.length)
          (sum_assocInsert (storage so env f key) (c.keyLt key) mu ha false)
          (elem := fun p => decode d c key (dflt c d key) data p)
          (fun p hp => by
            obtain ⟨h1, h2, h3⟩ := hrec key f hw hm (dflt c d key) p hp
            rw [hdf] at h3
            exact ⟨h1, h2, by dsimp only at h3; omega⟩) n [] p1 h1.inb
        simp only [ResL.toRes, storage, Option.isSome_none, List.map_nil, List.sum_nil, Nat.zero_add] at this ⊢
        omega
      | some m =>
        simp only [widthsOk, elemsLe, Bool.and_eq_true] at hw hm
        have hpay : Pays M data.length (storage so env f (.struct false [key, m])) (fun v p => (decFields (fun t v p => decode d c t v data p) [key, m] v.elems p).toRes) := by
          intro v p hp
          have hs := decFields_safe (len := data.length) (rec := fun t v p => decode d c t v data p) [key, m] v.elems p
            (fun t ht v p hp => decode_safe d c t v data p (by rw [henv]; exact hwe) (by
              simp only [List.mem_cons, List.not_mem_nil, or_false] at ht
              rcases ht with rfl | rfl
              · exact hw.1
              · exact hw.2) hp) hp
          refine ⟨hs.mono, hs.inb, ?_⟩
          cases f with
          | zero =>
            have := Nat.mul_le_mul_left M hs.mono
            simp only [storage, ResL.toRes]; omega
          | succ f =>
            have := decFields_pays (M := M) (len := data.length) (w := storage so env f) (storage_unit f)
              (rec := fun t v p => decode d c t v data p) [key, m] v.elems p
              (fun t ht => by
                simp only [List.mem_cons, List.not_mem_nil, or_false] at ht
                rcases ht with rfl | rfl
                · exact hrec _ f hw.1 hm.1
                · exact hrec _ f hw.2 hm.2) hp
            have h2 := storage_elems_struct (so := so) (env := env) f false [key, m] v
            simp only [ResL.toRes, storages_struct]
            simp only [storages] at *
            omega
        have := decAssoc_pays (M := M) (w := storage so env f (.struct false [key, m])) (len := data.length)
          (sum_assocInsert (storage so env f (.struct false [key, m])) (c.keyLt key) mu ha true)
          (elem := fun p => (decFields (fun t v p => decode d c t v data p) [key, m] [dflt c d key, dflt c d m] p).toRes)
          (fun p hp => by
            obtain ⟨h1, h2, h3⟩ := hpay (.list [dflt c d key, dflt c d m]) p hp
            have h0 : storage so env f (.struct false [key, m]) (.list [dflt c d key, dflt c d m]) = 0 := by
              cases f with
              | zero => rfl
              | succ f => rw [storages_struct, storages_cons, storages_cons, storages_nil]; simp [hdf]
            rw [h0] at h3
            exact ⟨h1, h2, by simp only [Val.elems] at h3 ⊢; omega⟩) n [] p1 h1.inb
        simp only [ResL.toRes, storage, Option.isSome_some, List.map_nil, List.sum_nil, Nat.zero_add] at this ⊢
        omega
    | optional dc t =>
      clear hM
      have hnew : ∀ v, storage so env (f + 1) (.optional dc t) (.some v) = storage so env f t v := fun v => by simp only [storage]
      simp only [decode]
      have h1 := (getBytes_safe 1 hp).1
      generalize getBytes data p 1 = r at h1 ⊢
      obtain ⟨s, bs, p1⟩ := r
      have hM := Nat.mul_le_mul_left M h1.mono
      cases s <;> dsimp only at * <;> try omega
      split
      · simp only [storage]; omega
      · split
        · dsimp only
          rw [hnew]
          have hcur : ∀ cur, storage so env f t cur ≤ storage so env (f + 1) (.optional dc t) old →
              storage so env f t (decode d c t cur data p1).v + M * p ≤
                storage so env (f + 1) (.optional dc t) old + M * (decode d c t cur data p1).p := by
            intro cur hc
            have := (hrec t f hw hm cur p1 h1.inb).2.2
            dsimp only at this
            omega
          apply hcur
          cases old with
          | some v => dsimp only; rw [hnew]; exact Nat.le_refl _
          | _ => dsimp only; rw [hdf]; omega
        · obtain ⟨h2, h3, h4⟩ := hrec t f hw hm (dflt c d t) p1 h1.inb
          rw [hdf] at h4
          dsimp only at h2 h3 h4
          generalize decode d c t (dflt c d t) data p1 = r at h2 h3 h4 ⊢
          obtain ⟨s, v, p2⟩ := r
          have hM2 := Nat.mul_le_mul_left M h2
          cases s <;> dsimp only at * <;> try omega
          rw [hnew]; omega
    | optPtr t =>
      clear hM
      have hnew : ∀ v, storage so env (f + 1) (.optPtr t) (.some v) = storage so env f t v := fun v => by simp only [storage]
      simp only [decode]
      have h1 := (getBytes_safe 1 hp).1
      generalize getBytes data p 1 = r at h1 ⊢
      obtain ⟨s, bs, p1⟩ := r
      have hM := Nat.mul_le_mul_left M h1.mono
      cases s <;> dsimp only at * <;> try omega
      split
      · simp only [storage]; omega
      · obtain ⟨h2, h3, h4⟩ := hrec t f hw hm (dflt c d t) p1 h1.inb
        rw [hdf] at h4
        dsimp only at h2 h3 h4
        generalize decode d c t (dflt c d t) data p1 = r at h2 h3 h4 ⊢
        obtain ⟨s, v, p2⟩ := r
        have hM2 := Nat.mul_le_mul_left M h2
        cases s <;> dsimp only at * <;> try omega
        rw [hnew]; omega
    | uptr t =>
      clear hM
      have hnew : ∀ v, storage so env (f + 1) (.uptr t) (.some v) = storage so env f t v := fun v => by simp only [storage]
      simp only [decode]
      obtain ⟨h2, h3, h4⟩ := hrec t f hw hm (dflt c d t) p hp
      rw [hdf] at h4
      dsimp only at h2 h3 h4
      generalize decode d c t (dflt c d t) data p = r at h2 h3 h4 ⊢
      obtain ⟨s, v, p2⟩ := r
      have hM2 := Nat.mul_le_mul_left M h2
      cases s <;> dsimp only at * <;> try omega
      rw [hnew]; omega
    | variant idTy ids dcs alts =>
      clear hM
      simp only [widthsOk, elemsLe, Bool.and_eq_true] at hw hm
      simp only [decode]
      obtain ⟨h2, h3, h4⟩ := hrec idTy f hw.1 hm.1 (dflt c d idTy) p hp
      clear h4
      dsimp only at h2 h3
      generalize decode d c idTy (dflt c d idTy) data p = r at h2 h3 ⊢
      obtain ⟨s, id, p1⟩ := r
      have hM2 := Nat.mul_le_mul_left M h2
      cases s <;> dsimp only at * <;> try omega
      split
      · dsimp only; omega
      · split
        · next i _ _ _ t' dc ht _ =>
          have := decAlt_pays (idTy := idTy) (ids := ids) (dcs := dcs) ht f
            (hrec t' f (widthsOkL_mem hw.2 t' (List.mem_of_getElem? ht)) (elemsLeL_mem hm.2 t' (List.mem_of_getElem? ht)))
            dc (dflt c d t') old (hdf f t') p1 h3
          omega
        · dsimp only; omega
    | msg sz ok maps nums fs =>
      clear hM
      have hrun : ∀ size p, p ≤ data.length →
          storage so env (f + 1) (.msg sz ok maps nums fs)
            (msgRun (pbCfg c) (decode d (pbCfg c)) (dflt (pbCfg c) d) maps nums fs old data size p).v + M * p ≤
          storage so env (f + 1) (.msg sz ok maps nums fs) old +
            M * (msgRun (pbCfg c) (decode d (pbCfg c)) (dflt (pbCfg c) d) maps nums fs old data size p).p := by
        intro size p hp
        subst hso henv
        exact msgRun_pays (c' := pbCfg c) size p hp hlim hsz (widthsOkL_mem hw) (elemsLeL_mem hm)
          (fun t v sub p hw hp => decode_safe d (pbCfg c) t v sub p hwe hw hp)
          (fun f t => storage_dflt (c := pbCfg c) rfl d f t)
          (fun f t hw hm sub => ih (pbCfg c) t sub f rfl rfl hlim hsz hwe hme hw hm)
          (fun t hw hn sub => numDec_safe (d := d) hw hn) f sz ok maps nums
      simp only [decode]
      split
      · exact hrun _ _ hp
      · have h1 := decHdr_safe (c := c) (effSz c sz) hp
        generalize decHdr c (effSz c sz) data p = r at h1 ⊢
        obtain ⟨s, n, p1⟩ := r
        have hM := Nat.mul_le_mul_left M h1.mono
        cases s <;> dsimp only at * <;> try omega
        have := hrun n p1 h1.inb
        omega
    | ref i =>
      have := (hrec (env i) f (hwe i) (hme i) old p hp).2.2
      simp only [decode, storage]
      rw [henv]
      exact this

/-- Reading several objects. -/
theorem decMany_pays {M : Nat} {d : Nat} {c : Cfg} {data : List UInt8} (hlim : c.g.limit ≤ M) (hsz : c.g.limit ≠ sizeMax)
    (henv : ∀ i, widthsOk (c.env i) = true) (hme : ∀ i, elemsLe c.sizeof M (c.env i) = true) (f : Nat) :
    ∀ (items : List (Ty × Val)) (p : Nat), (∀ it ∈ items, widthsOk it.1 = true) → (∀ it ∈ items, elemsLe c.sizeof M it.1 = true) →
    p ≤ data.length →
    storages c.sizeof c.env f (items.map Prod.fst) (decMany d c data items p).vs + M * p ≤
      storages c.sizeof c.env f (items.map Prod.fst) (items.map Prod.snd) + M * (decMany d c data items p).p := by
  intro items
  induction items with
  | nil => intro p _ _ _; exact Nat.le_refl _
  | cons it rest ih =>
    intro p hw hm hp
    obtain ⟨t, o⟩ := it
    obtain ⟨h1, h2, h3⟩ := decode_pays d c t data f rfl rfl hlim hsz henv hme (hw (t, o) (by simp)) (hm (t, o) (by simp)) o p hp
    simp only [decMany]
    dsimp only at h1 h2 h3
    generalize decode d c t o data p = r at h1 h2 h3 ⊢
    obtain ⟨s, v, p1⟩ := r
    dsimp only at h1 h2 h3
    have hM := Nat.mul_le_mul_left M h1
    cases s <;> simp only [List.map_cons, storages_cons, List.headD_cons, List.tail_cons]
    case ok =>
      have := ih p1 (fun it h => hw it (by simp [h])) (fun it h => hm it (by simp [h])) h2
      omega
    all_goals omega

end Zpp
