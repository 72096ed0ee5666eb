import Verif.Proof.Lifetime
import Verif.Spec.Lifetime
import Verif.Model.In
/-!
# Every run of the input archive is a run of the ownership model
-/

namespace Zpp
open Zpp.Spec

/-- The script gives these answers from question `k` on. -/
def Gives (s : Nat → Nat) : Nat → List Nat → Prop
  | _, [] => True
  | k, a :: l => s k = a ∧ Gives s (k + 1) l

theorem gives_append (s : Nat → Nat) : ∀ (l l' : List Nat) (k : Nat),
    Gives s k (l ++ l') ↔ Gives s k l ∧ Gives s (k + l.length) l'
  | [], l', k => by simp [Gives]
  | a :: l, l', k => by
    have := gives_append s l l' (k + 1)
    simp only [List.cons_append, Gives, this, List.length_cons, and_assoc]
    rw [show k + 1 + l.length = k + (l.length + 1) by omega]

/-- There are answers to the questions from `k` to `k'` for which `F` is `q`. -/
def Can {α : Type} (F : (Nat → Nat) → α) (k k' : Nat) (q : α) : Prop :=
  ∃ l : List Nat, k' = k + l.length ∧ ∀ s, Gives s k l → F s = q

theorem Can.ret {α : Type} {F : (Nat → Nat) → α} {k : Nat} {q : α} (h : ∀ s, F s = q) : Can F k k q :=
  ⟨[], rfl, fun s _ => h s⟩

theorem Can.ask {α : Type} {F G : (Nat → Nat) → α} {k k' : Nat} {q : α} (a : Nat) (h : ∀ s, s k = a → F s = G s)
    (g : Can G (k + 1) k' q) : Can F k k' q := by
  obtain ⟨l, e, hg⟩ := g
  exact ⟨a :: l, by simp only [List.length_cons]; omega, fun s hs => by rw [h s hs.1, hg s hs.2]⟩

theorem Can.next {α β : Type} {F : (Nat → Nat) → β} {H G : (Nat → Nat) → α} {k k1 k2 : Nat} {q1 : β} {q : α}
    (f : Can F k k1 q1) (h : ∀ s, F s = q1 → H s = G s) (g : Can G k1 k2 q) : Can H k k2 q := by
  obtain ⟨l, e, hf⟩ := f
  obtain ⟨l', e', hg⟩ := g
  refine ⟨l ++ l', by simp only [List.length_append]; omega, fun s hs => ?_⟩
  rw [gives_append] at hs
  rw [h s (hf s hs.1), hg s (by rw [e]; exact hs.2)]

theorem Can.map {α β : Type} {F : (Nat → Nat) → β} {H : (Nat → Nat) → α} {k k1 : Nat} {q1 : β} {q : α}
    (f : Can F k k1 q1) (h : ∀ s, F s = q1 → H s = q) : Can H k k1 q :=
  f.next (G := fun _ => q) h (Can.ret fun _ => rfl)

/-- A script with these answers. -/
theorem Can.some {α : Type} {F : (Nat → Nat) → α} {k k' : Nat} {q : α} (f : Can F k k' q) : ∃ s, F s = q := by
  obtain ⟨l, _, hf⟩ := f
  refine ⟨fun n => l.getD (n - k) 0, hf _ ?_⟩
  have : ∀ (l : List Nat) (m k : Nat) (s : Nat → Nat), (∀ i, s (m + i) = l.getD i 0) → Gives s m l := by
    intro l
    induction l with
    | nil => intro m k s _; exact trivial
    | cons a l ih =>
      intro m k s h
      refine ⟨by simpa using h 0, ih (m + 1) k s fun i => ?_⟩
      have := h (i + 1)
      rw [show m + 1 + i = m + (i + 1) by omega, this]
      simp
  exact this l k k _ fun i => by simp

/-- One tick later. -/
def Heap.tock (h : Heap) : Heap := { h with tick := h.tick + 1 }

theorem ask_eq {s : Nat → Nat} {h : Heap} {a : Nat} (e : s h.tick = a) : Zpp.ask s h = (a, h.tock) := by
  simp [Zpp.ask, e, Heap.tock]

/-- The answer for an outcome. -/
def codeOf : Status → Nat
  | .ok => 0
  | .err _ => 1
  | _ => 2

theorem attempt_eq {s : Nat → Nat} {h : Heap} {st : Status} {x : Exit} (g : leftBy st = some x)
    (e : s h.tick = codeOf st) : attempt s h = (x, h.tock) := by
  cases st with
  | ok =>
    simp only [leftBy, Option.some.injEq] at g; subst g
    unfold attempt; rw [ask_eq e]; rfl
  | err _ =>
    simp only [leftBy, Option.some.injEq] at g; subst g
    unfold attempt; rw [ask_eq e]; rfl
  | badAlloc =>
    simp only [leftBy, Option.some.injEq] at g; subst g
    unfold attempt; rw [ask_eq e]; rfl
  | _ => simp [leftBy] at g

theorem attempt_ok {s : Nat → Nat} {h : Heap} (e : s h.tick = 0) : attempt s h = (.ok, h.tock) :=
  attempt_eq (st := .ok) rfl e

/-- A run of the ownership model that ends like the reading with outcome `st`, in a state with `P`. -/
def SimO (F : (Nat → Nat) → RunO) (k : Nat) (st : Status) (P : OVal → Prop) : Prop :=
  ∀ x, leftBy st = some x → ∃ q : RunO, Can F k q.h.tick q ∧ q.x = x ∧ P q.v

/-- The same for several objects. -/
def SimL (F : (Nat → Nat) → RunL) (k : Nat) (st : Status) (P : List OVal → Prop) : Prop :=
  ∀ x, leftBy st = some x → ∃ q : RunL, Can F k q.h.tick q ∧ q.x = x ∧ P q.vs

theorem leftBy_ok {x : Exit} : leftBy .ok = some x ↔ x = .ok := by
  simp [leftBy, eq_comm]

theorem leftBy_ne {st : Status} {x : Exit} (h : leftBy st = some x) (n : st ≠ .ok) : x ≠ .ok := by
  cases st <;> simp_all [leftBy] <;> subst h <;> simp

theorem sim_attempt {st : Status} {o : OVal} {P : OVal → Prop} (h : Heap) (p : P o) {F : (Nat → Nat) → RunO}
    (e : ∀ s, F s = ⟨(attempt s h).1, o, (attempt s h).2⟩) : SimO F h.tick st P := by
  intro x g
  refine ⟨⟨x, o, h.tock⟩, ?_, rfl, p⟩
  refine Can.ask (G := fun _ => ⟨x, o, h.tock⟩) (codeOf st) (fun s hs => ?_) (Can.ret fun _ => rfl)
  rw [e s, attempt_eq g hs]

theorem kids_getD {o : OVal} (h : o.ids = []) (i : Nat) : (o.kids.getD i .leaf).ids = [] := by
  have key : ∀ (l : List OVal), idsAll l = [] → ∀ i, (l.getD i .leaf).ids = [] := by
    intro l
    induction l with
    | nil => intro _ i; simp [OVal.ids]
    | cons v vs ih =>
      intro h i
      simp only [idsAll, List.append_eq_nil_iff] at h
      cases i with
      | zero => simpa using h.1
      | succ i => simpa using ih h.2 i
  exact key _ (by rw [kids_ids, h]) i

theorem idsAll_nil {os : List OVal} (h : ∀ i, (os.getD i .leaf).ids = []) : idsAll os = [] := by
  induction os with
  | nil => rfl
  | cons v vs ih =>
    simp only [idsAll, List.append_eq_nil_iff]
    exact ⟨by simpa using h 0, ih fun i => by simpa using h (i + 1)⟩

theorem noneHeldAll_getD : ∀ {vs : List Val}, noneHeldAll vs = true → ∀ i, noneHeld (vs.getD i .unit) = true
  | [], _, i => by simp [noneHeld]
  | v :: vs, h, i => by
    simp only [noneHeldAll, Bool.and_eq_true] at h
    cases i with
    | zero => simpa using h.1
    | succ i => simpa using noneHeldAll_getD h.2 i

theorem noneHeldAll_of : ∀ {vs : List Val}, (∀ v ∈ vs, noneHeld v = true) → noneHeldAll vs = true
  | [], _ => rfl
  | v :: vs, h => by
    simp only [noneHeldAll, Bool.and_eq_true]
    exact ⟨h v (by simp), noneHeldAll_of fun x hx => h x (by simp [hx])⟩

theorem noneHeld_elems {v : Val} (h : noneHeld v = true) : noneHeldAll v.elems = true := by
  cases v with
  | list vs => simpa [noneHeld, Val.elems] using h
  | _ => rfl

/-- Members, each mirrored. -/
def MirF (env : Nat → Ty) (fs : List Ty) (vs : List Val) (os : List OVal) : Prop :=
  (∀ i t, fs[i]? = some t → Mirror env t (vs.getD i .unit) (os.getD i .leaf)) ∧
  (∀ i, fs.length ≤ i → (os.getD i .leaf).ids = [])

/-- Elements, each mirrored. -/
def MirE (env : Nat → Ty) (t : Ty) (n : Nat) (vs : List Val) (os : List OVal) : Prop :=
  ∀ i, i < n → Mirror env t (vs.getD i .unit) (os.getD i .leaf)

/-- No more owned after the first `n`. -/
def Rest (n : Nat) (os : List OVal) : Prop := ∀ i, n ≤ i → (os.getD i .leaf).ids = []

theorem getD_zero_headD {α : Type} (l : List α) (d : α) : l.getD 0 d = l.headD d := by cases l <;> rfl

theorem getD_succ_tail {α : Type} (l : List α) (i : Nat) (d : α) : l.getD (i + 1) d = l.tail.getD i d := by
  cases l <;> simp

theorem mirF_cons {env : Nat → Ty} {t : Ty} {ts : List Ty} {vs : List Val} {os : List OVal} :
    MirF env (t :: ts) vs os ↔ Mirror env t (vs.headD .unit) (os.headD .leaf) ∧ MirF env ts vs.tail os.tail := by
  constructor
  · intro ⟨h, r⟩
    refine ⟨?_, ?_, ?_⟩
    · have := h 0 t rfl
      rwa [getD_zero_headD, getD_zero_headD] at this
    · intro i u hu
      have := h (i + 1) u (by simpa using hu)
      rwa [getD_succ_tail, getD_succ_tail] at this
    · intro i hi
      have := r (i + 1) (by simp only [List.length_cons]; omega)
      rwa [getD_succ_tail] at this
  · intro ⟨h0, h, r⟩
    refine ⟨?_, ?_⟩
    · intro i u hu
      cases i with
      | zero =>
        simp only [List.getElem?_cons_zero, Option.some.injEq] at hu
        rw [getD_zero_headD, getD_zero_headD, ← hu]; exact h0
      | succ i => rw [getD_succ_tail, getD_succ_tail]; exact h i u (by simpa using hu)
    · intro i hi
      cases i with
      | zero => simp at hi
      | succ i => rw [getD_succ_tail]; exact r i (by simp only [List.length_cons] at hi; omega)

theorem mirE_cons {env : Nat → Ty} {t : Ty} {n : Nat} {vs : List Val} {os : List OVal} :
    MirE env t (n + 1) vs os ↔ Mirror env t (vs.headD .unit) (os.headD .leaf) ∧ MirE env t n vs.tail os.tail := by
  constructor
  · intro h
    refine ⟨?_, fun i hi => ?_⟩
    · have := h 0 (by omega)
      rwa [getD_zero_headD, getD_zero_headD] at this
    · have := h (i + 1) (by omega)
      rwa [getD_succ_tail, getD_succ_tail] at this
  · intro ⟨h0, h⟩ i hi
    cases i with
    | zero => rw [getD_zero_headD, getD_zero_headD]; exact h0
    | succ i => rw [getD_succ_tail, getD_succ_tail]; exact h i (by omega)

theorem mir_nothing {env : Nat → Ty} {v : Val} {o : OVal} (h : noneHeld v = true) (e : o.ids = []) (fs : List Ty) :
    MirF env fs v.elems o.kids :=
  ⟨fun i _ _ => .nothing (noneHeldAll_getD (noneHeld_elems h) i) (kids_getD e i), fun i _ => kids_getD e i⟩

theorem mir_struct {env : Nat → Ty} {ok : Bool} {fs : List Ty} {v : Val} {o : OVal} (h : Mirror env (.struct ok fs) v o) :
    MirF env fs v.elems o.kids := by
  cases h with
  | nothing a b => exact mir_nothing a b fs
  | struct a b => exact ⟨a, b⟩

theorem mir_msg {env : Nat → Ty} {sz : Option SizeTy} {ok : Bool} {maps : List (Nat × Nat)} {nums : List (Option Nat)}
    {fs : List Ty} {v : Val} {o : OVal} (h : Mirror env (.msg sz ok maps nums fs) v o) : MirF env fs v.elems o.kids := by
  cases h with
  | nothing a b => exact mir_nothing a b fs
  | msg a b => exact ⟨a, b⟩

theorem mir_array {env : Nat → Ty} {n : Nat} {t : Ty} {v : Val} {o : OVal} (h : Mirror env (.array n t) v o) :
    MirE env t n v.elems o.kids ∧ Rest n o.kids := by
  cases h with
  | nothing a b => exact ⟨fun i _ => .nothing (noneHeldAll_getD (noneHeld_elems a) i) (kids_getD b i), fun i _ => kids_getD b i⟩
  | array a b => exact ⟨a, b⟩

theorem mir_seq {env : Nat → Ty} {k : SeqKind} {sz : Option SizeTy} {t : Ty} {v : Val} {o : OVal} (hk : k ≠ .view)
    (h : Mirror env (.seq k sz t) v o) :
    MirE env t v.elems.length v.elems o.kids ∧ (∀ i, v.elems.length ≤ i → ∃ w, Mirror env t w (o.kids.getD i .leaf)) ∧
      (k ≠ .span → Rest v.elems.length o.kids) := by
  cases h with
  | nothing a b =>
    exact ⟨fun i _ => .nothing (noneHeldAll_getD (noneHeld_elems a) i) (kids_getD b i),
      fun i _ => ⟨.unit, .nothing rfl (kids_getD b i)⟩, fun _ i _ => kids_getD b i⟩
  | view b => exact absurd rfl hk
  | seq _ a w b => exact ⟨a, fun i hi => ⟨_, w i hi⟩, b⟩

/-- The other direction. -/
theorem seq_mir {env : Nat → Ty} {k : SeqKind} {sz : Option SizeTy} {t : Ty} {vs : List Val} {os : List OVal} (hk : k ≠ .view)
    (a : MirE env t vs.length vs os) (w : ∀ i, vs.length ≤ i → ∃ w, Mirror env t w (os.getD i .leaf))
    (b : k ≠ .span → Rest vs.length os) : Mirror env (.seq k sz t) (.list vs) (.node os) := by
  refine .seq (hidden := fun i => if h : vs.length ≤ i then (w i h).choose else .unit) hk a (fun i hi => ?_) b
  rw [dif_pos hi]
  exact (w i hi).choose_spec

theorem mir_view {env : Nat → Ty} {sz : Option SizeTy} {t : Ty} {v : Val} {o : OVal}
    (h : Mirror env (.seq .view sz t) v o) : o.ids = [] := by
  cases h with
  | nothing a b => exact b
  | view b => exact b
  | seq c _ _ _ => exact absurd rfl c

theorem mir_assoc {env : Nat → Ty} {multi hashed : Bool} {sz : Option SizeTy} {key : Ty} {mapped : Option Ty} {v : Val}
    {o : OVal} (h : Mirror env (.assoc multi hashed sz key mapped) v o) :
    MirE env (entryOf key mapped) v.elems.length v.elems o.kids ∧ Rest v.elems.length o.kids := by
  cases h with
  | nothing a b =>
    exact ⟨fun i _ => .nothing (noneHeldAll_getD (noneHeld_elems a) i) (kids_getD b i), fun i _ => kids_getD b i⟩
  | assoc a b => exact ⟨a, b⟩

theorem noneHeld_chunks (f : List UInt8 → Val) (hf : ∀ bs, noneHeld (f bs) = true) (sz : Nat) :
    ∀ n bs, noneHeldAll (chunks f sz n bs) = true
  | 0, _ => rfl
  | n + 1, bs => by
    simp only [chunks, noneHeldAll, Bool.and_eq_true]
    exact ⟨hf _, noneHeld_chunks f hf sz n _⟩

mutual
theorem noneHeld_unrep (e : Endian) (so : Ty → Nat) : ∀ t bs, noneHeld (unrep e so t bs) = true
  | .scalar _ _, bs => by simp [unrep, noneHeld]
  | .bool, bs => by simp [unrep, noneHeld]
  | .struct _ fs, bs => by simpa [unrep, noneHeld] using noneHeld_unrepFields e so fs bs
  | .msg _ _ _ _ fs, bs => by simpa [unrep, noneHeld] using noneHeld_unrepFields e so fs bs
  | .array n t, bs => by
    simpa [unrep, noneHeld] using noneHeld_chunks (unrep e so t) (noneHeld_unrep e so t) (so t) n bs
  | .varint _ _, bs => by simp [unrep, noneHeld]
  | .empty, bs => by simp [unrep, noneHeld]
  | .seq _ _ _, bs => by simp [unrep, noneHeld]
  | .assoc _ _ _ _ _, bs => by simp [unrep, noneHeld]
  | .optional _ _, bs => by simp [unrep, noneHeld]
  | .optPtr _, bs => by simp [unrep, noneHeld]
  | .uptr _, bs => by simp [unrep, noneHeld]
  | .variant _ _ _ _, bs => by simp [unrep, noneHeld]
  | .bitset _, bs => by simp [unrep, noneHeld]
  | .ref _, bs => by simp [unrep, noneHeld]
theorem noneHeld_unrepFields (e : Endian) (so : Ty → Nat) : ∀ fs bs, noneHeldAll (unrepFields e so fs bs) = true
  | [], _ => rfl
  | t :: ts, bs => by
    simp only [unrepFields, noneHeldAll, Bool.and_eq_true]
    exact ⟨noneHeld_unrep e so t _, noneHeld_unrepFields e so ts _⟩
end

theorem noneHeld_unrepAll (e : Endian) (so : Ty → Nat) (t : Ty) (n : Nat) (bs : List UInt8) :
    noneHeldAll (unrepAll e so t n bs) = true :=
  noneHeld_chunks _ (noneHeld_unrep e so t) _ n bs

theorem noneHeld_dflt (c : Cfg) : ∀ d t, noneHeld (dflt c d t) = true
  | 0, _ => rfl
  | d + 1, t => by
    have ih := noneHeld_dflt c d
    cases t with
    | struct ok fs =>
      simp only [dflt, noneHeld]
      exact noneHeldAll_of (by simp only [List.mem_map]; rintro v ⟨t, _, rfl⟩; exact ih t)
    | msg a b e f fs =>
      simp only [dflt, noneHeld]
      exact noneHeldAll_of (by simp only [List.mem_map]; rintro v ⟨t, _, rfl⟩; exact ih t)
    | array n t' =>
      simp only [dflt, noneHeld]
      exact noneHeldAll_of (by simp only [List.mem_replicate]; rintro v ⟨_, rfl⟩; exact ih t')
    | variant a b e alts => cases alts <;> simp [dflt, noneHeld, ih]
    | ref i => simpa [dflt] using ih (c.env i)
    | _ => simp [dflt, noneHeld, noneHeldAll]

theorem mir_dflt (c : Cfg) (env : Nat → Ty) (d : Nat) (t u : Ty) : Mirror env t (dflt c d u) .leaf :=
  .nothing (noneHeld_dflt c d u) rfl

theorem mir_byteSerAll_get {so : Ty → Nat} : ∀ {fs : List Ty}, Ty.byteSerAll so fs = true → ∀ (i : Nat) (t : Ty), fs[i]? = some t →
    Ty.byteSer so t = true
  | [], _, i, t, h => by simp at h
  | u :: us, h, i, t, e => by
    simp only [Ty.byteSerAll, Bool.and_eq_true] at h
    cases i with
    | zero => simp only [List.getElem?_cons_zero, Option.some.injEq] at e; rw [← e]; exact h.1
    | succ i => exact mir_byteSerAll_get h.2 i t (by simpa using e)

/-- Objects read by copying bytes own nothing. -/
theorem mir_bytes {env : Nat → Ty} {so : Ty → Nat} {t : Ty} {v : Val} {o : OVal} (h : Mirror env t v o)
    (hb : t.byteSer so = true ∨ t.endianIndep = true) : o.ids = [] := by
  induction h with
  | nothing a b => exact b
  | view b => exact b
  | @struct ok fs vs os a b ih =>
    rcases hb with hb | hb
    · simp only [Ty.byteSer, Bool.and_eq_true] at hb
      refine idsAll_nil fun i => ?_
      by_cases hi : fs.length ≤ i
      · exact b i hi
      · exact ih i fs[i] (List.getElem?_eq_getElem (by omega))
          (Or.inl (mir_byteSerAll_get hb.1.1.2 i _ (List.getElem?_eq_getElem (by omega))))
    · simp [Ty.endianIndep] at hb
  | @msg sz ok maps nums fs vs os a b ih =>
    rcases hb with hb | hb
    · simp only [Ty.byteSer, Bool.and_eq_true] at hb
      refine idsAll_nil fun i => ?_
      by_cases hi : fs.length ≤ i
      · exact b i hi
      · exact ih i fs[i] (List.getElem?_eq_getElem (by omega))
          (Or.inl (mir_byteSerAll_get hb.1.1.2 i _ (List.getElem?_eq_getElem (by omega))))
    · simp [Ty.endianIndep] at hb
  | @array n t vs os a b ih =>
    refine idsAll_nil fun i => ?_
    by_cases hi : n ≤ i
    · exact b i hi
    · exact ih i (by omega) (by simpa only [Ty.byteSer, Ty.endianIndep] using hb)
  | seq a b _ _ _ => rcases hb with hb | hb <;> simp [Ty.byteSer, Ty.endianIndep] at hb
  | assoc a b _ => rcases hb with hb | hb <;> simp [Ty.byteSer, Ty.endianIndep] at hb
  | optional a _ _ => rcases hb with hb | hb <;> simp [Ty.byteSer, Ty.endianIndep] at hb
  | optPtr a _ => rcases hb with hb | hb <;> simp [Ty.byteSer, Ty.endianIndep] at hb
  | uptr a _ => rcases hb with hb | hb <;> simp [Ty.byteSer, Ty.endianIndep] at hb
  | alt a b _ _ => rcases hb with hb | hb <;> simp [Ty.byteSer, Ty.endianIndep] at hb
  | ref a _ => rcases hb with hb | hb <;> simp [Ty.byteSer, Ty.endianIndep] at hb

theorem mir_asBytes {env : Nat → Ty} {c : Cfg} {t : Ty} {v : Val} {o : OVal} (h : Mirror env t v o)
    (hb : asBytes c t = true) : o.ids = [] := by
  refine mir_bytes (so := c.sizeof) h ?_
  simp only [asBytes, Bool.or_eq_true, Bool.and_eq_true] at hb
  rcases hb with hb | hb
  · exact Or.inr hb
  · exact Or.inl hb.2

/-- Reading one object, in both models. -/
def Sims (env : Nat → Ty) (t : Ty) (rec : Val → Nat → Res) (recO : (Nat → Nat) → OVal → Heap → RunO) : Prop :=
  ∀ v p o h, Mirror env t v o → SimO (fun s => recO s o h) h.tick (rec v p).s (Mirror env t (rec v p).v)

theorem sim_fields {env : Nat → Ty} {rec : Ty → Val → Nat → Res} {recO : (Nat → Nat) → Ty → OVal → Heap → RunO}
    (H : ∀ t, Sims env t (rec t) (fun s => recO s t)) : ∀ (fs : List Ty) (vs : List Val) (os : List OVal) (p : Nat) (h : Heap),
    MirF env fs vs os →
    SimL (fun s => readFields (recO s) fs os h) h.tick (decFields rec fs vs p).s (MirF env fs (decFields rec fs vs p).vs)
  | [], vs, os, p, h, m => by
    intro x g
    simp only [decFields] at g ⊢
    rw [leftBy_ok] at g
    exact ⟨⟨.ok, os, h⟩, Can.ret fun s => by simp [readFields], g.symm, by simp, by simpa using m.2⟩
  | t :: ts, vs, os, p, h, m => by
    rw [mirF_cons] at m
    intro x g
    have h1 := H t (vs.headD .unit) p (os.headD .leaf) h m.1
    simp only [decFields] at g ⊢
    generalize rec t (vs.headD .unit) p = r at h1 g ⊢
    obtain ⟨st, v, p'⟩ := r
    cases st with
    | ok =>
      dsimp only at h1 g ⊢
      obtain ⟨⟨x1, o1, h1'⟩, c1, e1, m1⟩ := h1 .ok rfl
      dsimp only at e1; subst e1
      obtain ⟨q2, c2, e2, m2⟩ := sim_fields H ts vs.tail os.tail p' h1' m.2 x g
      refine ⟨⟨q2.x, o1 :: q2.vs, q2.h⟩, ?_, e2, mirF_cons.mpr ⟨m1, m2⟩⟩
      refine c1.next (fun s hs => ?_) (c2.map fun s hs => ?_)
        (G := fun s => ⟨(readFields (recO s) ts os.tail h1').x, o1 :: (readFields (recO s) ts os.tail h1').vs,
          (readFields (recO s) ts os.tail h1').h⟩)
      · simp only [readFields, hs]
      · simp only [hs]
    | _ =>
      dsimp only at h1 g ⊢
      obtain ⟨⟨x1, o1, h1'⟩, c1, e1, m1⟩ := h1 x g
      refine ⟨⟨x1, o1 :: os.tail, h1'⟩, ?_, e1, mirF_cons.mpr ⟨m1, m.2⟩⟩
      have n1 := leftBy_ne g (by simp)
      dsimp only at e1; subst e1
      refine c1.map fun s hs => ?_
      simp only [readFields, hs]

theorem sim_elems {env : Nat → Ty} {t : Ty} {rec : Val → Nat → Res} {recO : (Nat → Nat) → OVal → Heap → RunO}
    (H : Sims env t rec recO) : ∀ (vs : List Val) (os : List OVal) (p : Nat) (h : Heap),
    MirE env t vs.length vs os →
    (decAll rec vs p).vs.length = vs.length ∧
    SimL (fun s => readElems (recO s) vs.length os h) h.tick (decAll rec vs p).s
      (fun os' => MirE env t vs.length (decAll rec vs p).vs os' ∧ ∀ i, vs.length ≤ i → os'.getD i .leaf = os.getD i .leaf)
  | [], os, p, h, m => by
    refine ⟨rfl, fun x g => ?_⟩
    simp only [decAll] at g ⊢
    rw [leftBy_ok] at g
    exact ⟨⟨.ok, os, h⟩, Can.ret fun s => by simp [readElems], g.symm, fun i hi => absurd hi (by simp), fun i _ => rfl⟩
  | v :: vs, os, p, h, m => by
    rw [List.length_cons, mirE_cons] at m
    simp only [List.headD_cons, List.tail_cons] at m
    have h1 := H v p (os.headD .leaf) h m.1
    simp only [decAll]
    generalize rec v p = r at h1 ⊢
    obtain ⟨st, v', p'⟩ := r
    have later : ∀ {o1 : OVal} {l : List OVal} {n : Nat}, (∀ i, n ≤ i → l.getD i .leaf = os.tail.getD i .leaf) →
        ∀ i, n + 1 ≤ i → (o1 :: l).getD i .leaf = os.getD i .leaf := by
      intro o1 l n hl i hi
      cases i with
      | zero => omega
      | succ i =>
        rw [getD_succ_tail, getD_succ_tail os]
        exact hl i (by omega)
    cases st with
    | ok =>
      dsimp only at h1 ⊢
      obtain ⟨⟨x1, o1, h1'⟩, c1, e1, m1⟩ := h1 .ok rfl
      dsimp only at e1; subst e1
      obtain ⟨len, ih⟩ := sim_elems H vs os.tail p' h1' m.2
      refine ⟨by simp [len], fun x g => ?_⟩
      obtain ⟨q2, c2, e2, m2, r2⟩ := ih x g
      refine ⟨⟨q2.x, o1 :: q2.vs, q2.h⟩, ?_, e2, ?_, later r2⟩
      · refine c1.next (fun s hs => ?_) (c2.map fun s hs => ?_)
          (G := fun s => ⟨(readElems (recO s) vs.length os.tail h1').x, o1 :: (readElems (recO s) vs.length os.tail h1').vs,
            (readElems (recO s) vs.length os.tail h1').h⟩)
        · simp only [List.length_cons, readElems, hs]
        · simp only [hs]
      · rw [List.length_cons, mirE_cons]
        exact ⟨m1, m2⟩
    | _ =>
      refine ⟨by simp, fun x g => ?_⟩
      dsimp only at h1 g ⊢
      obtain ⟨⟨x1, o1, h1'⟩, c1, e1, m1⟩ := h1 x g
      have n1 := leftBy_ne g (by simp)
      dsimp only at e1; subst e1
      refine ⟨⟨x1, o1 :: os.tail, h1'⟩, ?_, rfl, ?_, later fun i _ => rfl⟩
      · refine c1.map fun s hs => ?_
        simp only [List.length_cons, readElems, hs]
      · rw [List.length_cons, mirE_cons]
        exact ⟨m1, m.2⟩

end Zpp
