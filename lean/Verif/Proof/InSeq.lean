import Verif.Proof.InBytes
import Verif.Proof.InLimit
/-!
# Size prefixes, sequences and calls
-/

namespace Zpp
open Zpp.Spec

variable {d : Nat} {c : Cfg} {data : List UInt8}

/-- Reading a size prefix is reading an integer. -/
theorem decHdr_int {sz : SizeTy} (hsz : sz ≠ .none) {p n p1 : Nat} {o : Val}
    (h : decode (d + 1) c (sizeInt sz) o data p = ⟨.ok, .num n, p1⟩) : decHdr c sz data p = (.ok, n, p1) := by
  cases sz with
  | none => exact absurd rfl hsz
  | fixed k =>
    simp only [sizeInt, decode] at h
    simp only [decHdr]
    generalize getBytes data p k = r at h ⊢
    obtain ⟨s, bs, p'⟩ := r
    cases s <;> simp_all
  | varint =>
    simp only [sizeInt, decode, getVarint] at h
    simp only [decHdr, getVarint]
    split at h
    · cases h
    · next hp =>
      rw [if_neg hp]
      generalize readVarintRaw 8 (data.drop p) = r at h ⊢
      cases r <;> simp_all

/-- A failing size prefix fails the container. -/
theorem decHdr_fail {sz : SizeTy} (hsz : sz ≠ .none) {p : Nat} {o : Val}
    (h : (decode (d + 1) c (sizeInt sz) o data p).s ≠ .ok) :
    decHdr c sz data p = ((decode (d + 1) c (sizeInt sz) o data p).s, 0, (decode (d + 1) c (sizeInt sz) o data p).p) := by
  cases sz with
  | none => exact absurd rfl hsz
  | fixed k =>
    simp only [sizeInt, decode] at h ⊢
    simp only [decHdr]
    generalize getBytes data p k = r at h ⊢
    obtain ⟨s, bs, p'⟩ := r
    cases s <;> simp_all
  | varint =>
    simp only [sizeInt, decode, getVarint] at h ⊢
    simp only [decHdr, getVarint]
    split at h
    · simp_all
    · next hp =>
      simp only [if_neg hp] at h ⊢
      generalize readVarintRaw 8 (data.drop p) = r at h ⊢
      cases r <;> simp_all

/-- A sequence with a size prefix, after the prefix. -/
theorem decode_seq_int {k : SeqKind} {sz : Option SizeTy} {t : Ty} {old o : Val} {p n p1 : Nat} (hsz : sz.getD c.dsz ≠ .none)
    {d' : Nat} (h : decode (d' + 1) c (sizeInt (sz.getD c.dsz)) o data p = ⟨.ok, .num n, p1⟩) :
    decode (d + 1) c (.seq k sz t) old data p =
      seqFill c k t (fun v p => decode d c t v data p) (dflt c d t) old data n p1 := by
  have hh := decHdr_int hsz h
  have he : effSz c sz = sz.getD c.dsz := rfl
  rw [decode, he]
  generalize sz.getD c.dsz = s at *
  cases s with
  | none => exact absurd rfl hsz
  | fixed k => simp only [hh]
  | varint => simp only [hh]

theorem decFields_decMany {rec : Ty → Val → Nat → Res} (hr : ∀ t v p, rec t v p = decode d c t v data p) :
    ∀ (fs : List Ty) (os : List Val) (p : Nat), fs.length = os.length →
      decFields rec fs os p = decMany d c data (fs.zip os) p := by
  intro fs
  induction fs with
  | nil => intro os p h; cases os <;> simp_all [decFields, decMany]
  | cons t ts ih =>
    intro os p h
    cases os with
    | nil => simp at h
    | cons o os =>
      have hl : ts.length = os.length := by simpa using h
      simp only [decFields, List.zip_cons_cons, decMany, List.headD_cons, List.tail_cons, hr]
      generalize decode d c t o data p = r
      obtain ⟨s, v, p'⟩ := r
      cases s <;> simp [ih _ _ hl, List.map_snd_zip (Nat.le_of_eq hl.symm)]

theorem decAll_decMany {rec : Val → Nat → Res} {t : Ty} (hr : ∀ v p, rec v p = decode d c t v data p) :
    ∀ (os : List Val) (p : Nat), decAll rec os p = decMany d c data (os.map fun o => (t, o)) p := by
  intro os
  induction os with
  | nil => intro p; rfl
  | cons o os ih =>
    intro p
    simp only [decAll, List.map_cons, decMany, hr]
    generalize decode d c t o data p = r
    obtain ⟨s, v, p'⟩ := r
    cases s <;> simp [ih, List.map_map, Function.comp_def]

/-- Two readers that take the same bytes and make the same objects of them have the same observable effect. -/
theorem TakesL.same {r r' : Nat → ResL} {sz : Nat} {u u' : List UInt8 → List Val} (h : TakesL data r sz u)
    (h' : TakesL data r' sz u') (hu : ∀ bs, u bs = u' bs) {p : Nat} (hp : p ≤ data.length) :
    (r p).s = (r' p).s ∧ ((r p).s = .ok → r p = r' p) := by
  by_cases hf : p + sz ≤ data.length
  · rw [(h p hp).1 hf, (h' p hp).1 hf, hu]; exact ⟨rfl, fun _ => rfl⟩
  · have h1 := (h p hp).2 (by omega)
    have h2 := (h' p hp).2 (by omega)
    exact ⟨by rw [h1, h2], fun h => by rw [h1] at h; cases h⟩

/-- `decMany` at an index: the object was read by `decode`, or is the old one. -/
theorem decMany_get : ∀ (items : List (Ty × Val)) (p i : Nat) (t : Ty) (o v : Val), items[i]? = some (t, o) →
    (decMany d c data items p).vs[i]? = some v → v = o ∨ ∃ q, v = (decode d c t o data q).v := by
  intro items
  induction items with
  | nil => intro p i t o v h; simp at h
  | cons x items ih =>
    intro p i t o v hi hv
    obtain ⟨t', o'⟩ := x
    simp only [decMany] at hv
    generalize hr : decode d c t' o' data p = r at hv
    obtain ⟨s, w, p'⟩ := r
    cases i with
    | zero =>
      simp only [List.getElem?_cons_zero, Option.some.injEq, Prod.mk.injEq] at hi
      obtain ⟨rfl, rfl⟩ := hi
      refine Or.inr ⟨p, ?_⟩
      rw [hr]
      cases s <;> simpa using hv.symm
    | succ i =>
      simp only [List.getElem?_cons_succ] at hi
      cases s <;> simp only [List.getElem?_cons_succ] at hv
      case ok => exact ih _ _ _ _ _ hi hv
      all_goals
        rw [List.getElem?_map, hi] at hv
        exact Or.inl (by simpa using hv.symm)

theorem decMany_length : ∀ (items : List (Ty × Val)) (p : Nat), (decMany d c data items p).vs.length = items.length := by
  intro items
  induction items with
  | nil => intro p; rfl
  | cons x items ih =>
    intro p
    obtain ⟨t, o⟩ := x
    simp only [decMany]
    generalize decode d c t o data p = r
    obtain ⟨s, w, p'⟩ := r
    cases s <;> simp [ih]

end Zpp

namespace Zpp
open Zpp.Spec

/-- Bytes as objects. -/
theorem unrepAll_bytes (c : Cfg) {t : Ty} (ht : t = .scalar .byte 1 ∨ t = .scalar .chr 1) (hsz : c.sizeof t = 1) (bs : List UInt8) :
    unrepAll c.host c.sizeof t bs.length bs = bs.map fun b => .num b.toNat := by
  unfold unrepAll
  rw [hsz]
  induction bs with
  | nil => rfl
  | cons b bs ih =>
    simp only [List.length_cons, chunks, List.map_cons, List.take_succ_cons, List.take_zero, List.drop_succ_cons, List.drop_zero, ih]
    have : hostNat c.host [b] = b.toNat := by cases c.host <;> simp [hostNat, leNat]
    rcases ht with rfl | rfl <;> simp only [unrep, this]

theorem byteSerAll_mem {so : Ty → Nat} {ts : List Ty} (h : Ty.byteSerAll so ts = true) : ∀ t ∈ ts, t.byteSer so = true := by
  induction ts with
  | nil => simp
  | cons t ts ih =>
    simp only [Ty.byteSerAll, Bool.and_eq_true] at h
    intro t' ht
    rcases List.mem_cons.mp ht with rfl | ht
    · exact h.1
    · exact ih h.2 t' ht

theorem plainAll_mem {ts : List Ty} (h : plain.plainAll ts = true) : ∀ t ∈ ts, plain t = true := by
  induction ts with
  | nil => simp
  | cons t ts ih =>
    simp only [plain.plainAll, Bool.and_eq_true] at h
    intro t' ht
    rcases List.mem_cons.mp ht with rfl | ht
    · exact h.1
    · exact ih h.2 t' ht

end Zpp
