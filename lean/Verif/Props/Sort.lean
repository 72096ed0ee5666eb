import Verif.Props.RoundTrip2
import Verif.Proof.Sort
/-!
# Encodings sort like objects
-/

namespace Zpp.Props
open Zpp Zpp.Spec

theorem less_irrefl (a : List UInt8) : ¬ a < a := List.lt_irrefl a

theorem wireItems_zip {f : Fmt} : ∀ (ts : List Ty) (vs : List Val), vs.length = ts.length →
    wireItems f (ts.zip vs) = wireFields f ts vs
  | [], [], _ => rfl
  | [], _ :: _, h => by simp at h
  | _ :: _, [], h => by simp at h
  | t :: ts, v :: vs, h => by
    simp only [List.zip_cons_cons, wireItems, wireFields]
    rw [wireItems_zip ts vs (by simpa using h)]

/-- C100. Objects of the same types, written one list after the other into two empty buffers with big endian byte order: the bytes are in
lexicographic order exactly if the objects are. -/
theorem C100_sorted (d d' : Nat) (c : Cfg) (noFit : Bool) (ts : List Ty) (vs ws : List Val) (a b : OutSt) (as bs : List UInt8)
    (hbig : (fmtOf c).order = .big) (hts : sortsAll ts = true) (henv : ∀ i, sorts (c.env i) = true)
    (hv : vs.length = ts.length) (hw : ws.length = ts.length)
    (hsv : Supported c (ts.zip vs)) (hsw : Supported c (ts.zip ws)) (hdv : StackOk d (ts.zip vs)) (hdw : StackOk d' (ts.zip ws))
    (hwv : wireItems (fmtOf c) (ts.zip vs) = some as) (hww : wireItems (fmtOf c) (ts.zip ws) = some bs)
    (hla : as.length < 2 ^ 63) (hlb : bs.length < 2 ^ 63)
    (ha : outCall d c noFit (ts.zip vs) ⟨[], 0⟩ = (.ok, a)) (hb : outCall d' c noFit (ts.zip ws) ⟨[], 0⟩ = (.ok, b)) :
    a.data.take a.pos < b.data.take b.pos ↔ BeforeAll c.env ts vs ws := by
  obtain ⟨h1, k, h2⟩ := C04_growing_appends d c noFit _ ⟨[], 0⟩ a as (by simp) (by simp) hsv hdv (.inr (by simp)) hwv hla ha
  obtain ⟨h3, k', h4⟩ := C04_growing_appends d' c noFit _ ⟨[], 0⟩ b bs (by simp) (by simp) hsw hdw (.inr (by simp)) hww hlb hb
  have e1 : a.data.take a.pos = as := by rw [h1, h2]; simp
  have e2 : b.data.take b.pos = bs := by rw [h3, h4]; simp
  rw [e1, e2]
  rw [wireItems_zip _ _ hv] at hwv
  rw [wireItems_zip _ _ hw] at hww
  have he : ∀ i, sorts ((fmtOf c).env i) = true := henv
  constructor
  · intro h
    rcases beforeAll_total ts vs ws as bs hwv hww
      (fun t v w x y ht _ => before_total he _ t v w x y (Nat.le_refl _) (sortsAll_mem hts t ht)) with rfl | h' | h'
    · rw [hwv] at hww
      cases hww
      exact (less_irrefl _ h).elim
    · exact h'
    · exact (less_irrefl _ (List.lt_trans h (beforeAll_less hbig he h' hts hww hwv).lt)).elim
  · exact fun h => (beforeAll_less hbig he h hts hwv hww).lt

/-- C100. The order is total on objects that can be written: so two different objects are never taken for equal keys. -/
theorem C100_total (f : Fmt) (ts : List Ty) (vs ws : List Val) (as bs : List UInt8) (hts : sortsAll ts = true)
    (henv : ∀ i, sorts (f.env i) = true) (hwv : wireFields f ts vs = some as) (hww : wireFields f ts ws = some bs) :
    vs = ws ∨ BeforeAll f.env ts vs ws ∨ BeforeAll f.env ts ws vs :=
  beforeAll_total ts vs ws as bs hwv hww
    (fun t v w x y ht _ => before_total henv _ t v w x y (Nat.le_refl _) (sortsAll_mem hts t ht))

/-! ## The hypotheses are met -/

/-- A key: a department, maybe a room, and a number or a flag. -/
def keyTypes : List Ty :=
  [.scalar .int 2, .optional true (.array 2 (.scalar .int 1)),
    .variant (.scalar .byte 1) [.num 0, .num 1] [true, true] [.scalar .int 4, .bool]]

def keyA : List Val := [.num 0x0102, .some (.list [.num 1, .num 255]), .alt 0 (.num 7)]
def keyB : List Val := [.num 0x0102, .some (.list [.num 2, .num 0]), .alt 0 (.num 6)]

def bigArchive : Cfg := { Checks.le Checks.grow (.fixed 4) with aware := true }

example : sortsAll keyTypes = true := by decide

example : BeforeAll bigArchive.env keyTypes keyA keyB :=
  .later _ _ (.here _ _ _ (.optional _ (.array _ (.here _ _ _ (.scalar _ _ (by decide))))))

example :
    outCall 20 bigArchive false (keyTypes.zip keyA) ⟨[], 0⟩ = (.ok, ⟨[1, 2, 1, 1, 255, 0, 0, 0, 0, 7], 10⟩) ∧
    outCall 20 bigArchive false (keyTypes.zip keyB) ⟨[], 0⟩ = (.ok, ⟨[1, 2, 1, 2, 0, 0, 0, 0, 0, 6], 10⟩) := by decide +kernel

example : Supported bigArchive (keyTypes.zip keyA) ∧ StackOk 20 (keyTypes.zip keyA) ∧ (fmtOf bigArchive).order = .big ∧
    ∀ i, sorts (bigArchive.env i) = true := by
  refine ⟨⟨grow_ok, so_abi, fun _ => ⟨rfl, rfl⟩, ?_⟩, ?_, rfl, fun _ => rfl⟩
  · intro x hx
    simp only [keyTypes, keyA, List.zip_cons_cons, List.zip_nil_right, List.mem_cons, List.not_mem_nil, or_false] at hx
    rcases hx with rfl | rfl | rfl <;> decide
  · intro x hx
    simp only [keyTypes, keyA, List.zip_cons_cons, List.zip_nil_right, List.mem_cons, List.not_mem_nil, or_false] at hx
    rcases hx with rfl | rfl | rfl <;> decide

/-- C100: what does not sort. In little endian byte order 255 is behind 256; negative numbers are behind positive ones (-1 behind 1);
variable length integers (255 behind 256) and containers with a size prefix ("aa" behind "b"). -/
theorem C100_others :
    let bytes := fun (c : Cfg) (t : Ty) (v : Val) => (outCall 20 c false [(t, v)] ⟨[], 0⟩).2.data
    let str : Ty := .seq .vector none Checks.chr
    bytes (Checks.le Checks.grow (.fixed 4)) (.scalar .int 2) (.num 256) < bytes (Checks.le Checks.grow (.fixed 4)) (.scalar .int 2) (.num 255) ∧
    toSigned 16 65535 = -1 ∧ bytes bigArchive (.scalar .int 2) (.num 1) < bytes bigArchive (.scalar .int 2) (.num 65535) ∧
    bytes bigArchive (.varint 4 false) (.num 256) < bytes bigArchive (.varint 4 false) (.num 255) ∧
    bytes bigArchive str (.list [.num 98]) < bytes bigArchive str (.list [.num 97, .num 97]) := by decide +kernel

end Zpp.Props
