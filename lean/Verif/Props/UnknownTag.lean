import Verif.Proof.UnknownTag
import Verif.Props.Concat
/-! # C33: what exactly is skipped of an undeclared field -/

namespace Zpp.Props
open Zpp Zpp.Spec

/-- C33, what holds for any bytes: where a message (without size prefix) begins with the tag of an undeclared field,
with any wire type, reading it at the tag and reading it just behind the tag are the same: same outcome, same values, same position. Hence what
follows the tag - the payload of the undeclared field - is read as records, whatever it is.
Missing: the payload is not skipped (`C33_unknown_not_skipped`). (Packed lists, spans and ordered sets are excluded, `unreserved`: a length near
`2^64` wraps, at different lengths for different positions.) -/
theorem C33_tag_only_partial (d : Nat) (c : Cfg) (sz : Option SizeTy) (ok : Bool) (maps : List (Nat × Nat)) (nums : List (Option Nat))
    (fs : List Ty) (num wt : Nat) (old : Val) (a b : List UInt8) (hg : Good c (.msg sz ok maps nums fs) = true)
    (hsz : sz.getD c.dsz = .none) (ha : AbiOk c.sizeof) (hmem : c.g.maxMem < 2 ^ 63) (henv : ∀ i, widthsOk (c.env i) = true) (hw : ∀ t ∈ fs, widthsOk t = true)
    (hno : ∀ t ∈ fs, unreserved t = false) (hnum : num ∉ fieldNumbers maps 0 nums) (h0 : 0 < num) (h1 : num < 2 ^ 29) (h2 : wt < 8)
    (hlen : (a ++ leb (num * 8 + wt) ++ b).length < 2 ^ 63) :
    decMany (d + 1) c (a ++ leb (num * 8 + wt) ++ b) [(.msg sz ok maps nums fs, old)] a.length =
      decMany (d + 1) c (a ++ leb (num * 8 + wt) ++ b) [(.msg sz ok maps nums fs, old)] (a ++ leb (num * 8 + wt)).length := by
  simp only [Good, nodeOk, Bool.and_eq_true] at hg
  obtain ⟨⟨⟨⟨g1, g2⟩, g3⟩, g4⟩, g5⟩ := hg
  have e1 := decode_shift (pre := a) (data := leb (num * 8 + wt) ++ b) c (d + 1) (.msg sz ok maps nums fs) old 0
  have e2 := decode_shift (pre := a ++ leb (num * 8 + wt)) (data := b) c (d + 1) (.msg sz ok maps nums fs) old 0
  rw [msg_tag d c ha hmem henv hsz (by assumption) hw hno hnum h0 h1 h2 old b (by simp only [List.length_append] at hlen ⊢; omega)] at e1
  rw [Nat.add_zero a.length] at e1
  rw [Nat.add_zero (a ++ leb (num * 8 + wt)).length] at e2
  rw [List.append_assoc] at e2 ⊢
  have e3 : decode (d + 1) c (.msg sz ok maps nums fs) old (a ++ (leb (num * 8 + wt) ++ b)) a.length =
      decode (d + 1) c (.msg sz ok maps nums fs) old (a ++ (leb (num * 8 + wt) ++ b)) (a ++ leb (num * 8 + wt)).length := by
    rw [e1, e2]; simp [Res.shift, Nat.add_assoc]
  simp only [decMany, e3]

/-- The same between records: any records, then the tag of an undeclared field, then any bytes whatever, are read as the same bytes without the
tag. -/
theorem C33_tag_between_partial (d : Nat) (c : Cfg) (sz : Option SizeTy) (ok : Bool) (maps : List (Nat × Nat)) (nums : List (Option Nat))
    (fs : List Ty) (rs : List Rec) (num wt : Nat) (old : Val) (a b : List UInt8) (h : StreamAt c sz ok maps nums fs rs a 0 a.length)
    (hd : 2 * recDepthL rs ≤ d) (hsz : sz.getD c.dsz = .none) (hmem : c.g.maxMem < 2 ^ 63) (henv : ∀ i, widthsOk (c.env i) = true)
    (hw : ∀ t ∈ fs, widthsOk t = true) (hno : ∀ t ∈ fs, unreserved t = false) (hnum : num ∉ fieldNumbers maps 0 nums) (h0 : 0 < num)
    (h1 : num < 2 ^ 29) (h2 : wt < 8) (hlen : (a ++ leb (num * 8 + wt) ++ b).length < 2 ^ 63) :
    let r := decMany (d + 1) c (a ++ b) [(.msg sz ok maps nums fs, old)] 0
    decMany (d + 1) c (a ++ leb (num * 8 + wt) ++ b) [(.msg sz ok maps nums fs, old)] 0 =
      ⟨r.s, r.vs, r.p + (leb (num * 8 + wt)).length⟩ := by
  obtain ⟨pre, body, rest, h3, -, h5, h6, h7, -⟩ := h.bytes
  rw [hsz] at h5
  simp only [sizePrefix, Option.some.injEq] at h5
  have h8 := h7 hsz
  subst h5
  subst h8
  simp only [List.take_zero, List.nil_append, List.append_nil] at h3
  subst h3
  obtain ⟨r, e1, e2⟩ := msg_between d c h.abi h.env hmem henv hsz hw hno h.good h6 h.loadable hd hnum h0 h1 h2 old hlen
  dsimp only
  simp only [decMany, e1, e2]
  obtain ⟨s, v, p⟩ := r
  cases s <;> simp only [Res.shift, ResL.mk.injEq, true_and, List.length_append] <;> omega

/-- With a size prefix: the tag of an undeclared field at the beginning of a message of `n` more bytes is read as the message of these `n` bytes,
whatever they are and whatever comes behind. -/
theorem C33_tag_sized_partial (d : Nat) (c : Cfg) (sz : Option SizeTy) (ok : Bool) (maps : List (Nat × Nat)) (nums : List (Option Nat))
    (fs : List Ty) (num wt n : Nat) (old : Val) (b x y : List UInt8) (hg : Good c (.msg sz ok maps nums fs) = true)
    (hsz : sz.getD c.dsz ≠ .none) (ha : AbiOk c.sizeof) (hmem : c.g.maxMem < 2 ^ 63) (henv : ∀ i, widthsOk (c.env i) = true) (hw : ∀ t ∈ fs, widthsOk t = true)
    (hno : ∀ t ∈ fs, unreserved t = false) (hnum : num ∉ fieldNumbers maps 0 nums) (h0 : 0 < num) (h1 : num < 2 ^ 29) (h2 : wt < 8)
    (hlen : (leb (num * 8 + wt) ++ b).length < 2 ^ 63)
    (hx : sizePrefix (fmtOf c) (sz.getD c.dsz) ((leb (num * 8 + wt)).length + n) = some x)
    (hy : sizePrefix (fmtOf c) (sz.getD c.dsz) n = some y) :
    ∃ (s : Status) (vs : List Val) (k : Nat),
      decMany (d + 1) c (x ++ leb (num * 8 + wt) ++ b) [(.msg sz ok maps nums fs, old)] 0 = ⟨s, vs, x.length + (leb (num * 8 + wt)).length + k⟩ ∧
      decMany (d + 1) c (y ++ b) [(.msg sz ok maps nums fs, old)] 0 = ⟨s, vs, y.length + k⟩ := by
  simp only [Good, nodeOk, Bool.and_eq_true] at hg
  obtain ⟨⟨⟨⟨g1, g2⟩, g3⟩, g4⟩, g5⟩ := hg
  obtain ⟨r, e1, e2⟩ := msg_tag_sized d c ha hmem henv (ok := ok) hsz (by assumption) hw hno hnum h0 h1 h2 old b x y hlen hx hy
  obtain ⟨s, v, k⟩ := r
  refine ⟨s, [v], k, ?_, ?_⟩
  · simp only [decMany, e1, Res.shift]
    cases s <;> rfl
  · simp only [decMany, e2, Res.shift]
    cases s <;> rfl

/-- The hypotheses are met: a class with a varint and a vector of varints, the tag of field 3 of wire type 0, and any bytes. -/
example (b : List UInt8) (old : Val) (hb : b.length < 1000) :
    decMany 9 (Checks.le Checks.grow .none) (leb (3 * 8 + 0) ++ b) [(.msg none false [] [none, none] exList, old)] 0 =
      decMany 9 (Checks.le Checks.grow .none) (leb (3 * 8 + 0) ++ b) [(.msg none false [] [none, none] exList, old)] 1 := by
  have hl : (leb (3 * 8 + 0)).length = 1 := by decide +kernel
  have := C33_tag_only_partial 8 (Checks.le Checks.grow .none) none false [] [none, none] exList 3 0 old [] b
    (by decide +kernel) rfl so_abi (by decide +kernel) (fun _ => rfl) (by decide) (by decide) (by decide) (by decide) (by decide) (by decide)
    (by simp only [List.length_append, List.length_nil, hl]; omega)
  simpa [hl] using this

/-- Between records: field 1 = 4, then the tag of field 3, then any bytes. -/
example (b : List UInt8) (old : Val) (hb : b.length < 1000) :
    let r := decMany 9 (Checks.le Checks.grow .none) ([8, 4] ++ b) [(.msg none false [] [none, none] exList, old)] 0
    decMany 9 (Checks.le Checks.grow .none) ([8, 4] ++ leb (3 * 8 + 0) ++ b) [(.msg none false [] [none, none] exList, old)] 0 =
      ⟨r.s, r.vs, r.p + 1⟩ := by
  have hl : (leb (3 * 8 + 0)).length = 1 := by decide +kernel
  have hs : StreamAt (Checks.le Checks.grow .none) none false [] [none, none] exList
      [.field 0 (.num 4)] [8, 4] 0 2 := by
    refine ⟨so_abi, fun _ => ⟨rfl, rfl⟩, by decide +kernel, by decide, ?_, [], [8, 4], [], by decide, by decide,
      by decide +kernel, by decide +kernel, fun _ => rfl, by decide⟩
    simp only [RecsOk, RecOk, and_true, exList]
    intro t ht; simp at ht; subst ht; simp [Checks.vint32, LoadableRec, LoadablePbField]
  have := C33_tag_between_partial 8 (Checks.le Checks.grow .none) none false [] [none, none] exList _ 3 0 old [8, 4] b hs
    (by decide +kernel) rfl (by decide +kernel) (fun _ => rfl) (by decide) (by decide) (by decide) (by decide) (by decide) (by decide)
    (by simp only [List.length_append, List.length_cons, List.length_nil, hl]; omega)
  simpa [hl] using this

/-- With a varint size prefix: a message of one byte more, and any bytes behind. -/
example (b : List UInt8) (old : Val) (hb : b.length < 1000) : ∃ (s : Status) (vs : List Val) (k : Nat),
    decMany 9 (Checks.le Checks.grow .varint) ([6] ++ leb (3 * 8 + 0) ++ b)
      [(.msg none false [] [none, none] exList, old)] 0 = ⟨s, vs, 1 + (leb (3 * 8 + 0)).length + k⟩ ∧
    decMany 9 (Checks.le Checks.grow .varint) ([5] ++ b) [(.msg none false [] [none, none] exList, old)] 0 =
      ⟨s, vs, 1 + k⟩ :=
  C33_tag_sized_partial 8 (Checks.le Checks.grow .varint) none false [] [none, none] exList 3 0 5 old b [6] [5]
    (by decide +kernel) (by decide) so_abi (by decide +kernel) (fun _ => rfl) (by decide) (by decide) (by decide) (by decide) (by decide) (by decide)
    (by have hl : (leb (3 * 8 + 0)).length = 1 := by decide +kernel
        simp only [List.length_append, hl]; omega) (by decide +kernel) (by decide +kernel)

end Zpp.Props
