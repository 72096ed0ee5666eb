import Verif.Props.RoundTrip
import Verif.Proof.Reread3
/-!
# What was read can be written again

The input is arbitrary here: nobody needs to have written it with this library.
-/

namespace Zpp.Props
open Zpp Zpp.Spec

/-- C63. Whatever bytes a read accepts, the objects it gives can be written again: they have an encoding (unless a `bool`
was read from a byte other than 0 and 1), and it is not longer than what was consumed. -/
theorem C63_rewritable (d : Nat) (c : Cfg) (data : List UInt8) (ds : List (Ty × Val)) (p q : Nat) (vs : List Val)
    (hc : Delimited c (ds.map Prod.fst)) (hp : p ≤ data.length) (h : decMany d c data ds p = ⟨.ok, vs, q⟩)
    (hb : ∀ x ∈ (ds.map Prod.fst).zip vs, Bools c.env x.1 x.2) :
    ∃ bs, wireItems (fmtOf c) ((ds.map Prod.fst).zip vs) = some bs ∧ p + bs.length ≤ q ∧ q ≤ data.length := by
  obtain ⟨_, _, h3, h4, h5, _⟩ := decMany_again ds hc p q vs hp h
  obtain ⟨bs, hbs⟩ := h5 hb
  have := (h4 bs hbs).1
  exact ⟨bs, hbs, by omega, h3⟩

/-- C63. The encoding is a normal form of the accepted bytes: reading it, anywhere in an input and into any destinations,
succeeds (allocation limits included), consumes all of it and gives the same objects. -/
theorem C63_normal (d d' : Nat) (c : Cfg) (data : List UInt8) (ds ds' : List (Ty × Val)) (p q : Nat) (vs : List Val)
    (pre bs rest : List UInt8)
    (hc : Delimited c (ds.map Prod.fst)) (hp : p ≤ data.length) (h : decMany d c data ds p = ⟨.ok, vs, q⟩)
    (hw : wireItems (fmtOf c) ((ds.map Prod.fst).zip vs) = some bs)
    (hlen : (pre ++ bs ++ rest).length < 2 ^ 64) (hd : StackOk d' ((ds.map Prod.fst).zip vs))
    (hds : ds'.map Prod.fst = ds.map Prod.fst) :
    decMany d' c (pre ++ bs ++ rest) ds' pre.length = ⟨.ok, vs, pre.length + bs.length⟩ := by
  obtain ⟨h1, _, _, _, _, h6⟩ := decMany_again ds hc p q vs hp h
  have hl : (ds.map Prod.fst).length = vs.length := by simp [h1]
  have e1 : ((ds.map Prod.fst).zip vs).map Prod.fst = ds.map Prod.fst := by
    rw [List.map_fst_zip (by omega)]
  have e2 : ((ds.map Prod.fst).zip vs).map Prod.snd = vs := by
    rw [List.map_snd_zip (by omega)]
  have := C10_read_encoding d' c ((ds.map Prod.fst).zip vs) ds' pre bs rest hlen hw
    ⟨hc.abi, hc.env, fun x hx => hc.types x.1 (List.of_mem_zip hx).1, h6⟩ hd (by rw [e1, hds])
  rw [e2] at this
  exact this

/-- C63. For types without varints, optional values, sets, maps and partly used bitsets the accepted bytes are the normal
form: writing the objects gives back exactly the bytes they were read from. -/
theorem C63_exact (d : Nat) (c : Cfg) (data : List UInt8) (ds : List (Ty × Val)) (p q : Nat) (vs : List Val)
    (hc : Delimited c (ds.map Prod.fst)) (hr : ∀ t ∈ ds.map Prod.fst, rigid c.dsz t = true) (hre : ∀ i, rigid c.dsz (c.env i) = true)
    (hp : p ≤ data.length) (h : decMany d c data ds p = ⟨.ok, vs, q⟩)
    (hb : ∀ x ∈ (ds.map Prod.fst).zip vs, Bools c.env x.1 x.2) :
    wireItems (fmtOf c) ((ds.map Prod.fst).zip vs) = some ((data.drop p).take (q - p)) := by
  obtain ⟨_, _, _, h4, h5, _⟩ := decMany_again ds hc p q vs hp h
  obtain ⟨bs, hbs⟩ := h5 hb
  have hl : rigidL c.dsz (ds.map Prod.fst) = true := by
    clear h hb h4 h5 hbs hc
    generalize ds.map Prod.fst = ts at hr
    induction ts with
    | nil => rfl
    | cons t ts ih =>
      simp only [rigidL, Bool.and_eq_true]
      exact ⟨hr t (by simp), ih fun t ht => hr t (by simp [ht])⟩
  rw [hbs, (h4 bs hbs).2 ⟨hre, hl⟩]
  rfl

/-- C63. So no two different byte strings are read as the same objects of such types. -/
theorem C63_unique (d d' : Nat) (c : Cfg) (data data' : List UInt8) (ds ds' : List (Ty × Val)) (p q p' q' : Nat) (vs : List Val)
    (hc : Delimited c (ds.map Prod.fst)) (hr : ∀ t ∈ ds.map Prod.fst, rigid c.dsz t = true) (hre : ∀ i, rigid c.dsz (c.env i) = true)
    (hds : ds'.map Prod.fst = ds.map Prod.fst) (hp : p ≤ data.length) (hp' : p' ≤ data'.length)
    (h : decMany d c data ds p = ⟨.ok, vs, q⟩) (h' : decMany d' c data' ds' p' = ⟨.ok, vs, q'⟩)
    (hb : ∀ x ∈ (ds.map Prod.fst).zip vs, Bools c.env x.1 x.2) :
    (data.drop p).take (q - p) = (data'.drop p').take (q' - p') := by
  have h1 := C63_exact d c data ds p q vs hc hr hre hp h hb
  have h2 := C63_exact d' c data' ds' p' q' vs (by rw [hds]; exact hc) (by rw [hds]; exact hr) hre hp' h' (by rw [hds]; exact hb)
  rw [hds, h1] at h2
  exact Option.some.inj h2

/-- C63. With the archives themselves: what was read from arbitrary bytes and then written by a successful call is read
back as the same objects. -/
theorem C63_resave (d d1 d2 : Nat) (c co : Cfg) (noFit : Bool) (data : List UInt8) (ds ds' : List (Ty × Val)) (p q : Nat) (vs : List Val)
    (st st' : OutSt)
    (hc : Delimited c (ds.map Prod.fst)) (hp : p ≤ data.length) (h : decMany d c data ds p = ⟨.ok, vs, q⟩)
    (hb : ∀ x ∈ (ds.map Prod.fst).zip vs, Bools c.env x.1 x.2) (hlen : data.length < 2 ^ 63)
    (hf : fmtOf c = fmtOf co) (hpos : st.pos ≤ st.data.length) (hst : st.data.length < 2 ^ 63)
    (hs : Supported co ((ds.map Prod.fst).zip vs)) (hd1 : StackOk d1 ((ds.map Prod.fst).zip vs))
    (hd2 : StackOk d2 ((ds.map Prod.fst).zip vs)) (hbits : BitsOk ((ds.map Prod.fst).zip vs) st)
    (hok : outCall d1 co noFit ((ds.map Prod.fst).zip vs) st = (.ok, st')) (hds : ds'.map Prod.fst = ds.map Prod.fst) :
    decMany d2 c st'.data ds' st.pos = ⟨.ok, vs, st'.pos⟩ ∧ st'.pos ≤ st.pos + (q - p) := by
  obtain ⟨h1, _, h3, h4, h5, h6⟩ := decMany_again ds hc p q vs hp h
  obtain ⟨bs, hbs⟩ := h5 hb
  have hl := (h4 bs hbs).1
  have e1 : ((ds.map Prod.fst).zip vs).map Prod.fst = ds.map Prod.fst := by
    rw [List.map_fst_zip (by simp [h1])]
  have e2 : ((ds.map Prod.fst).zip vs).map Prod.snd = vs := by
    rw [List.map_snd_zip (by simp [h1])]
  have hr := C10_round_trip d1 d2 co c noFit ((ds.map Prod.fst).zip vs) ds' st st' bs hf hpos hst hs hd1 hbits
    (by rw [← hf]; exact hbs) (by omega) hok ⟨hc.abi, hc.env, fun x hx => hc.types x.1 (List.of_mem_zip hx).1, h6⟩ hd2
    (by rw [e1, hds])
  rw [e2] at hr
  obtain ⟨hp', _⟩ := C04_growing_appends d1 co noFit _ st st' bs hpos hst hs hd1 hbits (by rw [← hf]; exact hbs) (by omega) hok
  exact ⟨hr, by omega⟩

/-- Order of numbers, for the example below. -/
def keyRank : Val → Nat
  | .num x => x + 1
  | _ => 0

/-- An optional, a varint and a set: the flag is 255, the varint has a padding byte, the set is out of order and repeats an
element. The eight bytes read are not the six bytes written. -/
example :
    let c := { Checks.le Checks.grow (.fixed 1) with keyLt := fun _ a b => decide (keyRank a < keyRank b) }
    let ds : List (Ty × Val) := [(.optional true (.scalar .int 1), .none), (.varint 4 false, .num 0),
      (.assoc false false none (.scalar .int 1) none, .list [])]
    let vs : List Val := [.some (.num 5), .num 1, .list [.num 3, .num 8]]
    decMany 20 c [9, 255, 5, 0x81, 0, 3, 8, 3, 8] ds 1 = ⟨.ok, vs, 9⟩ ∧
    wireItems (fmtOf c) ((ds.map Prod.fst).zip vs) = some [1, 5, 1, 2, 3, 8] ∧
    decMany 20 c [1, 5, 1, 2, 3, 8] ds 0 = ⟨.ok, vs, 6⟩ ∧ Delimited c (ds.map Prod.fst) ∧
    (∀ x ∈ (ds.map Prod.fst).zip vs, Bools c.env x.1 x.2) := by
  refine ⟨by decide +kernel, by decide +kernel, by decide +kernel, ⟨so_abi, fun _ => ⟨rfl, rfl⟩, fun _ => rfl, ?_, ?_, ?_⟩, ?_⟩
  · intro key
    constructor
    · intro a b; simp; omega
    · intro a b c; simp; omega
  · decide
  · decide
  · simp [Bools, BoolsL]

/-- A rigid case: a structure with a string, a variant and an array of `bool`s. -/
example :
    let c := Checks.le Checks.grow (.fixed 1)
    let t : Ty := .struct false [.seq .vector none (.scalar .int 2), .variant (.scalar .byte 1) [.num 0, .num 7] [true, true] [.bool, .bitset 8],
      .array 2 .bool]
    rigid c.dsz t = true ∧ Delimited { c with keyLt := fun _ _ _ => false } [t] ∧
    decMany 20 c [1, 2, 3, 7, 0x91, 0, 1] [(t, .list [])] 0 =
      ⟨.ok, [.list [.list [.num 770], .alt 1 (.bits [true, false, false, false, true, false, false, true]), .list [.num 0, .num 1]]], 7⟩ := by
  refine ⟨rfl, ⟨so_abi, fun _ => ⟨rfl, rfl⟩, fun _ => rfl, fun _ => ⟨by simp, by simp⟩, by decide, by decide⟩, by decide +kernel⟩

end Zpp.Props
