import Verif.Proof.ProtoBytes3
import Verif.Props.Proto
/-!
# Exchange of messages with other protobuf implementations: any bytes

`C89_reads_as_parsers_partial` speaks of messages in the encoding that the library itself uses for keys, lengths and numbers. Other
implementations may write varints with more groups than needed. Here the bytes are arbitrary.
-/

namespace Zpp.Props
open Zpp Zpp.Spec

/-- C89. Whatever bytes make up the message: if the library reads them into a new object, and a protobuf parser accepts them, then the
members have the values that the parser finds (see `Holds`), and the library stops where the message ends; if the records are those
that the library reads as protobuf demands (see `BytesPlain`: declared fields with the declared wire types, members with `firstOnly` once,
`bool` as the byte 0 or 1). -/
theorem C89_any_bytes_partial (d s : Nat) (c : Cfg) (sz : Option SizeTy) (ok : Bool) (maps : List (Nat × Nat))
    (nums : List (Option Nat)) (fs : List Ty) (os ws : List Val) (v : Val) (data pre body rest : List UInt8) (p q : Nat) (new : Ty → Val)
    (ha : AbiOk c.sizeof) (he : EnvGood c) (hg : Good c (.msg sz ok maps nums fs) = true) (hlen : data.length < 2 ^ 64)
    (hp : p ≤ data.length) (hdr : data.drop p = pre ++ (body ++ rest))
    (hpre : sizePrefix (fmtOf c) (sz.getD c.dsz) body.length = some pre) (hend : sz.getD c.dsz = .none → rest = [])
    (ho : InitialL c.env fs os) (hnew : NewObjects c.env new)
    (hpl : BytesPlain c.env s (protoFields maps nums fs) [] body) (hd : 2 * s + 3 ≤ d)
    (hparse : protoParse new c.env maps nums fs body = some ws)
    (hread : decMany (d + 1) c data [(.msg sz ok maps nums fs, .list os)] p = ⟨.ok, [v], q⟩) :
    ∃ vs, v = .list vs ∧ HoldsEach (insideMsg c) fs ws vs ∧ q = p + pre.length + body.length := by
  have hdec : decode (d + 1) c (.msg sz ok maps nums fs) (.list os) data p = ⟨.ok, v, q⟩ := by
    rw [decMany] at hread
    cases hr : decode (d + 1) c (.msg sz ok maps nums fs) (.list os) data p with
    | mk st v' q' =>
      rw [hr] at hread
      cases st with
      | ok =>
        simp only [decMany, ResL.mk.injEq, List.cons.injEq, and_true, true_and] at hread
        obtain ⟨rfl, rfl⟩ := hread
        rfl
      | _ => cases hread
  have s1 := drop_split hp hdr
  have hs := drop_split s1.1 s1.2
  have hb := congrArg List.length s1.2
  simp only [List.length_drop, List.length_append] at hb
  simp only [Good, nodeOk, Bool.and_eq_true] at hg
  rw [protoParse, newL hnew ho] at hparse
  have hrun : ∀ size, min size (data.length - (p + pre.length)) = body.length →
      msgRun (pbCfg c) (decode d (pbCfg c)) (dflt (pbCfg c) d) maps nums fs (.list os) data size (p + pre.length) = ⟨.ok, v, q⟩ →
      ∃ vs, v = .list vs ∧ HoldsEach (insideMsg c) fs ws vs ∧ q = p + pre.length + body.length := fun size hsz hr =>
    run_reads (c := pbCfg c) (inPb_pbCfg c) rfl ha (EnvGood.pb he) hnew
      (sub_reads (inPb_pbCfg c) rfl ha (EnvGood.pb he) hnew d).1 ⟨hg.1.1.1.1, hg.1.1.1.2, hg.2⟩ hd hlen s1.1 s1.2 hsz ho hpl hparse hr
  rw [decode] at hdec
  by_cases hne : sz.getD c.dsz = .none
  · have : effSz c sz = .none := hne
    simp only [this] at hdec
    have hr := hend hne
    subst hr
    rw [hne] at hpre
    simp only [sizePrefix, Option.some.injEq] at hpre
    subst hpre
    simp only [List.length_nil, Nat.add_zero] at hrun hb ⊢
    exact hrun sizeMax (by unfold sizeMax; omega) hdec
  · have hh := decHdr_rd (sz := effSz c sz) hne hpre hp hdr
    have hdec' : msgRun (pbCfg c) (decode d (pbCfg c)) (dflt (pbCfg c) d) maps nums fs (.list os) data body.length (p + pre.length) =
        ⟨.ok, v, q⟩ := by
      have e : effSz c sz ≠ .none := hne
      cases hs : effSz c sz with
      | none => exact absurd hs e
      | _ =>
        rw [hs] at hdec hh
        simp only [hh] at hdec
        exact hdec
    exact hrun body.length (by omega) hdec'

/-- A number, strings, and a nested message. -/
def exWideTys : List Ty := [Checks.vint32, .seq .vector none Checks.str, Checks.msg [Checks.vint32]]

/-- Keys, lengths and numbers with more groups than needed; a nested message. -/
def exWideBytes : List UInt8 := [136, 128, 0, 133, 0, 146, 0, 130, 0, 65, 66, 26, 131, 0, 8, 135, 0]

theorem exWide_plain : BytesPlain (fun _ => .empty) 1 (protoFields [] [none, none, none] exWideTys) [] exWideBytes := by
  refine .cons (key := 8) (pay := exWideBytes.drop 3) (p := .varint 5) (t := Checks.vint32) (rest := exWideBytes.drop 5)
    (by decide +kernel) (by decide +kernel) (by simp [protoFields, fieldNumbers, fieldNumber, exWideTys]) (.number rfl (by simp [Checks.vint32]))
    (by simp [firstOnly, Checks.vint32, msgOf]) ?_
  refine .cons (key := 18) (pay := exWideBytes.drop 7) (p := .len [65, 66]) (t := .seq .vector none Checks.str) (rest := exWideBytes.drop 11)
    (by decide +kernel) (by decide +kernel) (by simp [protoFields, fieldNumbers, fieldNumber, exWideTys])
    (.text (k := .vector) (sz := none) (ch := Checks.chr) rfl) (by simp [firstOnly, Checks.str, fixedElem]) ?_
  refine .cons (key := 26) (pay := exWideBytes.drop 12) (p := .len [8, 135, 0]) (t := Checks.msg [Checks.vint32]) (rest := [])
    (by decide +kernel) (by decide +kernel) (by simp [protoFields, fieldNumbers, fieldNumber, exWideTys])
    (.message (maps := []) (nums := [none]) (fs := [Checks.vint32]) rfl ?_) (by simp) .nil
  exact .cons (key := 8) (pay := [135, 0]) (p := .varint 7) (t := Checks.vint32) (rest := [])
    (by decide +kernel) (by decide +kernel) (by simp [protoFields, fieldNumbers, fieldNumber])
    (.number rfl (by simp [Checks.vint32])) (by simp [firstOnly, Checks.vint32, msgOf]) .nil

/-- The hypotheses of `C89_any_bytes_partial` are met; this is not a message that the library would write. -/
example : ProtoEx.ref exWideTys exWideBytes = some [.num 5, .list [Checks.strV [65, 66]], .list [.num 7]] ∧
    ProtoEx.lib exWideTys exWideBytes = (.ok, .list [.num 5, .list [Checks.strV [65, 66]], .list [.num 7]]) := by
  decide +kernel

/-- The other hypotheses: the message has a size of one byte in front, and other bytes before and behind it. -/
example : ∃ vs, HoldsEach (insideMsg (Checks.le Checks.grow (.fixed 1))) exWideTys [.num 5, .list [Checks.strV [65, 66]], .list [.num 7]] vs := by
  obtain ⟨new, hnew⟩ := newObjects_exist (Checks.le Checks.grow (.fixed 1))
  have ho : InitialL (fun _ => .empty) exWideTys [.num 0, .list [], .list [.num 0]] :=
    .cons (.varint 4 false) (.cons (.seq ..) (.cons (.msg (.cons (.varint 4 false) .nil)) .nil))
  obtain ⟨vs, _, h, _⟩ := C89_any_bytes_partial 9 1 (Checks.le Checks.grow (.fixed 1)) none false [] [none, none, none] exWideTys
    [.num 0, .list [], .list [.num 0]] [.num 5, .list [Checks.strV [65, 66]], .list [.num 7]]
    (.list [.num 5, .list [Checks.strV [65, 66]], .list [.num 7]]) ([9, 17] ++ exWideBytes ++ [1]) [17] exWideBytes [1] 1 19 new so_abi
    (fun _ => ⟨rfl, rfl⟩) (by decide +kernel) (by decide) (by decide) (by decide) (by decide +kernel) (by intro h; cases h) ho hnew
    exWide_plain (by omega) (by rw [protoParse, newL hnew ho]; rfl) (by decide +kernel)
  exact ⟨vs, h⟩

/-- C89. A `bool` that another implementation wrote with a second group (the value 1) is refused, and the object is left with a byte that
no `bool` has. -/
theorem C89_wide_bool :
    ProtoEx.ref [.bool] [8, 129, 0] = some [.num 1] ∧ ProtoEx.lib [.bool] [8, 129, 0] = (.err .protocolError, .list [.num 129]) := by
  decide +kernel

end Zpp.Props
