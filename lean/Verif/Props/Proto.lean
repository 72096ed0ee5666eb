import Verif.Proof.ProtoRead
import Verif.Props.Output2
import Verif.Props.Protobuf
/-!
# Exchange of messages with other protobuf implementations

`protoParse` (Spec/Proto.lean) is a protobuf parser written from the published encoding. What the library writes is parsed to
the object written. What the library reads is what the parser finds, for messages without the features in which the
library departs from protobuf; for each of these features a message shows the difference.
-/

namespace Zpp.Props
open Zpp Zpp.Spec

/-- There is a function that gives the default objects. -/
theorem newObjects_exist (c : Cfg) : ∃ new, NewObjects c.env new :=
  ⟨fun t => Classical.epsilon fun o => Initial c.env t o, fun t o ho =>
    initial_unique (Classical.epsilon_spec (p := fun o => Initial c.env t o) ⟨o, ho⟩) ho⟩

/-- C88. If the library writes a message, then a protobuf parser finds in the bytes behind the size prefix the object that was
written: every member has its value, whatever the declared field numbers are. -/
theorem C88_parsers_read_written_partial (d : Nat) (c : Cfg) (noFit ok : Bool) (sz : Option SizeTy) (maps : List (Nat × Nat))
    (nums : List (Option Nat)) (fs : List Ty) (vs : List Val) (st st' : OutSt) (bs : List UInt8) (new : Ty → Val)
    (hpos : st.pos ≤ st.data.length) (hlen : st.data.length < 2 ^ 63)
    (hs : Supported c [(.msg sz ok maps nums fs, .list vs)]) (hd : StackOk d [(.msg sz ok maps nums fs, .list vs)])
    (hb : BitsOk [(.msg sz ok maps nums fs, .list vs)] st)
    (hw : wireItems (fmtOf c) [(.msg sz ok maps nums fs, .list vs)] = some bs) (hl : bs.length < 2 ^ 63)
    (hok : outCall d c noFit [(.msg sz ok maps nums fs, .list vs)] st = (.ok, st')) (hnew : NewObjects c.env new) :
    ∃ pre body, (st'.data.take st'.pos).drop st.pos = pre ++ body ∧
      msgPrefix (fmtOf c) (sz.getD c.dsz) body.length = some pre ∧ protoParse new c.env maps nums fs body = some vs := by
  rw [C03_wire_format d c noFit _ st st' bs hpos hlen hs hd hb hw hl hok]
  simp only [wireItems, wire, cat_eq_some] at hw
  obtain ⟨x, y, hx, hy, rfl⟩ := hw
  cases hy
  cases hf : pbFields (fmtOf c).env maps 0 nums fs vs with
  | none => simp [hf] at hx
  | some body =>
    simp only [hf, cat_eq_some] at hx
    obtain ⟨pre, body', hp, hb', rfl⟩ := hx
    cases hb'
    exact ⟨pre, body, by simp, hp, protoParse_pbFields hs.env hnew (hs.types _ (List.mem_singleton.mpr rfl)) hf⟩

/-- C89. If the library reads a message, made of any sequence of records (in any order, members missing, singular numbers and strings
repeated, repeated fields in several packed records and single elements, map entries in any order, nested messages made of any
records), into a new object, then the members have the values a protobuf parser finds (see `Holds`), and the library stops
where the message ends; if no field is undeclared, and members with `firstOnly` occur once. -/
theorem C89_reads_as_parsers_partial (d : Nat) (c : Cfg) (sz : Option SizeTy) (ok : Bool) (maps : List (Nat × Nat))
    (nums : List (Option Nat)) (fs : List Ty) (rs : List Rec) (os : List Val) (data : List UInt8) (p p' : Nat) (new : Ty → Val)
    (h : StreamAt c sz ok maps nums fs rs data p p') (hd : 2 * recDepthL rs ≤ d) (hp : RecsPlain c.env fs [] rs)
    (ho : InitialL c.env fs os) (hnew : NewObjects c.env new) :
    ∃ pre body ws vs, (data.take p').drop p = pre ++ body ∧ sizePrefix (fmtOf c) (sz.getD c.dsz) body.length = some pre ∧
      decMany (d + 1) c data [(.msg sz ok maps nums fs, .list os)] p = ⟨.ok, [.list vs], p'⟩ ∧
      protoParse new c.env maps nums fs body = some ws ∧ HoldsEach (insideMsg c) fs ws vs := by
  obtain ⟨pre, body, rest, h1, h2, h3, h4, h5, rfl⟩ := h.bytes
  have hdr : data.drop p = pre ++ (body ++ rest) := by
    have := congrArg (List.drop p) h1
    rw [List.drop_append_of_le_length (by simp; omega)] at this
    simpa [List.drop_take] using this
  have hm := msg_recs d c h.abi h.env h.good h4 h3 h5 h.loadable hd (.list os) h.small h2 hdr
  have hg := h.good
  simp only [Good, nodeOk, Bool.and_eq_true] at hg
  obtain ⟨ws, hr, hst⟩ := protoMsg_reads (c := insideMsg c) rfl (fun i => (h.env i).2) hnew (body.length + 1) maps nums fs rs os body
    ⟨hg.1.1.1.1, hg.1.1.1.2, hg.2⟩ h4 (by omega) h.loadable hp ho
  refine ⟨pre, body, ws, recsEffect (insideMsg c) fs rs os, ?_, h3, ?_, ?_, hst⟩
  · rw [List.drop_take, hdr, show p + pre.length + body.length - p = pre.length + body.length by omega,
      ← List.append_assoc, show pre.length + body.length = (pre ++ body).length by simp, List.take_left]
  · rw [decMany]
    have e : emptied fs (Val.list os).elems = os := emptied_initial ho
    rw [e] at hm
    have hpb : pbCfg c = insideMsg c := rfl
    rw [hpb] at hm
    simp only [hm, decMany]
  · rw [protoParse, newL hnew ho]
    exact hr

/-- C89. Without sets and maps, the members have exactly the values that the parser finds. -/
theorem C89_same_values (c : Cfg) (fs : List Ty) (ws vs : List Val) (h : HoldsEach (insideMsg c) fs ws vs)
    (hf : assocFreeL fs = true) (henv : ∀ i, assocFree (c.env i) = true) : vs = ws :=
  holdsEach_eq (c := insideMsg c) henv hf h

/-- C89. A set or map that stands for the elements `es` is in the order of its keys. All elements are in it, unless several have
the same key and the container allows a key only once: then the first of them is. -/
theorem C89_set_map (c : Cfg) (multi hashed : Bool) (sz : Option SizeTy) (key : Ty) (mapped : Option Ty) (es : List Val)
    (hlt : WeakOrder (c.keyLt key)) :
    Ordered (c.keyLt key) multi hashed mapped.isSome (addAll c (.assoc multi hashed sz key mapped) es []) ∧
    (multi = true → (addAll c (.assoc multi hashed sz key mapped) es []).Perm es) ∧
    (multi = false → (addAll c (.assoc multi hashed sz key mapped) es []).Perm
      (firsts (sameKey (c.keyLt key) hashed mapped.isSome) es)) ∧
    ((es.Pairwise fun x y => sameKey (c.keyLt key) hashed mapped.isSome x y = false) →
      (addAll c (.assoc multi hashed sz key mapped) es []).Perm es) := by
  have hins : addAll c (.assoc multi hashed sz key mapped) es [] = insertAll (c.keyLt key) multi hashed mapped.isSome es [] := by
    simp only [addAll, insertAll, insertElem_eq]
  have h2 : multi = true → (addAll c (.assoc multi hashed sz key mapped) es []).Perm es := by
    rintro rfl
    rw [hins]
    exact insertAll_multi (lt := c.keyLt key) (hashed := hashed) (isMap := mapped.isSome) es []
  have h3 : multi = false → (addAll c (.assoc multi hashed sz key mapped) es []).Perm
      (firsts (sameKey (c.keyLt key) hashed mapped.isSome) es) := by
    rintro rfl
    rw [hins]
    refine (insertAll_firsts hlt (hashed := hashed) (isMap := mapped.isSome) es []).trans ?_
    rw [List.nil_append, List.filter_eq_self.mpr (by simp)]
  refine ⟨?_, h2, h3, ?_⟩
  · rw [hins]
    exact orderedK_iff.mp (insertAll_ordered hlt _ (by simp [OrderedK]))
  · intro hd
    cases hm : multi with
    | true => exact hm ▸ h2 hm
    | false =>
      have := h3 hm
      rw [firsts_distinct hd] at this
      exact hm ▸ this

/-! ## Examples -/

namespace ProtoEx

/-- Default objects of the example classes. -/
def new : Ty → Val := dflt (Checks.le Checks.grow .none) 10

/-- What the library reads into a new object from a message without size prefix. -/
def lib (fs : List Ty) (bs : List UInt8) : Status × Val :=
  let r := decode 20 (Checks.le Checks.grow .none) (Checks.msg fs) (new (Checks.msg fs)) bs 0
  (r.s, r.v)

/-- What a protobuf parser finds. -/
def ref (fs : List Ty) (bs : List UInt8) : Option (List Val) :=
  protoParse new (fun _ => .empty) [] (fs.map fun _ => none) fs bs

end ProtoEx

/-- The message of the project tests is parsed to the object. -/
example : ProtoEx.ref [Checks.str, Checks.vint32, Checks.str, .seq .vector none Checks.phone] Checks.johnBytes =
    some Checks.john.elems := by decide +kernel

/-- A message with a zigzag number, `fixed32`, `bool`, an enumeration, a map and an explicit number, as written and as parsed. -/
example :
    let fs : List Ty := [.varint 4 true, .scalar .int 4, .bool, .scalar .enum 4,
      .assoc false false none Checks.vint32 (some Checks.str), .scalar .int 8]
    let t : Ty := .msg (some .none) false [(1, 9)] [none, none, none, none, none, some 77] fs
    let vs : List Val := [.num 0xfffffffe, .num 5, .num 1, .num 0xffffffff,
      .list [.list [.num 1, Checks.strV [65]], .list [.num 300, Checks.strV []]], .num (2 ^ 63)]
    let bs : List UInt8 := [72, 3, 21, 5, 0, 0, 0, 24, 1, 32, 255, 255, 255, 255, 15, 42, 5, 8, 1, 18, 1, 65, 42, 3, 8, 172, 2,
      233, 4, 0, 0, 0, 0, 0, 0, 0, 128]
    Checks.run (Checks.le Checks.grow .varint) t (.list vs) = (.ok, bs) ∧
    protoParse ProtoEx.new (fun _ => .empty) [(1, 9)] [none, none, none, none, none, some 77] fs bs = some vs := by
  decide +kernel

/-- The hypotheses of `C88_parsers_read_written_partial` are met. -/
example : Supported (Checks.le Checks.grow .varint) [(Checks.person, Checks.john)] ∧
    StackOk 20 [(Checks.person, Checks.john)] ∧ BitsOk [(Checks.person, Checks.john)] ⟨[], 0⟩ ∧
    wireItems (fmtOf (Checks.le Checks.grow .varint)) [(Checks.person, Checks.john)] = some (45 :: Checks.johnBytes) ∧
    (outCall 20 (Checks.le Checks.grow .varint) false [(Checks.person, Checks.john)] ⟨[], 0⟩).1 = .ok := by
  refine ⟨⟨fun _ => ⟨by decide, by decide, by decide, rfl, by decide⟩, so_abi, fun _ => ⟨rfl, rfl⟩, ?_⟩, ?_,
    Or.inl ?_, by decide +kernel, by decide +kernel⟩ <;>
  · intro x hx
    simp only [List.mem_singleton] at hx
    subst hx
    decide +kernel

/-- The hypotheses of `C89_reads_as_parsers_partial` are met: nested message, a number twice, a packed record and a single element. -/
example : StreamAt (Checks.le Checks.grow (.fixed 1)) none false [] [none, none, none, none] exRecTys exRecs
      ([9, 19] ++ exRecBytes ++ [1]) 1 21 ∧ RecsPlain (fun _ => .empty) exRecTys [] exRecs ∧
    InitialL (fun _ => .empty) exRecTys [.num 0, .list [], .list [], .list [.num 0]] ∧
    ProtoEx.ref exRecTys exRecBytes = some [.num 2, Checks.strV [65, 66], .list [.num 300, .num 5, .num 6], .list [.num 7]] := by
  refine ⟨exStream, ?_, ?_, by decide +kernel⟩
  · simp [exRecs, RecsPlain, RecPlain, Rec.member, exRecTys, Checks.msg, Checks.str, Checks.vint32, Checks.chr, firstOnly, isOne,
      fixedElem, isText, msgOf]
  · exact .cons (.varint 4 false) (.cons (.seq ..) (.cons (.seq ..) (.cons (.msg (.cons (.varint 4 false) .nil)) .nil)))

/-- Another stream that meets them: repeated messages and map entries that are sequences of records themselves. -/
example :
    let fs : List Ty := [.seq .vector none (Checks.msg [Checks.vint32, Checks.str]),
      .assoc false false none Checks.vint32 (some Checks.vint32)]
    RecsPlain (fun _ => .empty) fs []
      [.elem 0 (.list [.num 0, .list []]) [.field 1 (.list []), .blank 1, .field 0 (.num 5)], .elem 1 (.list [.num 0, .num 0]) [.field 0 (.num 3)],
        .elem 0 (.list [.num 0, .list []]) [.field 0 (.num 1), .field 0 (.num 2)], .elem 0 (.list [.num 0, .list []]) []] ∧
    InitialL (fun _ => .empty) fs [.list [], .list []] := by
  refine ⟨?_, .cons (.seq ..) (.cons (.assoc ..) .nil)⟩
  simp [RecsPlain, RecPlain, Rec.member, Checks.msg, Checks.str, Checks.vint32, Checks.chr, firstOnly, isOne, fixedElem, isText, msgOf,
    members, elemTy]

/-- Map entries out of order: the parser lists them as they come, the map holds them in the order of the keys. -/
example :
    let fs : List Ty := [.assoc false false none Checks.vint32 (some Checks.vint32)]
    let bs : List UInt8 := [10, 4, 8, 2, 16, 5, 10, 4, 16, 7, 8, 1]
    ProtoEx.ref fs bs = some [.list [.list [.num 2, .num 5], .list [.num 1, .num 7]]] ∧
    ProtoEx.lib fs bs = (.ok, .list [.list [.list [.num 1, .num 7], .list [.num 2, .num 5]]]) := by decide +kernel

/-- Keys are ordered as `C89_set_map` demands. -/
example : WeakOrder ((Checks.le Checks.grow .none).keyLt Checks.vint32) := numLt_weak _

/-! ## Where the library departs from protobuf

Each message is valid protobuf. The parser and the library find different values. -/

/-- C89. An undeclared field (number 7, value 8) is not skipped: its value is taken as the key of field 1. -/
theorem C89_undeclared_field :
    ProtoEx.ref [Checks.vint32] [56, 8, 8, 3] = some [.num 3] ∧
    ProtoEx.lib [Checks.vint32] [56, 8, 8, 3] = (.err .protocolError, .list [.num 8]) := by decide +kernel

/-- C89. The second packed record of a `repeated fixed32` field replaces the first one. -/
theorem C89_packed_twice :
    ProtoEx.ref [.seq .vector none Checks.i32] [10, 4, 1, 0, 0, 0, 10, 4, 2, 0, 0, 0] = some [.list [.num 1, .num 2]] ∧
    ProtoEx.lib [.seq .vector none Checks.i32] [10, 4, 1, 0, 0, 0, 10, 4, 2, 0, 0, 0] = (.ok, .list [.list [.num 2]]) := by
  decide +kernel

/-- C89. The second record of a nested message clears the repeated fields in it. -/
theorem C89_nested_twice :
    let fs := [Checks.msg [.seq .vector none Checks.vint32]]
    ProtoEx.ref fs [10, 3, 10, 1, 1, 10, 3, 10, 1, 2] = some [.list [.list [.num 1, .num 2]]] ∧
    ProtoEx.lib fs [10, 3, 10, 1, 1, 10, 3, 10, 1, 2] = (.ok, .list [.list [.list [.num 2]]]) := by decide +kernel

/-- C89. Of two entries of a map with the same key the library keeps the first one (protobuf: the last one). -/
theorem C89_map_key_twice :
    let fs := [Ty.assoc false false none Checks.vint32 (some Checks.vint32)]
    ProtoEx.ref fs [10, 4, 8, 1, 16, 2, 10, 4, 8, 1, 16, 3] = some [.list [.list [.num 1, .num 2], .list [.num 1, .num 3]]] ∧
    ProtoEx.lib fs [10, 4, 8, 1, 16, 2, 10, 4, 8, 1, 16, 3] = (.ok, .list [.list [.list [.num 1, .num 2]]]) := by
  decide +kernel

/-- C89. A negative `int32`, as protobuf writers encode it (ten bytes), is refused. -/
theorem C89_negative_int32 :
    let bs : List UInt8 := [8, 255, 255, 255, 255, 255, 255, 255, 255, 255, 1]
    ProtoEx.ref [Checks.vint32] bs = some [.num (2 ^ 32 - 1)] ∧
    (ProtoEx.lib [Checks.vint32] bs).1 = .err .valueTooLarge := by decide +kernel

/-- C89. A record with another wire type than the declared one (here `fixed32` for an `int32` field) is not skipped. -/
theorem C89_wire_type :
    ProtoEx.ref [Checks.vint32] [13, 1, 0, 0, 0, 8, 2] = some [.num 2] ∧
    (ProtoEx.lib [Checks.vint32] [13, 1, 0, 0, 0, 8, 2]).1 = .err .protocolError := by decide +kernel

/-- D25. A negative `vint32_t` is written with five bytes, where protobuf writers use ten. Parsers of an `int32` field find the
number, but not those of an `int64` field, to which protobuf allows to change the field. -/
theorem D25_negative_five_bytes :
    let bs : List UInt8 := [8, 255, 255, 255, 255, 15]
    let ten : List UInt8 := [8, 255, 255, 255, 255, 255, 255, 255, 255, 255, 1]
    Checks.run (Checks.le Checks.grow .none) (Checks.msg [Checks.vint32]) (.list [.num (2 ^ 32 - 1)]) = (.ok, bs) ∧
    ProtoEx.ref [Checks.vint32] bs = some [.num (2 ^ 32 - 1)] ∧ ProtoEx.ref [.varint 8 false] bs = some [.num (2 ^ 32 - 1)] ∧
    ProtoEx.ref [Checks.vint32] ten = some [.num (2 ^ 32 - 1)] ∧ ProtoEx.ref [.varint 8 false] ten = some [.num (2 ^ 64 - 1)] := by
  decide +kernel

end Zpp.Props
