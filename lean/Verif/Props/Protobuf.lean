import Verif.Proof.InRecords
import Verif.Props.RoundTrip2
/-!
# Properties of protobuf input: records in any order
-/

namespace Zpp.Props
open Zpp Zpp.Spec

/-! ## Messages as sequences of records -/

/-- C34/C35. Reading a message made of any sequence of records into any destination succeeds, ends where the message
ends, and gives every member a value that depends only on its previous value and on its own records, in their order:
starting from the previous value (empty for containers) each record acts as described by `recEffect`. -/
theorem C35_members (d : Nat) (c : Cfg) (sz : Option SizeTy) (ok : Bool) (maps : List (Nat × Nat)) (nums : List (Option Nat))
    (fs : List Ty) (rs : List Rec) (old : Val) (data : List UInt8) (p p' : Nat)
    (h : StreamAt c sz ok maps nums fs rs data p p') (hd : 2 * recDepthL rs ≤ d) :
    ∃ vs, decMany (d + 1) c data [(.msg sz ok maps nums fs, old)] p = ⟨.ok, [.list vs], p'⟩ ∧ vs.length = fs.length ∧
      ∀ m t, fs[m]? = some t →
        vs[m]? = some ((recsOf m rs).foldl (fun cur r => recEffect (insideMsg c) t r cur) (startValue t (old.elems.getD m .unit))) := by
  obtain ⟨pre, body, rest, h1, h2, h3, h4, h5, rfl⟩ := h.bytes
  have hdr : data.drop p = pre ++ (body ++ rest) := by
    have := congrArg (List.drop p) h1
    rw [List.drop_append_of_le_length (by simp; omega)] at this
    simpa [List.drop_take] using this
  have := msg_recs d c h.abi h.env h.good h4 h3 h5 h.loadable hd old h.small h2 hdr
  refine ⟨recsEffect (pbCfg c) fs rs (emptied fs old.elems), ?_, ?_, ?_⟩
  · rw [decMany]
    simp only [this, decMany]
  · rw [recsEffect_length, emptied_length]
  · intro m t ht
    exact recsEffect_get (pbCfg c) fs m t ht rs _ _ (emptied_get fs old.elems m t ht)

/-- The member values when the result is known. -/
theorem C35_member_value {d : Nat} {c : Cfg} {sz : Option SizeTy} {ok : Bool} {maps : List (Nat × Nat)} {nums : List (Option Nat)}
    {fs : List Ty} {rs : List Rec} {old : Val} {data : List UInt8} {p p' : Nat}
    (h : StreamAt c sz ok maps nums fs rs data p p') (hd : 2 * recDepthL rs ≤ d) {vs : List Val} {q : Nat}
    (hr : decMany (d + 1) c data [(.msg sz ok maps nums fs, old)] p = ⟨.ok, [.list vs], q⟩) {m : Nat} {t : Ty} (ht : fs[m]? = some t) :
    vs[m]? = some ((recsOf m rs).foldl (fun cur r => recEffect (insideMsg c) t r cur) (startValue t (old.elems.getD m .unit))) := by
  obtain ⟨vs', h1, _, h2⟩ := C35_members d c sz ok maps nums fs rs old data p p' h hd
  rw [hr] at h1
  injection h1 with _ e _
  cases e
  exact h2 m t ht

/-- C34. A member that is not a container and has no record in the message keeps its previous value, whatever the other
records are. -/
theorem C34_absent_kept (d : Nat) (c : Cfg) (sz : Option SizeTy) (ok : Bool) (maps : List (Nat × Nat)) (nums : List (Option Nat))
    (fs : List Ty) (rs : List Rec) (olds : List Val) (data : List UInt8) (p p' : Nat)
    (h : StreamAt c sz ok maps nums fs rs data p p') (hd : 2 * recDepthL rs ≤ d) (m : Nat) (t : Ty) (v : Val)
    (ht : fs[m]? = some t) (hs : singular t = true) (hv : olds[m]? = some v) (hm : ∀ r ∈ rs, r.member ≠ some m) :
    ∃ vs, decMany (d + 1) c data [(.msg sz ok maps nums fs, .list olds)] p = ⟨.ok, [.list vs], p'⟩ ∧ vs[m]? = some v := by
  obtain ⟨vs, h1, _, h2⟩ := C35_members d c sz ok maps nums fs rs (.list olds) data p p' h hd
  refine ⟨vs, h1, ?_⟩
  have hn : recsOf m rs = [] := by
    rw [recsOf, List.filter_eq_nil_iff]
    intro r hr
    simpa using hm r hr
  rw [h2 m t ht, hn, List.foldl_nil]
  have : olds.getD m .unit = v := by simp [List.getD, hv]
  simp only [Val.elems, this]
  cases t <;> first | rfl | cases hs

/-- C34. A container without records becomes empty. -/
theorem C34_absent_cleared (d : Nat) (c : Cfg) (sz : Option SizeTy) (ok : Bool) (maps : List (Nat × Nat)) (nums : List (Option Nat))
    (fs : List Ty) (rs : List Rec) (old : Val) (data : List UInt8) (p p' : Nat)
    (h : StreamAt c sz ok maps nums fs rs data p p') (hd : 2 * recDepthL rs ≤ d) (m : Nat) (t : Ty)
    (ht : fs[m]? = some t) (hs : (∃ k s e, t = .seq k s e) ∨ ∃ mu ha s k mt, t = .assoc mu ha s k mt)
    (hm : ∀ r ∈ rs, r.member ≠ some m) :
    ∃ vs, decMany (d + 1) c data [(.msg sz ok maps nums fs, old)] p = ⟨.ok, [.list vs], p'⟩ ∧ vs[m]? = some (.list []) := by
  obtain ⟨vs, h1, _, h2⟩ := C35_members d c sz ok maps nums fs rs old data p p' h hd
  refine ⟨vs, h1, ?_⟩
  have hn : recsOf m rs = [] := by
    rw [recsOf, List.filter_eq_nil_iff]
    intro r hr
    simpa using hm r hr
  rw [h2 m t ht, hn, List.foldl_nil]
  rcases hs with ⟨k, s, e, rfl⟩ | ⟨mu, ha, s, k, mt, rfl⟩ <;> rfl

/-- C35. The order of records of different fields does not matter: two sequences with the same records for each member in
the same relative order, read into the same destination, give the same message (wherever the two messages stand, and
even if the archives are different). -/
theorem C35_order (d d' : Nat) (c : Cfg) (sz : Option SizeTy) (ok : Bool) (maps : List (Nat × Nat)) (nums : List (Option Nat))
    (fs : List Ty) (rs rs' : List Rec) (old : Val) (data data' : List UInt8) (p p' q q' : Nat)
    (h : StreamAt c sz ok maps nums fs rs data p p') (hd : 2 * recDepthL rs ≤ d)
    (h' : StreamAt c sz ok maps nums fs rs' data' q q') (hd' : 2 * recDepthL rs' ≤ d')
    (hsame : ∀ m, recsOf m rs = recsOf m rs') :
    ∃ vs, decMany (d + 1) c data [(.msg sz ok maps nums fs, old)] p = ⟨.ok, [.list vs], p'⟩ ∧
      decMany (d' + 1) c data' [(.msg sz ok maps nums fs, old)] q = ⟨.ok, [.list vs], q'⟩ := by
  obtain ⟨vs, h1, h2, h3⟩ := C35_members d c sz ok maps nums fs rs old data p p' h hd
  obtain ⟨vs', h1', h2', h3'⟩ := C35_members d' c sz ok maps nums fs rs' old data' q q' h' hd'
  have e : vs = vs' := by
    apply List.ext_getElem?
    intro m
    cases ht : fs[m]? with
    | some t => rw [h3 m t ht, h3' m t ht, hsame m]
    | none =>
      have := List.getElem?_eq_none_iff.mp ht
      rw [List.getElem?_eq_none (by omega), List.getElem?_eq_none (by omega)]
  exact ⟨vs, h1, by rw [e]; exact h1'⟩

/-- C35. Adjacent records of different fields can be exchanged (so the records of different fields can be permuted
arbitrarily). -/
theorem C35_exchange (d : Nat) (c : Cfg) (sz : Option SizeTy) (ok : Bool) (maps : List (Nat × Nat)) (nums : List (Option Nat))
    (fs : List Ty) (a b : List Rec) (r1 r2 : Rec) (old : Val) (data data' : List UInt8) (p p' q q' : Nat)
    (h : StreamAt c sz ok maps nums fs (a ++ r1 :: r2 :: b) data p p') (hd : 2 * recDepthL (a ++ r1 :: r2 :: b) ≤ d)
    (h' : StreamAt c sz ok maps nums fs (a ++ r2 :: r1 :: b) data' q q') (hd' : 2 * recDepthL (a ++ r2 :: r1 :: b) ≤ d)
    (hne : r1.member ≠ r2.member) :
    ∃ vs, decMany (d + 1) c data [(.msg sz ok maps nums fs, old)] p = ⟨.ok, [.list vs], p'⟩ ∧
      decMany (d + 1) c data' [(.msg sz ok maps nums fs, old)] q = ⟨.ok, [.list vs], q'⟩ := by
  refine C35_order d d c sz ok maps nums fs _ _ old data data' p p' q q' h hd h' hd' ?_
  intro m
  simp only [recsOf, List.filter_append, List.filter_cons]
  cases h1 : r1.member == some m <;> cases h2 : r2.member == some m <;> simp
  simp only [beq_iff_eq] at h1 h2
  exact absurd (h1.trans h2.symm) hne

/-- C35. If a singular field has several records, the last one wins. -/
theorem C35_last_wins (d : Nat) (c : Cfg) (sz : Option SizeTy) (ok : Bool) (maps : List (Nat × Nat)) (nums : List (Option Nat))
    (fs : List Ty) (a b : List Rec) (old : Val) (data : List UInt8) (p p' : Nat) (m : Nat) (t : Ty) (v : Val)
    (h : StreamAt c sz ok maps nums fs (a ++ .field m v :: b) data p p') (hd : 2 * recDepthL (a ++ .field m v :: b) ≤ d)
    (ht : fs[m]? = some t) (hs : singular t = true) (hb : ∀ r ∈ b, r.member ≠ some m) :
    ∃ vs, decMany (d + 1) c data [(.msg sz ok maps nums fs, old)] p = ⟨.ok, [.list vs], p'⟩ ∧ vs[m]? = some v := by
  obtain ⟨vs, h1, _, h2⟩ := C35_members d c sz ok maps nums fs _ old data p p' h hd
  refine ⟨vs, h1, ?_⟩
  have hn : recsOf m b = [] := by
    rw [recsOf, List.filter_eq_nil_iff]
    intro r hr
    simpa using hb r hr
  have : recsOf m (a ++ .field m v :: b) = recsOf m a ++ [.field m v] := by
    have e : recsOf m (a ++ .field m v :: b) = recsOf m a ++ .field m v :: recsOf m b := by
      simp [recsOf, Rec.member]
    rw [e, hn]
  rw [h2 m t ht, this, List.foldl_append, List.foldl_cons, List.foldl_nil]
  cases t <;> first | (simp only [recEffect]; done) | (simp [singular] at hs)

/-- Records with bytes in a container member are groups of elements. -/
theorem recs_container {env : Nat → Ty} {maps : List (Nat × Nat)} {nums : List (Option Nat)} {fs : List Ty} {m : Nat} {t : Ty}
    (ht : fs[m]? = some t) (hmo : msgOf env t = none) : ∀ {rs : List Rec} {bs : List UInt8},
    recsBytes env maps nums fs rs = some bs → ∀ r ∈ recsOf m rs, ∀ rs', r ≠ .sub m rs'
  | [], _, _, r, hr, _ => by simp [recsOf] at hr
  | r' :: rs, bs, h, r, hr, rs' => by
    simp only [recsBytes, cat_eq_some] at h
    obtain ⟨x, y, hx, hy, _⟩ := h
    simp only [recsOf, List.mem_filter, List.mem_cons] at hr
    rcases hr with ⟨rfl | hr, hm⟩
    · rintro rfl
      simp [recBytes, ht, hmo] at hx
    · exact recs_container ht hmo hy r (by simp only [recsOf, List.mem_filter]; exact ⟨hr, hm⟩) rs'

/-- Folding the records of a container whose records add elements. -/
theorem fold_container {c : Cfg} {t : Ty} {m : Nat} (hne : (∃ k s e, t = .seq k s e ∧ fixedElem e = false) ∨
      ∃ mu ha s k mt, t = .assoc mu ha s k mt) :
    ∀ (rs : List Rec) (acc : List Val), (∀ r ∈ rs, r.member = some m ∧ ∀ rs', r ≠ .sub m rs') →
      rs.foldl (fun cur r => recEffect (insideMsg c) t r cur) (.list acc) = .list (addAll (insideMsg c) t (rs.flatMap (elementsOf c t)) acc)
  | [], acc, _ => by
    rcases hne with ⟨k, s, e, rfl, _⟩ | ⟨mu, ha, s, k, mt, rfl⟩ <;> simp [addAll]
  | r :: rs, acc, h => by
    have hadd : ∀ es fs vs, addAll (insideMsg c) t (es ++ fs) vs = addAll (insideMsg c) t fs (addAll (insideMsg c) t es vs) := by
      intro es fs vs
      rcases hne with ⟨k, s, e, rfl, _⟩ | ⟨mu, ha, s, k, mt, rfl⟩ <;> simp [addAll]
    have hnil : ∀ vs, addAll (insideMsg c) t [] vs = vs := by
      intro vs
      rcases hne with ⟨k, s, e, rfl, _⟩ | ⟨mu, ha, s, k, mt, rfl⟩ <;> simp [addAll]
    have step : recEffect (insideMsg c) t r (.list acc) = .list (addAll (insideMsg c) t (elementsOf c t r) acc) := by
      obtain ⟨hm, hsub⟩ := h r (by simp)
      cases r with
      | field m' v =>
        simp only [elementsOf]
        by_cases hv : v.elems = []
        · rw [hv, hnil]
          rcases hne with ⟨k, s, e, rfl, he⟩ | ⟨mu, ha, s, k, mt, rfl⟩ <;> simp [recEffect, hv]
        · have : v.elems.isEmpty = false := by simpa using hv
          rcases hne with ⟨k, s, e, rfl, he⟩ | ⟨mu, ha, s, k, mt, rfl⟩
          · simp only [recEffect, this, he, Bool.false_eq_true, if_false]; rfl
          · simp only [recEffect, this, Bool.false_eq_true, if_false]; rfl
      | one m' e => simp only [recEffect, elementsOf]; rfl
      | blank m' =>
        simp only [elementsOf, hnil]
        rcases hne with ⟨k, s, e, rfl, he⟩ | ⟨mu, ha, s, k, mt, rfl⟩
        · simp [recEffect, he, Val.elems]
        · simp [recEffect, Val.elems]
      | sub m' rs' => cases hm; exact absurd rfl (hsub rs')
      | elem m' o rs' => simp only [recEffect, elementsOf]; rfl
      | unknown => cases hm
    rw [List.foldl_cons, step, fold_container hne rs _ (fun r hr => h r (by simp [hr])), List.flatMap_cons, hadd]

/-- C35 for sequences of varints, enumerations, strings, byte strings and messages: the elements are those of all
records of the field, in order, whether they come in packed records or one by one.
Missing: the same for packed records of fixed size numbers, for which it is false (`C35_fixed_overwritten`). -/
theorem C35_repeated_partial (d : Nat) (c : Cfg) (sz : Option SizeTy) (ok : Bool) (maps : List (Nat × Nat)) (nums : List (Option Nat))
    (fs : List Ty) (rs : List Rec) (old : Val) (data : List UInt8) (p p' : Nat) (m : Nat) (k : SeqKind) (s : Option SizeTy) (e : Ty)
    (h : StreamAt c sz ok maps nums fs rs data p p') (hd : 2 * recDepthL rs ≤ d)
    (ht : fs[m]? = some (.seq k s e)) (he : fixedElem e = false) :
    ∃ vs, decMany (d + 1) c data [(.msg sz ok maps nums fs, old)] p = ⟨.ok, [.list vs], p'⟩ ∧
      vs[m]? = some (.list ((recsOf m rs).flatMap (elementsOf c (.seq k s e)))) := by
  obtain ⟨vs, h1, _, h2⟩ := C35_members d c sz ok maps nums fs rs old data p p' h hd
  refine ⟨vs, h1, ?_⟩
  obtain ⟨pre, body, rest, _, _, _, hb, _, _⟩ := h.bytes
  rw [h2 m _ ht]
  have := fold_container (c := c) (t := .seq k s e) (m := m) (Or.inl ⟨k, s, e, rfl, he⟩) (recsOf m rs) [] (by
    intro r hr
    refine ⟨?_, fun rs' => recs_container ht rfl hb r hr rs'⟩
    simp only [recsOf, List.mem_filter, beq_iff_eq] at hr
    exact hr.2)
  simp only [startValue, this]
  simp [addAll]

/-- C35 for sets and maps: the container holds, in its order, the elements of all records of the field; of several
elements with the same key the first one (unless equal keys are allowed). -/
theorem C35_set_map (d : Nat) (c : Cfg) (sz : Option SizeTy) (ok : Bool) (maps : List (Nat × Nat)) (nums : List (Option Nat))
    (fs : List Ty) (rs : List Rec) (old : Val) (data : List UInt8) (p p' : Nat) (m : Nat) (multi hashed : Bool) (s : Option SizeTy)
    (key : Ty) (mapped : Option Ty) (h : StreamAt c sz ok maps nums fs rs data p p') (hd : 2 * recDepthL rs ≤ d)
    (ht : fs[m]? = some (.assoc multi hashed s key mapped)) (hlt : WeakOrder (c.keyLt key)) :
    ∃ vs es, decMany (d + 1) c data [(.msg sz ok maps nums fs, old)] p = ⟨.ok, [.list vs], p'⟩ ∧ vs[m]? = some (.list es) ∧
      Ordered (c.keyLt key) multi hashed mapped.isSome es ∧
      (multi = true → es.Perm ((recsOf m rs).flatMap (elementsOf c (.assoc multi hashed s key mapped)))) ∧
      (multi = false → es.Perm (firsts (sameKey (c.keyLt key) hashed mapped.isSome) ((recsOf m rs).flatMap (elementsOf c (.assoc multi hashed s key mapped))))) := by
  obtain ⟨vs, h1, _, h2⟩ := C35_members d c sz ok maps nums fs rs old data p p' h hd
  obtain ⟨pre, body, rest, _, _, _, hb, _, _⟩ := h.bytes
  have h2 := h2 m _ ht
  have := fold_container (c := c) (t := .assoc multi hashed s key mapped) (m := m) (Or.inr ⟨_, _, _, _, _, rfl⟩)
    (recsOf m rs) [] (by
    intro r hr
    refine ⟨?_, fun rs' => recs_container ht rfl hb r hr rs'⟩
    simp only [recsOf, List.mem_filter, beq_iff_eq] at hr
    exact hr.2)
  have hins : addAll (insideMsg c) (.assoc multi hashed s key mapped) ((recsOf m rs).flatMap (elementsOf c (.assoc multi hashed s key mapped))) [] =
      insertAll (c.keyLt key) multi hashed mapped.isSome ((recsOf m rs).flatMap (elementsOf c (.assoc multi hashed s key mapped))) [] := by
    simp only [addAll, insertAll, insertElem_eq]; rfl
  simp only [startValue, this, hins] at h2
  refine ⟨vs, _, h1, h2, ?_, ?_, ?_⟩
  · exact orderedK_iff.mp (insertAll_ordered hlt _ (by simp [OrderedK]))
  · rintro rfl
    have := insertAll_multi (lt := c.keyLt key) (hashed := hashed) (isMap := mapped.isSome) ((recsOf m rs).flatMap (elementsOf c (.assoc true hashed s key mapped))) []
    exact this
  · rintro rfl
    refine (insertAll_firsts hlt (hashed := hashed) (isMap := mapped.isSome) ((recsOf m rs).flatMap (elementsOf c (.assoc false hashed s key mapped))) []).trans ?_
    rw [List.nil_append, List.filter_eq_self.mpr (by simp)]

/-- C35 for strings and byte strings (singular fields in protobuf, kept in containers of characters) and other sequences
of fixed size elements: the last record wins. -/
theorem C35_string_last (d : Nat) (c : Cfg) (sz : Option SizeTy) (ok : Bool) (maps : List (Nat × Nat)) (nums : List (Option Nat))
    (fs : List Ty) (a b : List Rec) (old : Val) (data : List UInt8) (p p' : Nat) (m : Nat) (k : SeqKind) (s : Option SizeTy) (e : Ty)
    (x : Val) (xs : List Val) (h : StreamAt c sz ok maps nums fs (a ++ .field m (.list (x :: xs)) :: b) data p p')
    (hd : 2 * recDepthL (a ++ .field m (.list (x :: xs)) :: b) ≤ d)
    (ht : fs[m]? = some (.seq k s e)) (he : fixedElem e = true) (hb : ∀ r ∈ b, r.member ≠ some m) :
    ∃ vs, decMany (d + 1) c data [(.msg sz ok maps nums fs, old)] p = ⟨.ok, [.list vs], p'⟩ ∧ vs[m]? = some (.list (x :: xs)) := by
  obtain ⟨vs, h1, _, h2⟩ := C35_members d c sz ok maps nums fs _ old data p p' h hd
  refine ⟨vs, h1, ?_⟩
  have hn : recsOf m b = [] := by
    rw [recsOf, List.filter_eq_nil_iff]
    intro r hr
    simpa using hb r hr
  have : recsOf m (a ++ .field m (.list (x :: xs)) :: b) = recsOf m a ++ [.field m (.list (x :: xs))] := by
    have e : recsOf m (a ++ .field m (.list (x :: xs)) :: b) = recsOf m a ++ .field m (.list (x :: xs)) :: recsOf m b := by
      simp [recsOf, Rec.member]
    rw [e, hn]
  rw [h2 m _ ht, this, List.foldl_append, List.foldl_cons, List.foldl_nil]
  simp [recEffect, Val.elems, he]

/-! ## A concrete stream -/

/-- A message with a number, a string, a repeated varint and a nested message. -/
def exRecTys : List Ty := [Checks.vint32, Checks.str, .seq .vector none Checks.vint32, Checks.msg [Checks.vint32]]

/-- Records out of order: the nested message, two records of the first field around a packed record, an element on its
own. -/
def exRecs : List Rec :=
  [.field 3 (.list [.num 7]), .field 0 (.num 1), .field 2 (.list [.num 300, .num 5]), .field 0 (.num 2), .one 2 (.num 6),
   .field 1 (Checks.strV [65, 66])]

def exRecBytes : List UInt8 := [34, 2, 8, 7, 8, 1, 26, 3, 172, 2, 5, 8, 2, 24, 6, 18, 2, 65, 66]

theorem exStream : StreamAt (Checks.le Checks.grow (.fixed 1)) none false [] [none, none, none, none] exRecTys exRecs
    ([9, 19] ++ exRecBytes ++ [1]) 1 21 := by
  refine ⟨so_abi, fun _ => ⟨rfl, rfl⟩, by decide +kernel, by decide, ?_, [19], exRecBytes, [1], by decide, by decide,
    by decide +kernel, by decide +kernel, ?_, by decide⟩
  · have hk : Checks.grow.limit = sizeMax := rfl
    simp only [exRecs, RecsOk, RecOk, exRecTys, and_true]
    refine ⟨?_, ?_, ?_, ?_, True.intro, ?_⟩
    · intro t ht; simp at ht; subst ht; simp [Checks.msg, Checks.vint32, LoadableRec, LoadablePbField, LoadablePb]
    · intro t ht; simp at ht; subst ht; simp [Checks.vint32, LoadableRec, LoadablePbField]
    · intro t ht; simp at ht; subst ht
      simp only [LoadableRec, LoadablePbField, Checks.vint32, isPacked, if_true]
      intro body hb
      have : wireNums (pbFmt (insideMsg (Checks.le Checks.grow (.fixed 1))).env) (packedElem (.varint 4 false)) [.num 300, .num 5] =
          some [172, 2, 5] := by decide +kernel
      rw [this] at hb
      cases hb
      intro _
      decide
    · intro t ht; simp at ht; subst ht; simp [Checks.vint32, LoadableRec, LoadablePbField]
    · intro t ht; simp at ht; subst ht
      simp only [Checks.str, Checks.strV, Checks.chr, LoadableRec, LoadablePbField, isPacked, if_true]
      intro body hb
      have : wireNums (pbFmt (insideMsg (Checks.le Checks.grow (.fixed 1))).env) (packedElem (.scalar .chr 1)) [.num 65, .num 66] =
          some [65, 66] := by decide +kernel
      simp only [List.map_cons, List.map_nil] at hb
      erw [this] at hb
      cases hb
      exact ⟨Or.inl rfl, by decide⟩
  · intro h; cases h

-- the stream is read as the theorems say: last value of the first field, elements in order, nested message, string.
example : decMany 20 (Checks.le Checks.grow (.fixed 1)) ([9, 19] ++ exRecBytes ++ [1])
    [(.msg none false [] [none, none, none, none] exRecTys, .list [.num 77, Checks.strV [1], .list [.num 4], .list [.num 9]])] 1 =
    ⟨.ok, [.list [.num 2, Checks.strV [65, 66], .list [.num 300, .num 5, .num 6], .list [.num 7]]], 21⟩ := by decide +kernel

/-- A message with a number, a string and a set, of which only the set occurs, in two records with a repeated element. -/
theorem exStream2 : StreamAt (Checks.le Checks.grow .none) none false [] [none, none, none]
    [Checks.vint32, Checks.str, .assoc false false none Checks.vint32 none]
    [.field 2 (.list [.num 5, .num 3]), .unknown 7 0, .one 2 (.num 5)] [26, 2, 5, 3, 56, 24, 5] 0 7 := by
  refine ⟨so_abi, fun _ => ⟨rfl, rfl⟩, by decide +kernel, by decide, ?_, [], [26, 2, 5, 3, 56, 24, 5], [], by decide, by decide,
    by decide +kernel, by decide +kernel, fun _ => rfl, by decide⟩
  simp only [RecsOk, RecOk, and_true]
  refine ⟨?_, by decide +kernel⟩
  intro t ht; simp at ht; subst ht
  simp only [LoadableRec, Checks.vint32, isPacked, if_true]
  intro body hb h
  cases h

-- the number is kept, the string is emptied, the set holds each element once, in order.
example : singular Checks.vint32 = true ∧
    WeakOrder ((Checks.le Checks.grow .none).keyLt Checks.vint32) ∧
    decMany 9 (Checks.le Checks.grow .none) [26, 2, 5, 3, 56, 24, 5]
      [(.msg none false [] [none, none, none] [Checks.vint32, Checks.str, .assoc false false none Checks.vint32 none],
        .list [.num 77, Checks.strV [1], .list [.num 4]])] 0 =
      ⟨.ok, [.list [.num 77, .list [], .list [.num 3, .num 5]]], 7⟩ := ⟨rfl, numLt_weak _, by decide +kernel⟩

/-- A repeated message and a map, whose elements are sequences of records themselves: the elements of the first have their two
fields in the wrong order, a field twice, and no field; the map entry lacks its value. -/
theorem exStream3 : StreamAt (Checks.le Checks.grow .none) none false [] [none, none]
    [.seq .vector none (Checks.msg [Checks.vint32, Checks.str]), .assoc false false none Checks.vint32 (some Checks.vint32)]
    [.elem 0 (.list [.num 0, .list []]) [.field 1 (.list []), .blank 1, .field 0 (.num 5)], .elem 1 (.list [.num 0, .num 0]) [.field 0 (.num 3)],
      .elem 0 (.list [.num 0, .list []]) [.field 0 (.num 1), .field 0 (.num 2)], .elem 0 (.list [.num 0, .list []]) []]
    [10, 4, 18, 0, 8, 5, 18, 2, 8, 3, 10, 4, 8, 1, 8, 2, 10, 0] 0 18 := by
  refine ⟨so_abi, fun _ => ⟨rfl, rfl⟩, by decide +kernel, by decide, ?_, [], [10, 4, 18, 0, 8, 5, 18, 2, 8, 3, 10, 4, 8, 1, 8, 2, 10, 0], [],
    by decide, by decide, by decide +kernel, by decide +kernel, fun _ => rfl, by decide⟩
  have i1 : ∀ env, Initial env (elemTy (.seq .vector none (Checks.msg [Checks.vint32, Checks.str]))) (.list [.num 0, .list []]) :=
    fun _ => .msg (.cons (.varint _ _) (.cons (.seq _ _ _) .nil))
  have i2 : ∀ env, Initial env (elemTy (.assoc false false none Checks.vint32 (some Checks.vint32))) (.list [.num 0, .num 0]) :=
    fun _ => .msg (.cons (.varint _ _) (.cons (.varint _ _) .nil))
  simp only [RecsOk, RecOk, and_true]
  refine ⟨?_, ?_, ?_, ?_⟩
  · intro t maps' nums' fs' ht hm
    cases ht; cases hm
    refine ⟨i1 _, ?_, True.intro, ?_⟩
    · intro t ht; cases ht
      simp only [Checks.str, Checks.chr, LoadableRec, LoadablePbField, isPacked, if_true]
      exact packedFits_nil _ _ _ _
    · intro t ht; cases ht; simp [Checks.vint32, LoadableRec, LoadablePbField]
  · intro t maps' nums' fs' ht hm
    cases ht; cases hm
    refine ⟨i2 _, ?_⟩
    intro t ht; cases ht; simp [Checks.vint32, entryMember, LoadableRec, LoadablePbField]
  · intro t maps' nums' fs' ht hm
    cases ht; cases hm
    refine ⟨i1 _, ?_, ?_⟩ <;> (intro t ht; cases ht; simp [Checks.vint32, LoadableRec, LoadablePbField])
  · intro t maps' nums' fs' ht hm
    cases ht; cases hm
    exact i1 _

-- the elements are read as `elementsOf` says.
example : let c := Checks.le Checks.grow .none
    (recsOf 0 [.elem 0 (.list [.num 0, .list []]) [.field 0 (.num 1), .field 0 (.num 2)]]).flatMap
      (elementsOf c (.seq .vector none (Checks.msg [Checks.vint32, Checks.str]))) = [.list [.num 2, .list []]] ∧
    decMany 9 c [10, 4, 18, 0, 8, 5, 18, 2, 8, 3, 10, 4, 8, 1, 8, 2, 10, 0]
      [(.msg none false [] [none, none] [.seq .vector none (Checks.msg [Checks.vint32, Checks.str]),
        .assoc false false none Checks.vint32 (some Checks.vint32)], .list [.list [.list [.num 9, .list [.num 9]]], .list []])] 0 =
      ⟨.ok, [.list [.list [.list [.num 5, .list []], .list [.num 2, .list []], .list [.num 0, .list []]], .list [.list [.num 3, .num 0]]]], 18⟩ :=
  ⟨by decide +kernel, by decide +kernel⟩

/-! ## Where the reader departs from protobuf -/

/-- C35 fails for packed records of fixed size numbers: of the two records `[1]` and `[2]` of a repeated `fixed32` field
only the last one is kept (protobuf concatenates). -/
theorem C35_fixed_overwritten :
    ∃ (c : Cfg) (t : Ty) (r1 r2 : List UInt8) (old : Val), t = .msg none false [] [none] [.seq .vector none (.scalar .int 4)] ∧
      pbField c.env 1 (.seq .vector none (.scalar .int 4)) (.list [.num 1]) = some r1 ∧
      pbField c.env 1 (.seq .vector none (.scalar .int 4)) (.list [.num 2]) = some r2 ∧
      decMany 9 c (r1 ++ r2) [(t, old)] 0 = ⟨.ok, [.list [.list [.num 2]]], 12⟩ :=
  ⟨Checks.le Checks.grow .none, _, [10, 4, 1, 0, 0, 0], [10, 4, 2, 0, 0, 0], .list [.list []], rfl, by decide +kernel,
    by decide +kernel, by decide +kernel⟩

/-- Several records of a nested message are merged except for its containers: the second record empties them again
(protobuf concatenates). The member `a` of the nested message survives from the first record, the elements of `b` do
not. -/
theorem C35_nested_cleared :
    ∃ (c : Cfg) (t : Ty) (old : Val), t = Checks.msg [Checks.msg [Checks.vint32, .seq .vector none Checks.vint32]] ∧
      recsBytes c.env [] [none] [Checks.msg [Checks.vint32, .seq .vector none Checks.vint32]]
        [.sub 0 [.field 0 (.num 5), .field 1 (.list [.num 1])], .sub 0 [.field 1 (.list [.num 2])]] =
        some [10, 5, 8, 5, 18, 1, 1, 10, 3, 18, 1, 2] ∧
      decMany 9 c [10, 5, 8, 5, 18, 1, 1, 10, 3, 18, 1, 2] [(t, old)] 0 = ⟨.ok, [.list [.list [.num 5, .list [.num 2]]]], 12⟩ :=
  ⟨Checks.le Checks.grow .none, _, .list [.list [.num 0, .list []]], rfl, by decide +kernel, by decide +kernel⟩

/-! ## Unknown fields -/

/-- C33 is false: the payload of an undeclared field is not skipped but read as further records. The well-formed message
"field 3 = 8, field 1 = 24" is read successfully by a reader that knows only field 1, but as "field 1 = 8"; and with
another value of the declared field it is rejected. -/
theorem C33_unknown_not_skipped :
    ∃ (c : Cfg) (t : Ty) (old : Val), t = Checks.msg [Checks.vint32] ∧
      decMany 9 c (pbRecord 3 (.varint 8) ++ pbRecord 1 (.varint 24)) [(t, old)] 0 = ⟨.ok, [.list [.num 8]], 4⟩ ∧
      (decMany 9 c (pbRecord 3 (.varint 8) ++ pbRecord 1 (.varint 5)) [(t, old)] 0).s = .err .protocolError :=
  ⟨Checks.le Checks.grow .none, _, .list [.num 0], rfl, by decide +kernel, by decide +kernel⟩

/-- C33, the part that holds: the tag of an undeclared field, anywhere between records, has no effect: the result is that
of the sequence without undeclared fields.
Missing: the payload (see `C33_unknown_not_skipped`; it is read as records, so it has no effect only if it consists of tags of
undeclared fields). -/
theorem C33_unknown_tag_partial (d : Nat) (c : Cfg) (sz : Option SizeTy) (ok : Bool) (maps : List (Nat × Nat)) (nums : List (Option Nat))
    (fs : List Ty) (rs : List Rec) (old : Val) (data data' : List UInt8) (p p' q q' : Nat)
    (h : StreamAt c sz ok maps nums fs rs data p p') (hd : 2 * recDepthL rs ≤ d)
    (h' : StreamAt c sz ok maps nums fs (declared rs) data' q q') (hd' : 2 * recDepthL (declared rs) ≤ d) :
    ∃ vs, decMany (d + 1) c data [(.msg sz ok maps nums fs, old)] p = ⟨.ok, [.list vs], p'⟩ ∧
      decMany (d + 1) c data' [(.msg sz ok maps nums fs, old)] q = ⟨.ok, [.list vs], q'⟩ := by
  refine C35_order d d c sz ok maps nums fs _ _ old data data' p p' q q' h hd h' hd' ?_
  intro m
  rw [recsOf, recsOf, declared, List.filter_filter]
  apply List.filter_congr
  intro r _
  cases r.member <;> simp

-- Unknown tags between the records of a one-field message.
example : StreamAt (Checks.le Checks.grow .none) none false [] [none] [Checks.vint32]
    [.unknown 3 0, .field 0 (.num 24), .unknown 9 2] [24, 8, 24, 74] 0 4 := by
  refine ⟨so_abi, fun _ => ⟨rfl, rfl⟩, by decide +kernel, by decide, ?_, [], [24, 8, 24, 74], [], by decide, by decide,
    by decide +kernel, by decide +kernel, fun _ => rfl, by decide⟩
  simp only [RecsOk, RecOk, and_true]
  refine ⟨by decide +kernel, ?_, by decide +kernel⟩
  intro t ht; simp at ht; subst ht; simp [Checks.vint32, LoadableRec, LoadablePbField]

end Zpp.Props
