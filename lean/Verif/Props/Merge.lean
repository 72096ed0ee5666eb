import Verif.Proof.Merge
import Verif.Props.Concat
import Verif.Props.RoundTrip
/-! # C104: protobuf messages appended to protobuf messages -/

namespace Zpp.Props
open Zpp.Spec

/-- C104. Any number of objects of a class written as protobuf messages without size, one behind the other, and read from there up to
the end of what was written as one message, into any object: the call succeeds, reads everything, and every member is what
`mergeValue` makes of its values in the objects, in their order. -/
theorem C104_merged (d d' : Nat) (co ci : Cfg) (noFit : Bool) (ok : Bool) (maps : List (Nat × Nat)) (nums : List (Option Nat))
    (fs : List Ty) (vss : List (List Val)) (old : Val) (st st' : OutSt) (bs : List UInt8) (hf : fmtOf ci = fmtOf co) (hne : vss ≠ [])
    (hpos : st.pos ≤ st.data.length) (hlen : st.data.length < 2 ^ 63) (hs : Supported co (unsizedItems ok maps nums fs vss))
    (hd : StackOk d (unsizedItems ok maps nums fs vss)) (hb : BitsOk (unsizedItems ok maps nums fs vss) st)
    (hw : wireItems (fmtOf co) (unsizedItems ok maps nums fs vss) = some bs) (hl : bs.length < 2 ^ 62)
    (hok : outCall d co noFit (unsizedItems ok maps nums fs vss) st = (.ok, st'))
    (ha : AbiOk ci.sizeof) (he : EnvGood ci) (hg : Good ci (.msg (some .none) ok maps nums fs) = true)
    (hld : ∀ vs ∈ vss, LoadablePb (insideMsg ci) fs vs) (hd' : StackOk (d' + 1) (unsizedItems ok maps nums fs vss)) :
    ∃ ws, decMany (d' + 1) ci (st'.data.take st'.pos) [(.msg (some .none) ok maps nums fs, old)] st.pos = ⟨.ok, [.list ws], st'.pos⟩ ∧
      ws.length = fs.length ∧
      ∀ (m : Nat) t, fs[m]? = some t →
        ws[m]? = some (vss.foldl (fun x vs => mergeValue ci t x (vs.getD m .unit)) (startValue t (old.elems.getD m .unit))) := by
  obtain ⟨h1, k, h2⟩ := C04_growing_appends d co noFit _ st st' bs hpos hlen hs hd hb hw (by omega) hok
  have hdata : st'.data.take st'.pos = st.data.take st.pos ++ bs := by
    rw [h2, h1, List.append_assoc, List.take_append_of_le_length (by simp; omega), List.take_of_length_le (by simp; omega)]
  obtain ⟨hrec, hpb⟩ := unsized_bytes vss bs hw
  have hvl : ∀ vs ∈ vss, vs.length = fs.length := by
    intro vs hv
    obtain ⟨body, hb⟩ := hpb vs hv
    exact pbFields_vals fs nums vs 0 body hb
  have hdep : 2 * recDepthL (vss.flatMap (objRecs fs)) ≤ d' := by
    have : ∀ vs ∈ vss, 2 * (1 + depthL vs) ≤ d' + 1 := by
      intro vs hv
      exact hd' (.msg (some .none) ok maps nums fs, .list vs) (List.mem_map.mpr ⟨vs, hv, rfl⟩)
    have := unsized_depth (fs := fs) (D := d' / 2) vss (fun vs hv => ⟨hvl vs hv, by have := this vs hv; omega⟩)
    omega
  have hstream : StreamAt ci (some .none) ok maps nums fs (vss.flatMap (objRecs fs)) (st'.data.take st'.pos) st.pos st'.pos := by
    refine ⟨ha, he, hg, by rw [hdata]; simp; omega, unsized_ok vss (fun vs hv => ⟨hvl vs hv, hld vs hv⟩), [], bs, [], ?_, ?_, rfl, ?_,
      fun _ => rfl, by simp [h1]⟩
    · rw [hdata, List.take_append_of_le_length (by simp; omega), List.take_take]
      simp
    · rw [hdata]; simp; omega
    · have : ci.env = (fmtOf co).env := by rw [← hf]; rfl
      rw [this]; exact hrec
  obtain ⟨ws, h3, h4, h5⟩ := C35_members d' ci (some .none) ok maps nums fs _ old _ _ _ hstream hdep
  refine ⟨ws, h3, h4, ?_⟩
  intro m t ht
  rw [h5 m t ht]
  have hm : m < fs.length := (List.getElem?_eq_some_iff.mp ht).1
  have hn : nums.length = fs.length := by
    cases vss with
    | nil => exact absurd rfl hne
    | cons vs vss =>
      obtain ⟨body, hb⟩ := hpb vs (by simp)
      exact pbFields_lengths fs nums vs 0 body hb
  have hmerge := merged_member (c := insideMsg ci) (env := (fmtOf co).env) (fs := fs) (m := m)
    (num := fieldNumber maps nums[m] (0 + m)) (t := t) hm vss
    (startValue t (old.elems.getD m .unit)) (by
      intro vs hv
      obtain ⟨body, hb⟩ := hpb vs hv
      have hvm : vs[m]? = some (vs.getD m .unit) := by
        have : m < vs.length := by rw [hvl vs hv]; exact hm
        simp [List.getD, List.getElem?_eq_getElem this]
      exact pbFields_field fs nums vs 0 body hb m t _ _ ht hvm (List.getElem?_eq_getElem (by omega))) (shapeOk_start _ _)
  rw [hmerge]
  have hcfg : ∀ x v, mergeValue (insideMsg ci) t x v = mergeValue ci t x v := by
    intro x v; cases t <;> rfl
  simp only [hcfg]

/-- C104. What this means for members of the various kinds: numbers, enumerations, booleans and nested messages are those of the last
object; sequences of varints, enumerations, strings and messages hold the elements of all objects in order; strings and sequences of
numbers of fixed size are those of the last object where they are not empty. -/
theorem C104_values (c : Cfg) (t : Ty) (vss : List (List Val)) (m : Nat) (o : Val) :
    let r := vss.foldl (fun x vs => mergeValue c t x (vs.getD m .unit)) (startValue t o)
    (singular t = true → ∀ hne : vss ≠ [], r = (vss.getLast hne).getD m .unit) ∧
    (∀ k s e, t = .seq k s e → fixedElem e = false → r = .list (vss.flatMap fun vs => (vs.getD m .unit).elems)) ∧
    (∀ k s e, t = .seq k s e → fixedElem e = true →
      r = ((vss.map fun vs => vs.getD m .unit).filter fun v => !v.elems.isEmpty).getLastD (.list [])) := by
  intro r
  refine ⟨?_, ?_, ?_⟩
  · intro ht hne
    have hm : ∀ x v, mergeValue c t x v = v := by intro x v; cases t <;> first | rfl | cases ht
    obtain ⟨init, l, rfl⟩ : ∃ init l, vss = init ++ [l] := ⟨vss.dropLast, vss.getLast hne, (List.dropLast_concat_getLast hne).symm⟩
    show List.foldl _ _ _ = _
    rw [List.foldl_append, List.foldl_cons, List.foldl_nil, hm]
    simp
  · rintro k s e rfl hf
    have : ∀ (vss : List (List Val)) (l : List Val),
        vss.foldl (fun x vs => mergeValue c (.seq k s e) x (vs.getD m .unit)) (.list l) =
          .list (l ++ vss.flatMap fun vs => (vs.getD m .unit).elems) := by
      intro vss
      induction vss with
      | nil => intro l; simp
      | cons vs vss ih =>
        intro l
        rw [List.foldl_cons, List.flatMap_cons, ← List.append_assoc, ← ih]
        simp only [mergeValue, hf, Bool.false_eq_true, if_false]
        rfl
    exact this vss []
  · rintro k s e rfl hf
    have : ∀ (vss : List (List Val)) (x : Val),
        vss.foldl (fun x vs => mergeValue c (.seq k s e) x (vs.getD m .unit)) x =
          ((vss.map fun vs => vs.getD m .unit).filter fun v => !v.elems.isEmpty).getLastD x := by
      intro vss
      induction vss with
      | nil => intro x; rfl
      | cons vs vss ih =>
        intro x
        rw [List.foldl_cons, ih]
        simp only [mergeValue, hf, if_true, List.map_cons, List.filter_cons]
        cases (vs.getD m .unit).elems.isEmpty
        · simp only [Bool.false_eq_true, if_false, Bool.not_false, if_true, List.getLastD_cons]
        · simp only [if_true, Bool.not_true, Bool.false_eq_true, if_false]
    exact this vss _

/-- A message with a number, numbers, a string and a map; two objects of the class written one behind the other behind another byte, and read as one. -/
example :
    let c := Checks.le Checks.grow (.fixed 4)
    let fs := [Checks.vint32, .seq .vector none Checks.vint32, Checks.str,
      .assoc false false none Checks.vint32 (some Checks.vint32)]
    let nums : List (Option Nat) := [none, none, none, none]
    let t := Ty.msg (some .none) false [] nums fs
    let a := [.num 5, .list [.num 1, .num 2], Checks.strV [65], .list [.list [.num 1, .num 7]]]
    let b := [.num 6, .list [.num 3], Checks.strV [], .list [.list [.num 1, .num 8], .list [.num 2, .num 9]]]
    let r := outCall 9 c false (unsizedItems false [] nums fs [a, b]) ⟨[77], 1⟩
    r.1 = .ok ∧ r.2.pos = 33 ∧
    decMany 9 c (r.2.data.take r.2.pos) [(t, .list [.num 9, .list [.num 9], Checks.strV [90], .list []])] 1 =
      ⟨.ok, [.list [.num 6, .list [.num 1, .num 2, .num 3], Checks.strV [65], .list [.list [.num 1, .num 7], .list [.num 2, .num 9]]]],
        33⟩ := by
  decide +kernel

/-- The hypotheses of `C104_merged` hold for two objects with a number and a sequence of numbers. -/
example :
    let c := Checks.le Checks.grow (.fixed 4)
    let fs := [Checks.vint32, .seq .vector none Checks.vint32]
    let nums : List (Option Nat) := [none, none]
    let vss := [[.num 5, .list [.num 1, .num 2]], [.num 6, .list [.num 3]]]
    let items := unsizedItems false [] nums fs vss
    Supported c items ∧ StackOk 9 items ∧ BitsOk items ⟨[77], 1⟩ ∧
    wireItems (fmtOf c) items = some [8, 5, 18, 2, 1, 2, 8, 6, 18, 1, 3] ∧
    (outCall 9 c false items ⟨[77], 1⟩).1 = .ok ∧ Good c (.msg (some .none) false [] nums fs) = true ∧
    ∀ vs ∈ vss, LoadablePb (insideMsg c) fs vs := by
  refine ⟨⟨grow_ok, so_abi, fun _ => ⟨rfl, rfl⟩, ?_⟩, ?_, Or.inl ?_, by decide +kernel, by decide +kernel, rfl, ?_⟩
  · intro x hx
    simp only [unsizedItems, List.map_cons, List.map_nil, List.mem_cons, List.not_mem_nil, or_false] at hx
    rcases hx with rfl | rfl <;> rfl
  · intro x hx
    simp only [unsizedItems, List.map_cons, List.map_nil, List.mem_cons, List.not_mem_nil, or_false] at hx
    rcases hx with rfl | rfl <;> decide
  · intro x hx
    simp only [unsizedItems, List.map_cons, List.map_nil, List.mem_cons, List.not_mem_nil, or_false] at hx
    rcases hx with rfl | rfl <;> rfl
  · intro vs hv
    simp only [List.mem_cons, List.not_mem_nil, or_false] at hv
    have h : ∀ l b, wireNums (pbFmt fun _ => .empty) (.varint 4 false) l = some b → b.length ≤ 2 →
        PackedFits (insideMsg (Checks.le Checks.grow (.fixed 4))) true true (.varint 4 false) l := by
      intro l b hb hl body hb'
      have : body = b := Option.some.inj (hb'.symm.trans hb)
      subst this
      simp [packedElem, Checks.le, Checks.grow, Checks.so, insideMsg]
      omega
    rcases hv with rfl | rfl <;> refine ⟨trivial, ?_, trivial⟩
    · exact h [.num 1, .num 2] [1, 2] (by decide +kernel) (by decide)
    · exact h [.num 3] [3] (by decide +kernel) (by decide)

end Zpp.Props
