import Verif.Proof.Concat
import Verif.Proof.Evolve
import Verif.Props.Protobuf
/-! # C101: protobuf messages one behind the other are one message -/

namespace Zpp.Props
open Zpp.Spec

/-- C101. A protobuf message (without size prefix) made of any records, followed by any bytes whatever, is read as if the message was read
first, and then the bytes that follow, as another message, into the same object: outcome, object and number of bytes read are the same.
Classes without containers among the members (see `C101_containers` for these). -/
theorem C101_one_by_one (d : Nat) (c : Cfg) (sz : Option SizeTy) (ok : Bool) (maps : List (Nat × Nat)) (nums : List (Option Nat))
    (fs : List Ty) (rs : List Rec) (old : Val) (a b : List UInt8) (h : StreamAt c sz ok maps nums fs rs a 0 a.length)
    (hd : 2 * recDepthL rs ≤ d) (hsz : sz.getD c.dsz = .none) (henv : ∀ i, widthsOk (c.env i) = true)
    (hw : ∀ t ∈ fs, widthsOk t = true) (hno : ∀ t ∈ fs, repeats t = false) (hlen : (a ++ b).length < 2 ^ 64) :
    ∃ v, decMany (d + 1) c a [(.msg sz ok maps nums fs, old)] 0 = ⟨.ok, [v], a.length⟩ ∧
      let r := decMany (d + 1) c b [(.msg sz ok maps nums fs, v)] 0
      decMany (d + 1) c (a ++ b) [(.msg sz ok maps nums fs, old)] 0 = ⟨r.s, r.vs, a.length + r.p⟩ := by
  obtain ⟨pre, body, rest, h1, h2, h3, h4, h5, h6⟩ := h.bytes
  rw [hsz] at h3
  simp only [sizePrefix, Option.some.injEq] at h3
  have h7 := h5 hsz
  subst h3
  subst h7
  simp only [List.take_zero, List.nil_append, List.append_nil] at h1
  subst h1
  have e1 := msg_recs d c h.abi h.env (body := a) (pre := []) (rest := []) h.good h4 (by rw [hsz]; rfl) (fun _ => rfl) h.loadable hd old
    h.small (p := 0) (by omega) (by simp)
  have e2 := msg_parts d c h.abi h.env henv (b := b) hsz hw hno h.good h4 h.loadable hd old hlen
  refine ⟨_, by simp only [decMany, e1]; simp; rfl, ?_⟩
  simp only [decMany, e2]
  generalize decode (d + 1) c (.msg sz ok maps nums fs) _ b 0 = r
  obtain ⟨s, v, p⟩ := r
  cases s <;> rfl

/-- C101. Two protobuf messages (without size prefix) made of any records, one behind the other, are read as one message. A member that is not
a container has the value it has when the messages are read one by one into the same object; a sequence (of varints, enumerations,
strings or messages) holds the elements of the first message and then those of the second. -/
theorem C101_containers (d : Nat) (c : Cfg) (sz : Option SizeTy) (ok : Bool) (maps : List (Nat × Nat)) (nums : List (Option Nat))
    (fs : List Ty) (rs rs' : List Rec) (old : Val) (a b : List UInt8) (h : StreamAt c sz ok maps nums fs rs a 0 a.length)
    (h' : StreamAt c sz ok maps nums fs rs' b 0 b.length) (hd : 2 * recDepthL rs ≤ d) (hd' : 2 * recDepthL rs' ≤ d)
    (hsz : sz.getD c.dsz = .none) (hlen : (a ++ b).length < 2 ^ 64) :
    ∃ us vs ws, decMany (d + 1) c a [(.msg sz ok maps nums fs, old)] 0 = ⟨.ok, [.list us], a.length⟩ ∧
      decMany (d + 1) c b [(.msg sz ok maps nums fs, .list us)] 0 = ⟨.ok, [.list vs], b.length⟩ ∧
      decMany (d + 1) c (a ++ b) [(.msg sz ok maps nums fs, old)] 0 = ⟨.ok, [.list ws], a.length + b.length⟩ ∧
      ws.length = fs.length ∧
      (∀ (m : Nat) t, fs[m]? = some t → singular t = true → ws[m]? = vs[m]?) ∧
      ∀ (m : Nat) k s e, fs[m]? = some (.seq k s e) → fixedElem e = false →
        ∃ xs ys, us[m]? = some (.list xs) ∧ vs[m]? = some (.list ys) ∧ ws[m]? = some (.list (xs ++ ys)) := by
  have hbytes : ∀ {rs : List Rec} {x : List UInt8}, StreamAt c sz ok maps nums fs rs x 0 x.length →
      recsBytes c.env maps nums fs rs = some x := by
    intro rs x h
    obtain ⟨pre, body, rest, h1, h2, h3, h4, h5, h6⟩ := h.bytes
    rw [hsz] at h3
    simp only [sizePrefix, Option.some.injEq] at h3
    have h7 := h5 hsz
    subst h3
    subst h7
    simp only [List.take_zero, List.nil_append, List.append_nil] at h1
    rw [h1]; exact h4
  have hab : StreamAt c sz ok maps nums fs (rs ++ rs') (a ++ b) 0 (a ++ b).length := by
    refine ⟨h.abi, h.env, h.good, hlen, recsOk_append h.loadable h'.loadable, [], a ++ b, [], by simp, by omega, ?_, ?_, fun _ => rfl, by simp⟩
    · rw [hsz]; rfl
    · rw [recsBytes_append, hbytes h, hbytes h']; rfl
  have hdab : 2 * recDepthL (rs ++ rs') ≤ d := by rw [recDepthL_append]; omega
  obtain ⟨us, u1, u2, u3⟩ := C35_members d c sz ok maps nums fs rs old a 0 _ h hd
  obtain ⟨vs, v1, v2, v3⟩ := C35_members d c sz ok maps nums fs rs' (.list us) b 0 _ h' hd'
  obtain ⟨ws, w1, w2, w3⟩ := C35_members d c sz ok maps nums fs (rs ++ rs') old (a ++ b) 0 _ hab hdab
  rw [List.length_append] at w1
  refine ⟨us, vs, ws, u1, v1, w1, w2, ?_, ?_⟩
  · intro m t ht hs
    have hst : ∀ o, startValue t o = o := by intro o; cases t <;> first | rfl | cases hs
    rw [w3 m t ht, v3 m t ht, recsOf, recsOf, List.filter_append, List.foldl_append, hst, hst]
    have := u3 m t ht
    rw [hst, recsOf] at this
    simp only [Val.elems, List.getD, this, Option.getD_some]
  · intro m k s e ht he
    obtain ⟨us', u1', u2'⟩ := C35_repeated_partial d c sz ok maps nums fs rs old a 0 _ m k s e h hd ht he
    obtain ⟨vs', v1', v2'⟩ := C35_repeated_partial d c sz ok maps nums fs rs' (.list us) b 0 _ m k s e h' hd' ht he
    obtain ⟨ws', w1', w2'⟩ := C35_repeated_partial d c sz ok maps nums fs (rs ++ rs') old (a ++ b) 0 _ m k s e hab hdab ht he
    rw [u1] at u1'
    rw [v1] at v1'
    rw [List.length_append, w1] at w1'
    simp only [ResL.mk.injEq, List.cons.injEq, Val.list.injEq, true_and, and_true] at u1' v1' w1'
    subst u1'
    subst v1'
    subst w1'
    refine ⟨_, _, u2', v2', ?_⟩
    rw [w2', recsOf, List.filter_append, List.flatMap_append]
    rfl

/-! ## Concrete messages -/

/-- A class with a number and a nested class of two numbers. -/
def exPair : List Ty := [Checks.vint32, Checks.msg [Checks.vint32, Checks.vint32]]

theorem exPairStream : StreamAt (Checks.le Checks.grow .none) none false [] [none, none] exPair
    [.field 0 (.num 1), .sub 1 [.field 0 (.num 7)]] [8, 1, 18, 2, 8, 7] 0 6 := by
  refine ⟨so_abi, fun _ => ⟨rfl, rfl⟩, by decide +kernel, by decide, ?_, [], [8, 1, 18, 2, 8, 7], [], by decide, by decide,
    by decide +kernel, by decide +kernel, fun _ => rfl, by decide⟩
  simp only [RecsOk, RecOk, and_true, exPair]
  refine ⟨?_, ?_⟩
  · intro t ht; simp at ht; subst ht; simp [Checks.vint32, LoadableRec, LoadablePbField]
  · intro t maps' nums' fs' ht hm; simp at ht; subst ht
    simp only [Checks.msg, msgOf, Option.some.injEq, Prod.mk.injEq] at hm
    obtain ⟨rfl, rfl, rfl⟩ := hm
    intro t ht; simp at ht; subst ht; simp [Checks.vint32, LoadableRec, LoadablePbField]

-- what follows has the second number of the nested class, and is cut afterwards: all that could be read is in the object.
example : (∀ t ∈ exPair, widthsOk t = true) ∧ (∀ t ∈ exPair, repeats t = false) ∧
    decMany 9 (Checks.le Checks.grow .none) ([8, 1, 18, 2, 8, 7] ++ [18, 2, 16, 9, 8])
      [(.msg none false [] [none, none] exPair, .list [.num 0, .list [.num 0, .num 0]])] 0 =
      ⟨.err .resultOutOfRange, [.list [.num 1, .list [.num 7, .num 9]]], 11⟩ := by
  refine ⟨?_, ?_, by decide +kernel⟩ <;> intro t ht <;> simp [exPair] at ht <;> rcases ht with rfl | rfl <;> rfl

/-- The first part has to be a message of its own. If the length of a nested message in it is greater than what is left, reading the part
alone succeeds, since lengths are cut to what is there; but followed by other bytes it takes these as its own. -/
theorem C101_cut_refuted : ∃ (c : Cfg) (t : Ty) (a b : List UInt8) (old u v w : Val), t = .msg none false [] [none, none] exPair ∧
    decMany 9 c a [(t, old)] 0 = ⟨.ok, [u], a.length⟩ ∧ decMany 9 c b [(t, u)] 0 = ⟨.ok, [v], b.length⟩ ∧
    decMany 9 c (a ++ b) [(t, old)] 0 = ⟨.ok, [w], a.length + b.length⟩ ∧ v ≠ w := by
  refine ⟨Checks.le Checks.grow .none, _, [18, 4, 16, 7], [8, 1], .list [.num 0, .list [.num 0, .num 0]],
    .list [.num 0, .list [.num 0, .num 7]], .list [.num 1, .list [.num 0, .num 7]], .list [.num 0, .list [.num 1, .num 7]], rfl, ?_⟩
  decide +kernel

/-- A class with a number and a repeated number. -/
def exList : List Ty := [Checks.vint32, .seq .vector none Checks.vint32]

theorem exListFirst : StreamAt (Checks.le Checks.grow .none) none false [] [none, none] exList
    [.field 0 (.num 4), .one 1 (.num 1), .one 1 (.num 2)] [8, 4, 16, 1, 16, 2] 0 6 := by
  refine ⟨so_abi, fun _ => ⟨rfl, rfl⟩, by decide +kernel, by decide, ?_, [], [8, 4, 16, 1, 16, 2], [], by decide, by decide,
    by decide +kernel, by decide +kernel, fun _ => rfl, by decide⟩
  simp only [RecsOk, RecOk, and_true, exList]
  intro t ht; simp at ht; subst ht; simp [Checks.vint32, LoadableRec, LoadablePbField]

theorem exListSecond : StreamAt (Checks.le Checks.grow .none) none false [] [none, none] exList
    [.one 1 (.num 3), .field 0 (.num 5)] [16, 3, 8, 5] 0 4 := by
  refine ⟨so_abi, fun _ => ⟨rfl, rfl⟩, by decide +kernel, by decide, ?_, [], [16, 3, 8, 5], [], by decide, by decide,
    by decide +kernel, by decide +kernel, fun _ => rfl, by decide⟩
  simp only [RecsOk, RecOk, and_true, exList, true_and]
  intro t ht; simp at ht; subst ht; simp [Checks.vint32, LoadableRec, LoadablePbField]

-- one by one, the second message empties the container; as one message the elements are put together.
example :
    let c := Checks.le Checks.grow .none
    let t : Ty := .msg none false [] [none, none] exList
    decMany 9 c [8, 4, 16, 1, 16, 2] [(t, .list [.num 0, .list []])] 0 = ⟨.ok, [.list [.num 4, .list [.num 1, .num 2]]], 6⟩ ∧
    decMany 9 c [16, 3, 8, 5] [(t, .list [.num 4, .list [.num 1, .num 2]])] 0 = ⟨.ok, [.list [.num 5, .list [.num 3]]], 4⟩ ∧
    decMany 9 c ([8, 4, 16, 1, 16, 2] ++ [16, 3, 8, 5]) [(t, .list [.num 0, .list []])] 0 =
      ⟨.ok, [.list [.num 5, .list [.num 1, .num 2, .num 3]]], 10⟩ := by decide +kernel

end Zpp.Props
