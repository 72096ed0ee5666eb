import Verif.Proof.Evolve
import Verif.Proof.InRound
import Verif.Props.Output
import Verif.Checks
/-!
# Properties of protobuf messages read by other versions of their classes
-/

namespace Zpp.Props
open Zpp Zpp.Spec

/-- C71. A message that was written with one class is read with another class, whose members include those of the first (by
field number, in any order, possibly of other types with the same encoding, also inside nested messages and the elements of
repeated members and maps). Every member of the writer is found in the reader's member with the same number; the other
members of the reader are left as they are, except that containers become empty. -/
theorem C71_evolve (d d' D : Nat) (co ci : Cfg) (noFit : Bool) (sz sz' : Option SizeTy) (ok ok' : Bool)
    (maps maps' : List (Nat × Nat)) (nums nums' : List (Option Nat)) (fs fs' : List Ty) (vs olds ws : List Val) (st st' : OutSt)
    (bs : List UInt8) (hf : fmtOf ci = fmtOf co) (hsz : sz'.getD ci.dsz = sz.getD co.dsz)
    (hm : MsgReadAs ci D maps nums fs vs maps' nums' fs' olds ws)
    (hpos : st.pos ≤ st.data.length) (hlen : st.data.length < 2 ^ 63)
    (hs : Supported co [(.msg sz ok maps nums fs, .list vs)]) (hd : StackOk d [(.msg sz ok maps nums fs, .list vs)])
    (hb : BitsOk [(.msg sz ok maps nums fs, .list vs)] st)
    (hw : wireItems (fmtOf co) [(.msg sz ok maps nums fs, .list vs)] = some bs) (hl : bs.length < 2 ^ 63)
    (hok : outCall d co noFit [(.msg sz ok maps nums fs, .list vs)] st = (.ok, st'))
    (ha : AbiOk ci.sizeof) (he : EnvGood ci) (gt : Good ci (.msg sz' ok' maps' nums' fs') = true)
    (hd' : 2 * (depthL ws + D) ≤ d') (hend : sz'.getD ci.dsz = .none → st'.pos = st'.data.length) :
    decMany (d' + 1) ci st'.data [(.msg sz' ok' maps' nums' fs', .list olds)] st.pos = ⟨.ok, [.list ws], st'.pos⟩ := by
  obtain ⟨h1, k, h2⟩ := C04_growing_appends d co noFit _ st st' bs hpos hlen hs hd hb hw hl hok
  have hv := (outCall_safe d co hs.growth noFit [(.msg sz ok maps nums fs, .list vs)] st ⟨hpos, hlen⟩).valid hs.growth ⟨hpos, hlen⟩
  rw [hok] at hv
  have hvl := hv.len_lt
  simp only at hvl
  have henv : (fmtOf co).env = ci.env := by rw [← hf]; rfl
  simp only [wireItems, wire, cat_eq_some] at hw
  obtain ⟨b, e, hw, hnil, rfl⟩ := hw
  cases hnil
  rw [List.append_nil] at h1 h2 hl
  split at hw
  · next body hbody =>
    obtain ⟨pre, body', hpre, hbe, rfl⟩ := cat_eq_some.mp hw
    cases hbe
    rw [henv] at hbody
    obtain ⟨rs, r1, r2, r3, r4⟩ := msgReadAs_recs hm body hbody
    have hpre' : sizePrefix (fmtOf ci) (sz'.getD ci.dsz) body.length = some pre := by
      rw [hsz, hf]; exact msgPrefix_size hpre
    have hdr : st'.data.drop st.pos = pre ++ (body ++ (st.data.drop (st.pos + (pre ++ body).length) ++ List.replicate k 0)) := by
      rw [h2, List.append_assoc, List.append_assoc, List.drop_append_of_le_length (by simp; omega)]
      rw [List.drop_eq_nil_of_le (by simp; omega)]
      simp
    have hpl : st.pos ≤ st'.data.length := by rw [h2]; simp; omega
    have := msg_recs d' ci ha he gt r1 hpre' (by
      intro hn
      have h3 := hend hn
      have h4 := congrArg List.length hdr
      simp only [List.length_append, List.length_drop] at h4 h1
      apply List.eq_nil_of_length_eq_zero
      simp only [List.length_append, List.length_drop]
      omega) r2 (by omega) (.list olds) (by omega) hpl hdr
    rw [decMany]
    simp only [this, decMany]
    have r3' : recsEffect (pbCfg ci) fs' rs (emptied fs' (Val.list olds).elems) = ws := r3
    rw [r3', h1, List.length_append, Nat.add_assoc]
  · cases hw

theorem loadablePb_get {c : Cfg} : ∀ {fs : List Ty} {vs : List Val}, LoadablePb c fs vs → ∀ {m : Nat} {t : Ty} {x : Val},
    fs[m]? = some t → vs[m]? = some x → LoadablePbField c t x
  | [], _, _, _, _, _, h, _ => by simp at h
  | _ :: _, [], _, _, _, _, _, h => by simp at h
  | t' :: fs, v :: vs, hl, 0, t, x, h1, h2 => by
    simp only [List.getElem?_cons_zero, Option.some.injEq] at h1 h2
    subst h1 h2
    simp only [LoadablePb] at hl
    exact hl.1
  | t' :: fs, v :: vs, hl, m + 1, t, x, h1, h2 => by
    simp only [List.getElem?_cons_succ] at h1 h2
    simp only [LoadablePb] at hl
    exact loadablePb_get hl.2 h1 h2

/-- Members appended to a class. -/
theorem readAs_appended {c : Cfg} {D : Nat} {maps : List (Nat × Nat)} {nums more : List (Option Nat)} {fs extra : List Ty} {vs olds : List Val}
    (hv : vs.length = fs.length) (hn : nums.length = fs.length) (hl : LoadablePb (insideMsg c) fs vs) :
    MsgReadAs c D maps nums fs vs maps (nums ++ more) (fs ++ extra) olds (vs ++ emptied extra (olds.drop fs.length)) := by
  refine .mk id hv (by simp [emptied_length, hv]) ?_ (fun m n _ _ e => e) ?_ ?_
  · intro m hm
    refine ⟨by simp only [id, List.length_append]; omega, ?_⟩
    simp only [id, numberAt, List.getD_eq_getElem?_getD, List.getElem?_append_left (show m < nums.length by omega)]
  · intro m t x t' w h1 h2 h3 h4
    obtain ⟨hm, _⟩ := List.getElem?_eq_some_iff.mp h1
    simp only [id, List.getElem?_append_left hm] at h3
    simp only [id, List.getElem?_append_left (show m < vs.length by omega)] at h4
    rw [h1] at h3; rw [h2] at h4
    cases h3; cases h4
    exact .same (fun _ => rfl) (loadablePb_get hl h1 h2)
  · intro k t' h1 h2
    have hk : fs.length ≤ k := Nat.le_of_not_lt fun hk => h2 k hk rfl
    rw [List.getElem?_append_right hk] at h1
    rw [List.getElem?_append_right (by omega), hv, emptied_get _ _ _ _ h1]
    congr 2
    simp only [List.getD_eq_getElem?_getD, List.getElem?_drop]
    congr 2
    omega

/-- C71. A message that was written before members were appended to its class is read with the new class: the old members have
the written values, the appended members keep theirs, except that containers become empty. -/
theorem C71_appended (d d' : Nat) (co ci : Cfg) (noFit : Bool) (sz : Option SizeTy) (ok ok' : Bool)
    (maps : List (Nat × Nat)) (nums more : List (Option Nat)) (fs extra : List Ty) (vs olds : List Val) (st st' : OutSt)
    (bs : List UInt8) (hf : fmtOf ci = fmtOf co) (hv : vs.length = fs.length) (hn : nums.length = fs.length)
    (hld : LoadablePb (insideMsg ci) fs vs)
    (hpos : st.pos ≤ st.data.length) (hlen : st.data.length < 2 ^ 63)
    (hs : Supported co [(.msg sz ok maps nums fs, .list vs)]) (hd : StackOk d [(.msg sz ok maps nums fs, .list vs)])
    (hb : BitsOk [(.msg sz ok maps nums fs, .list vs)] st)
    (hw : wireItems (fmtOf co) [(.msg sz ok maps nums fs, .list vs)] = some bs) (hl : bs.length < 2 ^ 63)
    (hok : outCall d co noFit [(.msg sz ok maps nums fs, .list vs)] st = (.ok, st'))
    (ha : AbiOk ci.sizeof) (he : EnvGood ci) (gt : Good ci (.msg sz ok' maps (nums ++ more) (fs ++ extra)) = true)
    (hd' : 2 * depthL (vs ++ emptied extra (olds.drop fs.length)) ≤ d')
    (hend : sz.getD ci.dsz = .none → st'.pos = st'.data.length) :
    decMany (d' + 1) ci st'.data [(.msg sz ok' maps (nums ++ more) (fs ++ extra), .list olds)] st.pos =
      ⟨.ok, [.list (vs ++ emptied extra (olds.drop fs.length))], st'.pos⟩ :=
  C71_evolve d d' 0 co ci noFit sz sz ok ok' maps maps nums (nums ++ more) fs (fs ++ extra) vs olds _ st st' bs hf
    (by rw [show ci.dsz = (fmtOf ci).dsz from rfl, hf]; rfl)
    (readAs_appended hv hn hld) hpos hlen hs hd hb hw hl hok ha he gt (by omega) hend

/-! ## An example -/

/-- The old class: a number, a string, people with an age, and accounts by number. -/
def oldBook : List Ty :=
  [Checks.vint32, Checks.str, .seq .vector none (Checks.msg [Checks.vint32]),
    .assoc false false none Checks.vint32 (some (Checks.msg [Checks.vint32]))]

/-- The new class: reordered, with a wider number, a linked list of people with a name, accounts with a limit, and two new
members. -/
def newBook : List Ty :=
  [Checks.str, .varint 8 false, .seq .list none (Checks.msg [Checks.vint32, Checks.str]), Checks.vint32,
    .assoc false false none Checks.vint32 (some (Checks.msg [Checks.vint32, Checks.vint32])), .seq .vector none Checks.vint32]

/-- Its field numbers. -/
def newNums : List (Option Nat) := [some 2, some 1, some 3, some 7, some 4, some 6]

def oldVals : List Val :=
  [.num 300, Checks.strV [65, 66], .list [.list [.num 5], .list [.num 6]], .list [.list [.num 1, .list [.num 9]], .list [.num 2, .list [.num 8]]]]

def newVals : List Val :=
  [Checks.strV [65, 66], .num 300, .list [.list [.num 5, .list []], .list [.num 6, .list []]], .num 77,
    .list [.list [.num 1, .list [.num 9, .num 0]], .list [.num 2, .list [.num 8, .num 0]]], .list []]

/-- What the new class held before. -/
def staleVals : List Val :=
  [Checks.strV [1, 2, 3], .num 1, .list [.list [.num 3, Checks.strV [3]]], .num 77, .list [], .list [.num 4, .num 5]]

def bookBytes : List UInt8 :=
  [31, 8, 172, 2, 18, 2, 65, 66, 26, 2, 8, 5, 26, 2, 8, 6, 34, 6, 8, 1, 18, 2, 8, 9, 34, 6, 8, 2, 18, 2, 8, 8]

theorem book_readAs : MsgReadAs (Checks.le Checks.grow (.fixed 1)) 3 [] [none, none, none, none] oldBook oldVals
    [] newNums newBook staleVals newVals := by
  refine .mk (fun m => [1, 0, 2, 4].getD m 9) rfl rfl ?_ ?_ ?_ ?_
  · intro m hm
    have : m < 4 := hm
    match m, this with
    | 0, _ => decide
    | 1, _ => decide
    | 2, _ => decide
    | 3, _ => decide
  · intro m n hm hn
    have h1 : m < 4 := hm
    have h2 : n < 4 := hn
    match m, n, h1, h2 with
    | 0, 0, _, _ | 0, 1, _, _ | 0, 2, _, _ | 0, 3, _, _ => decide
    | 1, 0, _, _ | 1, 1, _, _ | 1, 2, _, _ | 1, 3, _, _ => decide
    | 2, 0, _, _ | 2, 1, _, _ | 2, 2, _, _ | 2, 3, _, _ => decide
    | 3, 0, _, _ | 3, 1, _, _ | 3, 2, _, _ | 3, 3, _, _ => decide
  · intro m t x t' w h1 h2 h3 h4
    have hm : m < 4 := (List.getElem?_eq_some_iff.mp h1).1
    match m, hm with
    | 0, _ =>
      cases h1; cases h2; cases h3; cases h4
      exact .same (fun _ => rfl) (by simp [LoadablePbField])
    | 1, _ =>
      cases h1; cases h2; cases h3; cases h4
      refine .same (fun _ => rfl) ?_
      simp only [Checks.str, Checks.strV, Checks.chr, LoadablePbField, isPacked, if_true]
      intro body hb
      have : wireNums (pbFmt (insideMsg (Checks.le Checks.grow (.fixed 1))).env) (packedElem (.scalar .chr 1)) [.num 65, .num 66] =
          some [65, 66] := by decide +kernel
      simp only [List.map_cons, List.map_nil] at hb
      erw [this] at hb
      cases hb
      exact ⟨Or.inl rfl, by decide⟩
    | 2, _ =>
      cases h1; cases h2; cases h3; cases h4
      have one : ∀ n, MsgReadAs (Checks.le Checks.grow (.fixed 1)) 3 [] [none] [Checks.vint32] [.num n] [] [none, none]
          [Checks.vint32, Checks.str] [.num 0, .list []] [.num n, .list []] := by
        intro n
        exact readAs_appended (nums := [none]) (more := [none]) (fs := [Checks.vint32]) (extra := [Checks.str]) (vs := [.num n])
          (olds := [.num 0, .list []]) rfl rfl (by simp [LoadablePb, LoadablePbField, Checks.vint32])
      exact .elems (o := .list [.num 0, .list []]) rfl rfl
        (.msg (.cons (.varint _ _) (.cons (.seq _ _ _) .nil))) (by decide) (.cons (one 5) (.cons (one 6) .nil)) (fun _ _ _ _ _ h => by cases h)
    | 3, _ =>
      cases h1; cases h2; cases h3; cases h4
      have acc : ∀ n, MsgReadAs (Checks.le Checks.grow (.fixed 1)) 3 [] [none] [Checks.vint32] [.num n] [] [none, none]
          [Checks.vint32, Checks.vint32] [.num 0, .num 0] [.num n, .num 0] := by
        intro n
        exact readAs_appended (nums := [none]) (more := [none]) (fs := [Checks.vint32]) (extra := [Checks.vint32]) (vs := [.num n])
          (olds := [.num 0, .num 0]) rfl rfl (by simp [LoadablePb, LoadablePbField, Checks.vint32])
      have entry : ∀ k n, MsgReadAs (Checks.le Checks.grow (.fixed 1)) 3 [] [none, none] [Checks.vint32, Checks.msg [Checks.vint32]]
          [.num k, .list [.num n]] [] [none, none] [Checks.vint32, Checks.msg [Checks.vint32, Checks.vint32]]
          [.num 0, .list [.num 0, .num 0]] [.num k, .list [.num n, .num 0]] := by
        intro k n
        refine .mk id rfl rfl (fun m hm => ⟨hm, rfl⟩) (fun _ _ _ _ e => e) ?_ (fun k t' h h2 => ?_)
        · intro m t x t' w h1 h2 h3 h4
          have hm : m < 2 := (List.getElem?_eq_some_iff.mp h1).1
          match m, hm with
          | 0, _ =>
            cases h1; cases h2; cases h3; cases h4
            exact .same (fun _ => rfl) (by simp [LoadablePbField, Checks.vint32])
          | 1, _ =>
            cases h1; cases h2; cases h3; cases h4
            exact .msg rfl rfl (acc n)
        · exact absurd rfl (h2 k (List.getElem?_eq_some_iff.mp h).1)
      exact .elems (o := .list [.num 0, .list [.num 0, .num 0]]) rfl rfl
        (.msg (.cons (.varint _ _) (.cons (.msg (.cons (.varint _ _) (.cons (.varint _ _) .nil))) .nil))) (by decide)
        (.cons (entry 1 9) (.cons (entry 2 8) .nil)) (fun _ _ _ _ _ h => by
          cases h
          simp only [Ordered, List.pairwise_cons, List.mem_singleton]
          simp [Checks.le, Checks.numLt])
  · intro k t' h1 h2
    have hk : k < 6 := (List.getElem?_eq_some_iff.mp h1).1
    match k, hk with
    | 0, _ => exact absurd rfl (h2 1 (by decide))
    | 1, _ => exact absurd rfl (h2 0 (by decide))
    | 2, _ => exact absurd rfl (h2 2 (by decide))
    | 3, _ => cases h1; rfl
    | 4, _ => exact absurd rfl (h2 3 (by decide))
    | 5, _ => cases h1; rfl

/-- The hypotheses of `C71_evolve` hold for the example. -/
example : Good (Checks.le Checks.grow (.fixed 1)) (.msg none false [] newNums newBook) = true ∧
    Supported (Checks.le Checks.grow (.fixed 1)) [(Checks.msg oldBook, .list oldVals)] ∧
    wireItems (fmtOf (Checks.le Checks.grow (.fixed 1))) [(Checks.msg oldBook, .list oldVals)] = some bookBytes ∧
    outCall 20 (Checks.le Checks.grow (.fixed 1)) false [(Checks.msg oldBook, .list oldVals)] ⟨[], 0⟩ = (.ok, ⟨bookBytes, 32⟩) ∧
    2 * (depthL newVals + 3) ≤ 20 ∧
    decMany 21 (Checks.le Checks.grow (.fixed 1)) bookBytes [(.msg none false [] newNums newBook, .list staleVals)] 0 =
      ⟨.ok, [.list newVals], 32⟩ := by
  refine ⟨by decide +kernel, ⟨grow_ok, so_abi, fun _ => ⟨rfl, rfl⟩, ?_⟩, by decide +kernel, by decide +kernel,
    by decide, by decide +kernel⟩
  intro x hx
  simp only [List.mem_singleton] at hx
  subst hx
  decide +kernel

/-- The other direction fails: a member of the writer that the reader does not have is not skipped. The payload 8 of field 2 is taken for
the tag of field 1, so the number 5 in field 1 is lost, and field 3 is not found. -/
theorem C71_removed_refuted :
    ∃ (c : Cfg) (old new : Ty) (bs : List UInt8), new = Checks.msg [Checks.vint32, Checks.vint32, Checks.vint32] ∧
      old = .msg none false [] [none, some 3] [Checks.vint32, Checks.vint32] ∧
      outCall 9 c false [(new, .list [.num 5, .num 8, .num 48])] ⟨[], 0⟩ = (.ok, ⟨bs, bs.length⟩) ∧
      decMany 9 c bs [(old, .list [.num 0, .num 0])] 0 = ⟨.ok, [.list [.num 24, .num 0]], bs.length⟩ :=
  ⟨Checks.le Checks.grow .none, _, _, [8, 5, 16, 8, 24, 48], rfl, rfl, by decide +kernel, by decide +kernel⟩

end Zpp.Props
