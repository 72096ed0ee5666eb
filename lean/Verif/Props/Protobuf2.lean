import Verif.Proof.InRecFail
import Verif.Proof.InBytes
import Verif.Proof.InLimit
import Verif.Checks
import Verif.Props.Output
/-!
# Properties of protobuf input: messages with a record that cannot be read
-/

namespace Zpp.Props
open Zpp Zpp.Spec

/-- C61. After any records, a record of a member (not a container) whose object cannot be read makes the message fail with the
same code. The members have the values the records before gave them, the member concerned that of its failed read. -/
theorem C61_record (d : Nat) (c : Cfg) (sz : Option SizeTy) (ok : Bool) (maps : List (Nat × Nat)) (nums : List (Option Nat))
    (fs : List Ty) (rs : List Rec) (old : Val) (data payload : List UInt8) (p m wt : Nat) (t : Ty) (s : Status) (v : Val) (q : Nat)
    (h : BrokenAt c sz ok maps nums fs rs (leb (numberAt maps nums m * 8 + wt) ++ payload) data p) (hd : 2 * recDepthL rs ≤ d)
    (h0 : 0 < d) (ht : fs[m]? = some t) (hs : singular t = true) (hwt : wt < 8) (hne : s ≠ .ok)
    (hbad : decode d (insideMsg c) (readAs t) ((membersAfter c fs rs old).getD m .unit) payload 0 = ⟨s, v, q⟩) :
    ∃ q, decode (d + 1) c (.msg sz ok maps nums fs) old data p = ⟨s, .list ((membersAfter c fs rs old).set m v), q⟩ := by
  refine record_fail d c h hd ht hwt hne ?_
  intro front _ _
  have hq := decode_after hbad front
  rw [insideMsg_eq] at hq
  refine ⟨front.length + q, ?_⟩
  unfold pbDecField
  obtain ⟨d, rfl⟩ : ∃ k, d = k + 1 := ⟨d - 1, by omega⟩
  cases t with
  | scalar k n =>
    cases k with
    | enum => simp only [readAs, decode] at hq; exact hq
    | byte => simp only [readAs, decode] at hq; exact hq
    | _ => exact hq
  | seq => cases hs
  | assoc => cases hs
  | _ => exact hq

/-- C61. After any records, a record with one element of a container that cannot be read makes the message fail with the same
code, and the container, like every other member, keeps what the records before gave it. The element is read into a new
object. Elements of maps are messages of their key and value. -/
theorem C61_element (d : Nat) (c : Cfg) (sz : Option SizeTy) (ok : Bool) (maps : List (Nat × Nat)) (nums : List (Option Nat))
    (fs : List Ty) (rs : List Rec) (old : Val) (data payload : List UInt8) (p m wt : Nat) (t : Ty) (s : Status) (o v : Val) (q : Nat)
    (h : BrokenAt c sz ok maps nums fs rs (leb (numberAt maps nums m * 8 + wt) ++ payload) data p) (hd : 2 * recDepthL rs ≤ d)
    (ht : fs[m]? = some t) (hs : repeats t = true) (hwt : wt < 8) (hwp : packedOf t ≠ none → wt ≠ 2) (hne : s ≠ .ok)
    (ho : Initial c.env (elemTy t) o) (hdo : 2 * depth o ≤ d)
    (hbad : decode d (insideMsg c) (packedElem (elemTy t)) o payload 0 = ⟨s, v, q⟩) :
    ∃ q, decode (d + 1) c (.msg sz ok maps nums fs) old data p = ⟨s, .list (membersAfter c fs rs old), q⟩ := by
  rw [← membersAfter_self ht rs old]
  refine record_fail d c h hd ht hwt hne ?_
  intro front ⟨num, i, hok⟩ _
  have hlist := membersAfter_list (c := c) ht hs rs old
  generalize (membersAfter c fs rs old).getD m .unit = cur at hlist ⊢
  have hq := decode_after hbad front
  rw [insideMsg_eq] at hq
  refine ⟨front.length + q, ?_⟩
  cases hp : packedOf t with
  | none =>
    obtain ⟨h1, h2⟩ := repeated_read (c := pbCfg c) (rec := fun t v q => decode d (pbCfg c) t v (front ++ payload) q)
      (fresh := dflt (pbCfg c) d) hs hp (wt := wt) (old := cur) (data := front ++ payload) (p := front.length)
    rw [h1, initial_dflt (c := pbCfg c) ho d (by split <;> omega)]
    rw [h2] at hq
    simp only [pbFetch, hq]
    cases s <;> first | exact absurd rfl hne | (rw [hlist]; rfl)
  | some e =>
    have hwt2 := hwp (by simp [hp])
    have hnum := packed_num hok hp
    have he : elemTy t = e := by
      obtain ⟨-, ⟨k, z, rfl⟩ | ⟨mu, ha, z, rfl⟩⟩ := packedOf_eq hp <;> rfl
    rw [he] at hq
    obtain ⟨v', hq⟩ := decode_num_old hnum .unit hq
    rw [packed_read hp]
    simp only [pbDecPacked, ne_eq, hwt2, not_false_eq_true, if_true, pbFetch, hq]
    cases s <;> first | exact absurd rfl hne | (rw [hlist]; rfl)

/-- C61. After any records, a packed record whose length cannot be read makes the message fail with the same code; no member
changes. -/
theorem C61_packed_length (d : Nat) (c : Cfg) (sz : Option SizeTy) (ok : Bool) (maps : List (Nat × Nat)) (nums : List (Option Nat))
    (fs : List Ty) (rs : List Rec) (old : Val) (data payload : List UInt8) (p m : Nat) (t e : Ty) (s : Status) (o v : Val) (q : Nat)
    (h : BrokenAt c sz ok maps nums fs rs (leb (numberAt maps nums m * 8 + 2) ++ payload) data p) (hd : 2 * recDepthL rs ≤ d)
    (h0 : 0 < d) (ht : fs[m]? = some t) (hp : packedOf t = some e) (hne : s ≠ .ok)
    (hbad : decode d (insideMsg c) (.varint 8 false) o payload 0 = ⟨s, v, q⟩) :
    ∃ q, decode (d + 1) c (.msg sz ok maps nums fs) old data p = ⟨s, .list (membersAfter c fs rs old), q⟩ := by
  rw [← membersAfter_self ht rs old]
  refine record_fail d c h hd ht (by decide) hne ?_
  intro front _ _
  obtain ⟨v', hq⟩ := decode_num_old (o' := .num 0) (by rfl) (decode_after hbad front)
  obtain ⟨d, rfl⟩ : ∃ k, d = k + 1 := ⟨d - 1, by omega⟩
  rw [decode] at hq
  refine ⟨front.length + q, ?_⟩
  rw [packed_read hp]
  simp only [pbDecPacked, ne_eq, not_true_eq_false, if_false, decHdr, hq]
  cases s <;> first | exact absurd rfl hne | rfl

/-- C61. After any records, a packed record read element by element, with an element that cannot be read, makes the message fail
with the same code. The container keeps what it had before and the elements in front of the damaged one; the other members
keep their values. -/
theorem C61_packed_element (d : Nat) (c : Cfg) (sz : Option SizeTy) (ok : Bool) (maps : List (Nat × Nat)) (nums : List (Option Nat))
    (fs : List Ty) (rs : List Rec) (old : Val) (data front tail : List UInt8) (p m len : Nat) (t e : Ty) (xs : List Val) (s : Status)
    (o v : Val) (q : Nat)
    (h : BrokenAt c sz ok maps nums fs rs (leb (numberAt maps nums m * 8 + 2) ++ (leb len ++ (front ++ tail))) data p)
    (hd : 2 * recDepthL rs ≤ d) (h0 : 0 < d) (ht : fs[m]? = some t) (hp : packedOf t = some e)
    (hfix : ∀ k z, t = .seq k z e → fixedElem e = false) (hfront : wireNums (pbFmt c.env) (packedElem e) xs = some front)
    (hlen : front.length < len) (hsmall : len + data.length < 2 ^ 64)
    (hmem : hasReserve t = true → len * c.sizeof (packedElem e) ≤ c.g.maxMem) (hne : s ≠ .ok)
    (hbad : decode d (insideMsg c) (packedElem e) o tail 0 = ⟨s, v, q⟩) :
    ∃ q, decode (d + 1) c (.msg sz ok maps nums fs) old data p =
      ⟨s, .list ((membersAfter c fs rs old).set m
        (.list (addAll (insideMsg c) t xs ((membersAfter c fs rs old).getD m .unit).elems))), q⟩ := by
  refine record_fail d c h hd ht (by decide) hne ?_
  intro fr ⟨num, i, hok⟩ hl
  have hsm := h.small
  generalize (membersAfter c fs rs old).getD m .unit = cur
  have hnum := packed_num hok hp
  obtain ⟨v', hq⟩ := decode_num_old hnum .unit (decode_after hbad (fr ++ (leb len ++ front)))
  rw [insideMsg_eq] at hq
  obtain ⟨ihp, -⟩ := decode_round d (pbCfg c) h.abi (EnvGood.pb h.env)
  have hdrop : (fr ++ (leb len ++ (front ++ tail))).drop fr.length = leb len ++ (front ++ tail) := List.drop_left
  have hhdr := decHdr_rd (c := pbCfg c) (sz := .varint) (n := len) (pre := leb len) (by simp)
    (by simp only [sizePrefix]; rw [if_pos (by omega)]) (by simp) hdrop
  have s2 := drop_split (by simp) hdrop
  have hfe : (hasResize t && fixedElem e) = false := by
    obtain ⟨-, ⟨k, z, rfl⟩ | ⟨mu, ha, z, rfl⟩⟩ := packedOf_eq hp
    · rw [hfix _ _ rfl, Bool.and_false]
    · rfl
  have hl' := hl
  simp only [List.length_append] at hl'
  have hdl : fr.length + (leb len).length + len < 2 ^ 64 := by
    omega
  have hwrap : wrap (len + (fr.length + (leb len).length)) = fr.length + (leb len).length + len := by
    unfold wrap
    rw [Nat.mod_eq_of_lt (by omega)]; omega
  refine ⟨fr.length + ((leb len).length + front.length) + q, ?_⟩
  have hloop := pbPacked_fail (c := pbCfg c) (t := t) (sub := fr ++ (leb len ++ (front ++ tail)))
    (elem := fun q => decode d (pbCfg c) (packedElem e) .unit (fr ++ (leb len ++ (front ++ tail))) q)
    (w := wire (fmtOf (pbCfg c)) (packedElem e)) (W := wireAll (fmtOf (pbCfg c)) (packedElem e)) rfl (fun _ _ => rfl)
    (endPos := fr.length + (leb len).length + len) (rest := tail) hne (x := v')
    (q := fr.length + ((leb len).length + front.length) + q) xs cur.elems front (fr.length + (leb len).length)
    ((fr ++ (leb len ++ (front ++ tail))).length + 1)
    (by rw [(inPb_pbCfg c).fmt, ← wireNums_eq_wireAll _ _ hnum]; exact hfront) s2.1 s2.2 (by omega) (by omega)
    (fun v' _ b hb' => numTy_rd ihp (by simp only [List.length_append]; omega) hnum (by omega) .unit v' b hb')
    (by simpa [Nat.add_assoc, List.append_assoc] using hq)
  rw [packed_read hp]
  simp only [pbDecPacked, ne_eq, not_true_eq_false, if_false, hhdr, hfe, Bool.false_eq_true]
  rw [if_neg (by intro ⟨h1, h2⟩; have := hmem h1; simp only [pbCfg] at h2; omega), hwrap, hloop, pushAll_eq]
  rfl

/-- C61. After any records, a packed record of numbers of fixed size that announces more complete numbers than bytes are left in
the message makes the message fail with `result_out_of_range`. The container was resized to the announced count (its numbers
are unspecified); the other members keep their values. -/
theorem C61_packed_short (d : Nat) (c : Cfg) (sz : Option SizeTy) (ok : Bool) (maps : List (Nat × Nat)) (nums : List (Option Nat))
    (fs : List Ty) (rs : List Rec) (old : Val) (data tail : List UInt8) (p m len : Nat) (k : SeqKind) (z : Option SizeTy) (e : Ty)
    (h : BrokenAt c sz ok maps nums fs rs (leb (numberAt maps nums m * 8 + 2) ++ (leb len ++ tail)) data p)
    (hd : 2 * recDepthL rs ≤ d) (h0 : 2 ≤ d) (ht : fs[m]? = some (.seq k z e)) (he : fixedElem e = true) (hlen : len < 2 ^ 64)
    (hlim : len ≤ c.g.limit) (hmem : len ≤ c.g.maxMem) (hshort : tail.length < len / c.sizeof e * c.sizeof e) :
    ∃ v q, v.elems.length = len / c.sizeof e ∧ decode (d + 1) c (.msg sz ok maps nums fs) old data p =
      ⟨.err .resultOutOfRange, .list ((membersAfter c fs rs old).set m v), q⟩ := by
  have hp : packedOf (.seq k z e) = some e := by
    have : isPacked e = true := by
      cases e with
      | scalar kd n => cases kd <;> rfl
      | bool => rfl
      | _ => cases he
    simp [packedOf, this]
  have hpe : packedElem e = e := by
    cases e with
    | scalar kd n => cases kd <;> first | rfl | cases he
    | _ => rfl
  have gt := h.good
  simp only [Good, nodeOk, Bool.and_eq_true] at gt
  obtain ⟨na, n, nb, fa, fb, -, -, -, -, hok, -⟩ := fieldsOk_at m 0 nums fs gt.1.1.1.1 ht
  have hnum := packed_num hok hp
  rw [hpe] at hnum
  have hk : k = .vector ∨ k = .list := by
    simp only [pbFieldOk, Bool.and_eq_true] at hok
    simpa using hok.1.1.1
  obtain ⟨d, rfl⟩ : ∃ j, d = j + 2 := ⟨d - 2, by omega⟩
  generalize hcur : (membersAfter c fs rs old).getD m .unit = cur
  have hcnt : (resizeVals cur.elems (len / c.sizeof e) (.num 0)).length = len / c.sizeof e := by
    simp only [resizeVals]; simp; omega
  generalize hrv : resizeVals cur.elems (len / c.sizeof e) (.num 0) = os at hcnt
  have hpos : 0 < len / c.sizeof e := by
    rcases Nat.eq_zero_or_pos (len / c.sizeof e) with hz | hz
    · rw [hz, Nat.zero_mul] at hshort; omega
    · exact hz
  have hread : ∃ v q, v.elems.length = len / c.sizeof e ∧
      decode (d + 2) (pbCfg c) (.seq k (some .none) e) (.list os) tail 0 = ⟨.err .resultOutOfRange, v, q⟩ := by
    have key : ∀ r : ResL, r.s = .err .resultOutOfRange → r.vs.length = len / c.sizeof e →
        ∃ v q, v.elems.length = len / c.sizeof e ∧ r.toRes = ⟨.err .resultOutOfRange, v, q⟩ := by
      intro r h1 h2
      exact ⟨.list r.vs, r.p, h2, by simp [ResL.toRes, h1]⟩
    have hst : decode (d + 2) (pbCfg c) (.seq k (some .none) e) (.list os) tail 0 =
        seqBody (pbCfg c) k e (fun v p => decode (d + 1) (pbCfg c) e v tail p) os tail 0 := by
      rw [decode]
      rcases hk with rfl | rfl <;> rfl
    rw [hst]
    unfold seqBody
    split
    · refine key _ ?_ ((decRep_length rfl).trans hcnt)
      exact (decRep_takes (c := pbCfg c) (by omega) (h.abi.pos e) 0 (by omega)).2 (by rw [hcnt, Nat.zero_add]; exact hshort)
    · refine key _ ?_ ((decAll_length _ _).trans hcnt)
      have hel : ∃ u, ∀ o, Takes tail (fun p => decode (d + 1) (pbCfg c) e o tail p) (c.sizeof e) u := by
        cases e with
        | scalar kd n =>
          have hn : 0 < n := by simp only [numTy] at hnum; cases kd <;> simp [scalarOk] at hnum <;> omega
          refine ⟨fun bs => .num (ioNat (pbCfg c) bs), ?_⟩
          intro o p hp'
          have hg := getBytes_takes (n := n) hp'
          rw [h.abi.scalar kd n hn]
          dsimp only
          rw [decode]
          exact ⟨fun hf => by rw [hg.1 hf], fun hf => by rw [hg.2 hf]⟩
        | bool =>
          refine ⟨fun bs => .num (leNat bs), ?_⟩
          intro o p hp'
          have hg := getBytes_takes (n := 1) hp'
          rw [h.abi.bool]
          dsimp only
          rw [decode]
          exact ⟨fun hf => by rw [hg.1 hf], fun hf => by rw [hg.2 hf]⟩
        | _ => cases he
      obtain ⟨u, hu⟩ := hel
      exact (decAll_takes hu os 0 (by omega)).2 (by rw [hcnt]; simpa using hshort)
  obtain ⟨v, q, hv, hread⟩ := hread
  refine ⟨v, ?_⟩
  have := record_fail (d + 2) c (s := .err .resultOutOfRange) (v := v) (old := old) h hd ht (by decide) (by simp) ?_
  · obtain ⟨q, hq⟩ := this; exact ⟨q, hv, hq⟩
  intro fr _ hl
  have hq := decode_after hread (fr ++ leb len)
  have hdrop : (fr ++ (leb len ++ tail)).drop fr.length = leb len ++ tail := List.drop_left
  have hhdr := decHdr_rd (c := pbCfg c) (sz := .varint) (n := len) (pre := leb len) (by simp)
    (by simp only [sizePrefix]; rw [if_pos (by omega)]) (by simp) hdrop
  refine ⟨fr.length + (leb len).length + q, ?_⟩
  rw [packed_read hp, hpe, hcur, he]
  have hrs : hasResize (.seq k z e) = true := by rcases hk with rfl | rfl <;> rfl
  have hmem' : ¬ c.g.maxMem < len / c.sizeof e * c.sizeof e := by
    have := Nat.div_mul_le_self len (c.sizeof e); omega
  simp only [pbDecPacked, ne_eq, not_true_eq_false, if_false, hhdr, hrs, Bool.and_self, if_true]
  rw [if_neg (by intro ⟨_, h2⟩; simp only [pbCfg] at h2; omega), if_neg (by simpa [pbCfg] using hmem')]
  simp only [List.append_assoc, List.length_append] at hq
  simp only [unsizedTy]
  have : (pbCfg c).sizeof = c.sizeof := rfl
  rw [this, hrv]
  exact hq

/-- C61. Field number 0 is a protocol error. -/
theorem C61_number_zero (d : Nat) (c : Cfg) (sz : Option SizeTy) (ok : Bool) (maps : List (Nat × Nat)) (nums : List (Option Nat))
    (fs : List Ty) (rs : List Rec) (old : Val) (data rest : List UInt8) (p wt : Nat) (hwt : wt < 8)
    (h : BrokenAt c sz ok maps nums fs rs (leb wt ++ rest) data p) (hd : 2 * recDepthL rs ≤ d) :
    ∃ q, decode (d + 1) c (.msg sz ok maps nums fs) old data p =
      ⟨.err .protocolError, .list (membersAfter c fs rs old), q⟩ := by
  refine msg_fail d c h hd old ?_
  intro body hok hnd hlen
  have := loop_tag (body := body) (rest := rest) (N := 0) (wt := wt)
    (field := fun t w v q => pbDecField (pbCfg c) (fun t v q => decode d (pbCfg c) t v (body ++ (leb wt ++ rest)) q)
      (dflt (pbCfg c) d) t w v (body ++ (leb wt ++ rest)) q) (by decide) hwt (by simp)
    (pbDispatch_zero (maps := maps) nums fs (membersAfter c fs rs old) 0 (pbNumbers_pos (c := c) fs nums 0 hok)
      (by rw [membersAfter, recsEffect_length, emptied_length]))
  simp only [Nat.zero_mul, Nat.zero_add] at this
  exact ⟨_, this⟩

/-- C16, packed records: with `alloc_limit<L>` a packed record of numbers of fixed size that announces more than `L` bytes
makes the message fail with `message_size`; no member was touched (in particular none resized). -/
theorem C16_packed_announced (d : Nat) (c : Cfg) (sz : Option SizeTy) (ok : Bool) (maps : List (Nat × Nat))
    (nums : List (Option Nat)) (fs : List Ty) (rs : List Rec) (old : Val) (data rest : List UInt8) (p m len : Nat)
    (k : SeqKind) (s : Option SizeTy) (e : Ty) (hk : k = .vector ∨ k = .list) (he : fixedElem e = true)
    (ht : fs[m]? = some (.seq k s e)) (hlen : len < 2 ^ 64) (hlim : c.g.limit < len)
    (h : BrokenAt c sz ok maps nums fs rs (leb (numberAt maps nums m * 8 + 2) ++ (leb len ++ rest)) data p)
    (hd : 2 * recDepthL rs ≤ d) :
    ∃ q, decode (d + 1) c (.msg sz ok maps nums fs) old data p =
      ⟨.err .messageSize, .list (membersAfter c fs rs old), q⟩ := by
  refine msg_fail d c h hd old ?_
  intro body hok hnd hl
  have hlv : (membersAfter c fs rs old).length = fs.length := by rw [membersAfter, recsEffect_length, emptied_length]
  have hm : m < (membersAfter c fs rs old).length := by
    rw [hlv]
    rcases Nat.lt_or_ge m fs.length with h' | h'
    · exact h'
    · simp [List.getElem?_eq_none h'] at ht
  have hself : (membersAfter c fs rs old).set m ((membersAfter c fs rs old).getD m .unit) = membersAfter c fs rs old := by
    simp [List.getD, List.getElem?_eq_getElem hm]
  have hcl : pbInClass (.seq k s e) = .packedFix e := by
    cases e with
    | scalar kd n => cases kd <;> first | rfl | cases he
    | bool => rfl
    | _ => cases he
  have hhdr := getVarint_rd (n := 8) (by simp [IntWidth]) false (x := len) (by omega) (.num 0)
    (data := body ++ (leb (numberAt maps nums m * 8 + 2) ++ (leb len ++ rest))) (rest := rest)
    (p := body.length + (leb (numberAt maps nums m * 8 + 2)).length) (by simp) (by
      rw [← List.append_assoc, ← List.length_append]; simp [varintValue])
  simp only [varintValue, Bool.false_eq_true, if_false] at hhdr
  have hlimne : c.g.limit ≠ sizeMax := by unfold sizeMax; omega
  obtain ⟨h1, h2⟩ := pbDispatch_member (c := c) (wt := 2) (vs := membersAfter c fs rs old) (s := .err .messageSize)
    (v := (membersAfter c fs rs old).getD m .unit)
    (p' := body.length + (leb (numberAt maps nums m * 8 + 2)).length + (leb len).length)
    (p := body.length + (leb (numberAt maps nums m * 8 + 2)).length)
    (field := fun t w v q => pbDecField (pbCfg c) (fun t v q => decode d (pbCfg c) t v
      (body ++ (leb (numberAt maps nums m * 8 + 2) ++ (leb len ++ rest))) q) (dflt (pbCfg c) d) t w v
      (body ++ (leb (numberAt maps nums m * 8 + 2) ++ (leb len ++ rest))) q) hok hnd ht hlv (by
      have hrs : hasResize (.seq k s e) = true := by rcases hk with rfl | rfl <;> rfl
      unfold pbDecField
      rw [hcl]
      simp only [pbDecPacked]
      rw [if_neg (by simp)]
      simp only [decHdr, hhdr, hrs, Bool.and_self, if_true]
      rw [if_pos ⟨hlimne, hlim⟩])
  rw [hself] at h2
  exact ⟨_, loop_tag h1 (by decide) (by simp) h2⟩

/-- C61. What does not begin with a varint of at most five bytes is not a record: if the message ends inside it the code is
`result_out_of_range`, otherwise `value_too_large`. -/
theorem C61_tag (d : Nat) (c : Cfg) (sz : Option SizeTy) (ok : Bool) (maps : List (Nat × Nat)) (nums : List (Option Nat))
    (fs : List Ty) (rs : List Rec) (old : Val) (data tail : List UInt8) (p : Nat) (hne : tail ≠ [])
    (hbad : ∀ g, lebPrefix tail = some g → 5 < g.length)
    (h : BrokenAt c sz ok maps nums fs rs tail data p) (hd : 2 * recDepthL rs ≤ d) :
    ∃ q, decode (d + 1) c (.msg sz ok maps nums fs) old data p =
      ⟨.err (if tail.length < 5 then .resultOutOfRange else .valueTooLarge), .list (membersAfter c fs rs old), q⟩ := by
  refine msg_fail d c h hd old ?_
  intro body hok hnd hl
  refine ⟨body.length, ?_⟩
  intro f
  have h4 : IntWidth 4 := by simp [IntWidth]
  have h5 : varintMaxSize 4 = 5 := by decide
  have hv : readVarintRaw 4 tail = .err (if tail.length < 5 then .resultOutOfRange else .valueTooLarge) := by
    rw [readVarintRaw_eq_decode 4 h4, decodeVarint_spec 4 h4, h5]
    cases hp : lebPrefix tail with
    | none => dsimp only; split <;> rfl
    | some g =>
      have h6 := hbad g hp
      have h7 : g.length ≤ tail.length := (lebPrefix_length hp).2
      dsimp only
      rw [if_neg (by omega), if_neg (by omega)]
  have hpos : 0 < tail.length := by cases tail <;> simp_all
  have hpl : body.length < (body ++ tail).length := by simp only [List.length_append]; omega
  rw [pbLoop, if_pos hpl]
  unfold getVarint
  rw [if_neg (by omega), List.drop_left, hv]

/-- An empty list of integers, and a number. -/
def brokenTy : List Ty := [.seq .vector none (.scalar .int 4), .varint 4 false]

-- Field 2 has the value 7, then comes a packed record for field 1 that announces 12 bytes; `alloc_limit<8>`.
example : decode 9 (Checks.le { Checks.grow with limit := 8 } .none) (.msg none false [] [none, none] brokenTy) (.list [.list [.num 5], .num 0])
    ([0x10, 7] ++ ([0x0a] ++ [12, 1, 0, 0, 0, 2, 0, 0, 0, 3, 0, 0, 0])) 0 = ⟨.err .messageSize, .list [.list [], .num 7], 4⟩ := by
  decide +kernel
-- Field number 0.
example : decode 9 (Checks.le Checks.grow .none) (.msg none false [] [none, none] brokenTy) (.list [.list [.num 5], .num 0])
    ([0x10, 7] ++ [2, 1]) 0 = ⟨.err .protocolError, .list [.list [], .num 7], 3⟩ := by decide +kernel
-- A cut tag, and one of six bytes.
example : decode 9 (Checks.le Checks.grow .none) (.msg none false [] [none, none] brokenTy) (.list [.list [.num 5], .num 0])
    ([0x10, 7] ++ [0x80, 0x80]) 0 = ⟨.err .resultOutOfRange, .list [.list [], .num 7], 2⟩ := by decide +kernel
example : decode 9 (Checks.le Checks.grow .none) (.msg none false [] [none, none] brokenTy) (.list [.list [.num 5], .num 0])
    ([0x10, 7] ++ [0x80, 0x80, 0x80, 0x80, 0x80, 1]) 0 = ⟨.err .valueTooLarge, .list [.list [], .num 7], 2⟩ := by decide +kernel
-- A second value of field 2 without its payload.
example : decode 9 (Checks.le Checks.grow .none) (.msg none false [] [none, none] brokenTy) (.list [.list [.num 5], .num 0])
    ([0x10, 7] ++ [0x10]) 0 = ⟨.err .resultOutOfRange, .list [.list [], .num 7], 3⟩ := by decide +kernel

/-- Varints, names, a set of numbers, a map and an enumeration. -/
def brokenTy2 : List Ty := [.seq .vector none (.varint 4 false), .seq .vector none (.seq .vector none (.scalar .chr 1)),
  .assoc false false none (.scalar .int 2) none, .assoc false false none (.varint 4 false) (some (.varint 4 false)), .scalar .enum 4]

def brokenVal2 : Val := .list [.list [], .list [], .list [], .list [], .num 1]

def brokenMsg2 : Ty := .msg none false [] [none, none, none, none, none] brokenTy2

-- Field 2 is "ab"; then field 2 announces three characters, and one is left.
example : decode 9 (Checks.le Checks.grow .none) brokenMsg2 brokenVal2 ([0x12, 2, 97, 98] ++ ([0x12] ++ [3, 97])) 0 =
    ⟨.err .resultOutOfRange, .list [.list [], .list [.list [.num 97, .num 98]], .list [], .list [], .num 1], 6⟩ := by decide +kernel
-- A packed record with 5, 300 and a varint without end; the record announces eight bytes.
example : decode 9 (Checks.le Checks.grow .none) brokenMsg2 brokenVal2 ([0x12, 1, 97] ++ ([0x0a] ++ ([8] ++ ([5, 0xac, 2] ++ [0x80])))) 0 =
    ⟨.err .resultOutOfRange, .list [.list [.num 5, .num 300], .list [.list [.num 97]], .list [], .list [], .num 1], 8⟩ := by
  decide +kernel
-- The length of a packed record is cut.
example : decode 9 (Checks.le Checks.grow .none) brokenMsg2 brokenVal2 ([0x12, 1, 97] ++ ([0x0a] ++ [0x80])) 0 =
    ⟨.err .resultOutOfRange, .list [.list [], .list [.list [.num 97]], .list [], .list [], .num 1], 4⟩ := by decide +kernel
-- The numbers of a set, cut in the second.
example : decode 9 (Checks.le Checks.grow .none) brokenMsg2 brokenVal2 ([0x12, 1, 97] ++ ([0x1a] ++ ([4] ++ ([7, 0] ++ [8])))) 0 =
    ⟨.err .resultOutOfRange, .list [.list [], .list [.list [.num 97]], .list [.num 7], .list [], .num 1], 7⟩ := by decide +kernel
-- An entry of a map with field number 0.
example : decode 9 (Checks.le Checks.grow .none) brokenMsg2 brokenVal2 ([0x12, 1, 97] ++ ([0x22] ++ [2, 0, 1])) 0 =
    ⟨.err .protocolError, .list [.list [], .list [.list [.num 97]], .list [], .list [], .num 1], 6⟩ := by decide +kernel
-- An enumeration whose varint is cut.
example : decode 9 (Checks.le Checks.grow .none) brokenMsg2 brokenVal2 ([0x12, 1, 97] ++ ([0x28] ++ [0x85])) 0 =
    ⟨.err .resultOutOfRange, .list [.list [], .list [.list [.num 97]], .list [], .list [], .num 1], 4⟩ := by decide +kernel
-- A packed record of three integers, of which one and a half are there.
example : decode 9 (Checks.le Checks.grow .none) (.msg none false [] [none, none] brokenTy) (.list [.list [.num 5], .num 0])
    ([0x10, 7] ++ ([0x0a] ++ ([12] ++ [1, 0, 0, 0, 2, 0]))) 0 =
    ⟨.err .resultOutOfRange, .list [.list [.num 0, .num 0, .num 0], .num 7], 4⟩ := by decide +kernel

-- The hypotheses are met by these inputs.
example : BrokenAt (Checks.le Checks.grow .none) none false [] [none, none, none, none, none] brokenTy2
    [.field 1 (.list [.list [.num 97]])] ([0x0a] ++ ([8] ++ ([5, 0xac, 2] ++ [0x80])))
    ([0x12, 1, 97] ++ ([0x0a] ++ ([8] ++ ([5, 0xac, 2] ++ [0x80])))) 0 := by
  refine ⟨so_abi, ?_, by decide +kernel, by decide, ?_, [], [0x12, 1, 97], [], by decide, by decide, by decide +kernel,
    by decide +kernel, fun _ => rfl⟩
  · intro i; exact ⟨rfl, rfl⟩
  · refine ⟨?_, trivial⟩
    intro t ht
    simp only [brokenTy2, List.getElem?_cons_succ, List.getElem?_cons_zero, Option.some.injEq] at ht
    subst ht
    simp [LoadableRec, LoadablePbField, isPacked, LoadableL, Loadable]
    exact ⟨by simp [pbCfg], by unfold Fits; decide +kernel⟩
example : BrokenAt (Checks.le Checks.grow .none) none false [] [none, none] brokenTy [.field 1 (.num 7)] [2, 1] ([0x10, 7] ++ [2, 1]) 0 := by
  refine ⟨so_abi, ?_, by decide +kernel, by decide, ?_, [], [0x10, 7], [], by decide, by decide, by decide +kernel, by decide +kernel,
    fun _ => rfl⟩
  · intro i; exact ⟨rfl, rfl⟩
  · refine ⟨?_, trivial⟩
    intro t ht
    simp only [brokenTy, List.getElem?_cons_succ, List.getElem?_cons_zero, Option.some.injEq] at ht
    subst ht
    simp [LoadableRec, LoadablePbField]

end Zpp.Props
