import Verif.Spec.ProtoBytes
import Verif.Proof.ProtoRead
import Verif.Proof.Reread
/-!
# Reading any bytes as a protobuf parser does: numbers
-/

namespace Zpp
open Spec

theorem protoNumber_mod {n : Nat} (hn : 0 < n) (zz : Bool) (x : Nat) :
    protoNumber (.varint n zz) (x % 2 ^ (8 * n)) = protoNumber (.varint n zz) x := by
  cases zz with
  | false => simp only [protoNumber, Nat.mod_mod]
  | true =>
    have : x % 2 ^ (8 * n) % 2 = x % 2 := by
      rw [Nat.mod_mod_of_dvd]
      exact Nat.dvd_trans (by decide) (Nat.pow_dvd_pow 2 (show 1 ≤ 8 * n by omega))
    simp only [protoNumber, Nat.mod_mod, this]

theorem protoNumber_store {n : Nat} (hn : intWidth n = true) (zz : Bool) {w : Nat} (hw : w < 2 ^ (8 * n)) :
    varintStore n zz w = protoNumber (.varint n zz) w := by
  have hn0 : 0 < n := by rcases intWidth_cases hn with h | h | h | h <;> omega
  have hst : varintStore n zz w < 2 ^ (8 * n) ∧ varintLoad n zz (varintStore n zz w) = w := by
    unfold varintStore varintLoad
    cases zz
    · exact ⟨hw, rfl⟩
    · exact ⟨zzDec_lt _ _ hw, zzEnc_zzDec _ _ (by omega) hw⟩
  have h1 := (varintValue_facts (zz := zz) hn hst.1).2
  have h2 : varintValue n zz (varintStore n zz w) = varintLoad n zz (varintStore n zz w) := by
    unfold varintValue varintLoad
    cases zz
    · rfl
    · exact (zzEnc_eq _ _ (by omega) hst.1).symm
  rw [h2, hst.2] at h1
  exact h1.symm

theorem protoVarint_some {bs rest : List UInt8} {x : Nat} (h : protoVarint bs = some (x, rest)) :
    ∃ g, lebPrefix bs = some g ∧ x = lebValue g % 2 ^ 64 ∧ rest = bs.drop g.length ∧ bs = g ++ rest ∧ 0 < g.length := by
  unfold protoVarint at h
  cases hl : lebPrefix bs with
  | none => simp [hl] at h
  | some g =>
    simp only [hl] at h
    split at h
    · simp only [Option.some.injEq, Prod.mk.injEq] at h
      refine ⟨g, rfl, h.1.symm, h.2.symm, ?_, (lebPrefix_length hl).1⟩
      rw [← h.2]
      conv => lhs; rw [← List.take_append_drop g.length bs, ← lebPrefix_eq_take hl]
    · cases h

theorem protoVarint_append {bs rest : List UInt8} {x : Nat} (h : protoVarint bs = some (x, rest)) (more : List UInt8) :
    protoVarint (bs ++ more) = some (x, rest ++ more) := by
  obtain ⟨g, hl, hx, hr, hb, _⟩ := protoVarint_some h
  have hlen := lebPrefix_length hl
  unfold protoVarint at h ⊢
  rw [hl] at h
  rw [lebPrefix_append hl]
  simp only at h ⊢
  split at h
  · simp only [Option.some.injEq, Prod.mk.injEq] at h
    rw [if_pos (by assumption), h.1, List.drop_append_of_le_length hlen.2, h.2]
  · cases h

/-- A varint that both the parser and the library read. -/
theorem varint_read {n : Nat} (hn : intWidth n = true) {zz : Bool} {old v : Val} {data rest : List UInt8} {p q x : Nat}
    (hp : p ≤ data.length) (hx : protoVarint (data.drop p) = some (x, rest)) (h : getVarint n zz old data p = ⟨.ok, v, q⟩) :
    v = .num (protoNumber (.varint n zz) x) ∧ p < q ∧ q ≤ data.length ∧ data.drop q = rest := by
  have hw : IntWidth n := by rcases intWidth_cases hn with h | h | h | h <;> simp [IntWidth, h]
  have hn0 : 0 < n := by rcases intWidth_cases hn with h | h | h | h <;> omega
  obtain ⟨g, hl, rfl, rfl, hb, hg0⟩ := protoVarint_some hx
  unfold getVarint at h
  rw [if_neg (by omega), readVarintRaw_eq_decode n hw, decodeVarint_spec n hw, hl] at h
  simp only at h
  split at h
  case h_2 => cases h
  case h_3 => cases h
  rename_i y len hy
  split at hy
  case isFalse => cases hy
  cases hy
  cases h
  have hlen := lebPrefix_length hl
  rw [List.length_drop] at hlen
  refine ⟨?_, by omega, by omega, by rw [List.drop_drop]⟩
  have hlt : lebValue g % 2 ^ (8 * n) < 2 ^ (8 * n) := Nat.mod_lt _ (Nat.pow_pos (by decide))
  rw [protoNumber_store hn zz hlt, protoNumber_mod hn0]
  congr 1
  rw [← protoNumber_mod hn0 zz (lebValue g % 2 ^ 64), ← protoNumber_mod hn0 zz (lebValue g)]
  congr 1
  rw [Nat.mod_mod_of_dvd]
  apply Nat.pow_dvd_pow
  rcases intWidth_cases hn with h | h | h | h <;> omega

theorem littleNumber_bytes : ∀ (bs : List UInt8), littleNumber bs < 256 ^ bs.length ∧ leBytes bs.length (littleNumber bs) = bs
  | [] => by simp [littleNumber, leBytes]
  | b :: bs => by
    obtain ⟨h1, h2⟩ := littleNumber_bytes bs
    have hb : b.toNat < 256 := b.toNat_lt
    refine ⟨?_, ?_⟩
    · simp only [littleNumber, List.length_cons, Nat.pow_succ]
      omega
    · simp only [littleNumber, List.length_cons, leBytes]
      rw [show (b.toNat + 256 * littleNumber bs) / 256 = littleNumber bs by omega, h2]
      congr 1
      rw [show (b.toNat + 256 * littleNumber bs) % 256 = b.toNat by omega]
      simp

theorem protoFixed_some {n : Nat} {bs rest : List UInt8} {x : Nat} (h : protoFixed n bs = some (x, rest)) :
    x < 256 ^ n ∧ bs = digits .little n x ++ rest := by
  unfold protoFixed at h
  split at h
  · next hn =>
    simp only [Option.some.injEq, Prod.mk.injEq] at h
    have hl : (bs.take n).length = n := by simp; omega
    obtain ⟨h1, h2⟩ := littleNumber_bytes (bs.take n)
    rw [hl] at h1 h2
    rw [← h.1, ← h.2, digits_little, h2]
    exact ⟨h1, (List.take_append_drop n bs).symm⟩
  · cases h

/-- An element of fixed size, and the bytes the library writes for it. -/
theorem fixed_wire {env : Nat → Ty} {e : Ty} (hf : fixedElem e = true) {bs rest : List UInt8} {x : Nat}
    (h : protoElem e bs = some (x, rest)) (hb : e = .bool → ∀ b ∈ bs.take (bs.length - rest.length), b.toNat < 2) :
    ∃ b, wireNum (pbFmt env) e x = some b ∧ bs = b ++ rest := by
  cases e with
  | scalar k n =>
    cases k with
    | enum => cases hf
    | _ =>
      obtain ⟨h1, h2⟩ := protoFixed_some h
      exact ⟨digits .little n x, by simp [wireNum, pbFmt, h1], h2⟩
  | bool =>
    simp only [protoElem, Option.map_eq_some_iff, Prod.exists, Prod.mk.injEq] at h
    obtain ⟨y, r, hy, h1, rfl⟩ := h
    obtain ⟨g, hl, hyv, _, hbs, hg⟩ := protoVarint_some hy
    have hb' := hb rfl
    rw [hbs, List.length_append, Nat.add_sub_cancel, List.take_left] at hb'
    cases g with
    | nil => simp at hg
    | cons b g =>
      have hb2 := hb' b (by simp)
      rw [hbs] at hl
      simp only [List.cons_append, lebPrefix] at hl
      rw [if_pos (by omega)] at hl
      simp only [Option.some.injEq, List.cons.injEq, true_and] at hl
      subst hl
      refine ⟨[b], ?_, hbs⟩
      have hv : lebValue [b] = b.toNat := by simp [lebValue]; omega
      rw [hv] at hyv
      have hx : x = b.toNat := by
        rw [← h1, hyv]
        simp only [protoNumber]
        split <;> omega
      simp only [wireNum, hx]
      rw [if_pos (by omega)]
      simp
  | _ => cases hf

theorem packedElem_fixed {e : Ty} (hf : fixedElem e = true) : packedElem e = e := by
  cases e with
  | scalar k n => cases k <;> first | rfl | cases hf
  | _ => rfl

theorem decode_ok_pos {d : Nat} {c : Cfg} {t : Ty} {old v : Val} {data : List UInt8} {p q : Nat}
    (h : decode d c t old data p = ⟨.ok, v, q⟩) : 1 ≤ d := by
  cases d with
  | zero => cases h
  | succ d => omega

/-- A number that both the parser and the library read. -/
theorem num_read {c : Cfg} (hc : InPb c) (ha : AbiOk c.sizeof) (he : EnvGood c) {d : Nat} {e : Ty} {old v : Val}
    {data rest : List UInt8} {p q x : Nat} (hlen : data.length < 2 ^ 64) (hn : numTy (packedElem e) = true) (hp : p ≤ data.length)
    (hx : protoElem e (data.drop p) = some (x, rest))
    (hb : e = .bool → ∀ b ∈ (data.drop p).take ((data.drop p).length - rest.length), b.toNat < 2)
    (h : decode d c (packedElem e) old data p = ⟨.ok, v, q⟩) :
    v = .num x ∧ p < q ∧ q ≤ data.length ∧ data.drop q = rest := by
  have hd := decode_ok_pos h
  by_cases hf : fixedElem e = true
  · obtain ⟨b, hw, hdr⟩ := fixed_wire (env := c.env) hf hx hb
    rw [packedElem_fixed hf] at hn h
    have hw' : wire (fmtOf c) e (.num x) = some b := by
      rw [hc.fmt]
      cases e <;> first | exact hw | cases hf
    obtain ⟨h1, h2⟩ := numTy_rd (decode_round d c ha he).1 hlen hn (by omega) old _ _ hw'
    rw [h2 p rest hp hdr] at h
    cases h
    have hs := drop_split hp hdr
    exact ⟨rfl, by omega, hs.1, hs.2⟩
  · have hvar : ∀ n zz, intWidth n = true → packedElem e = .varint n zz →
        protoElem e (data.drop p) = (protoVarint (data.drop p)).map (fun r => (protoNumber (.varint n zz) r.1, r.2)) →
        v = .num x ∧ p < q ∧ q ≤ data.length ∧ data.drop q = rest := by
      intro n zz hw hpe hpr
      rw [hpr] at hx
      simp only [Option.map_eq_some_iff, Prod.exists, Prod.mk.injEq] at hx
      obtain ⟨y, r, hy, rfl, rfl⟩ := hx
      obtain ⟨d, rfl⟩ : ∃ d', d = d' + 1 := ⟨d - 1, by omega⟩
      rw [hpe, decode] at h
      exact varint_read hw hp hy h
    cases e with
    | scalar k n =>
      cases k with
      | enum => exact hvar n false hn rfl rfl
      | _ => simp [fixedElem] at hf
    | bool => simp [fixedElem] at hf
    | varint n zz => exact hvar n zz hn rfl rfl
    | _ => simp [packedElem, numTy] at hn

theorem protoElem_append {e : Ty} {bs rest : List UInt8} {x : Nat} (h : protoElem e bs = some (x, rest)) (more : List UInt8) :
    protoElem e (bs ++ more) = some (x, rest ++ more) ∧ ∃ g, bs = g ++ rest ∧ (g = [] → ∃ k, e = .scalar k 0) := by
  have hv : ∀ (f : Nat × List UInt8 → Nat × List UInt8) (y : Nat → Nat), (∀ r, f r = (y r.1, r.2)) → (protoVarint bs).map f = some (x, rest) →
      (protoVarint (bs ++ more)).map f = some (x, rest ++ more) ∧ ∃ g, bs = g ++ rest ∧ (g = [] → ∃ k, e = .scalar k 0) := by
    intro f y hf h
    simp only [Option.map_eq_some_iff, Prod.exists, hf, Prod.mk.injEq] at h
    obtain ⟨z, r, hz, rfl, rfl⟩ := h
    refine ⟨by rw [protoVarint_append hz]; simp [hf], ?_⟩
    obtain ⟨g, _, _, _, hg, hpos⟩ := protoVarint_some hz
    exact ⟨g, hg, fun e => by simp [e] at hpos⟩
  cases e with
  | scalar k n =>
    cases k with
    | enum => exact hv _ _ (fun _ => rfl) h
    | _ =>
      simp only [protoElem] at h ⊢
      obtain ⟨h1, h2⟩ := protoFixed_some h
      refine ⟨?_, _, h2, ?_⟩
      · rw [h2, List.append_assoc, protoFixed_digits n x _ h1]
      · intro hg
        have := digits_length .little n x
        rw [hg] at this
        simp only [List.length_nil] at this
        exact ⟨_, by rw [← this]⟩
  | _ => exact hv _ _ (fun _ => rfl) h

/-- A packed record that both the parser and the library read, element by element. -/
theorem packed_loop_read {c : Cfg} (hc : InPb c) (ha : AbiOk c.sizeof) (he : EnvGood c) {d : Nat} {t e : Ty}
    {data more : List UInt8} (hlen : data.length < 2 ^ 64) (hn : numTy (packedElem e) = true) :
    ∀ (k : Nat) (bs : List UInt8) (vs acc vs' : List Val) (f p q : Nat), p ≤ data.length → data.drop p = bs ++ more →
    protoPacked e k bs = some vs → (e = .bool → ∀ b ∈ bs, b.toNat < 2) →
    pbPacked (pbFetch c t (fun p => decode d c (packedElem e) .unit data p)) (p + bs.length) f acc p = ⟨.ok, vs', q⟩ →
    vs' = pushAll c t vs acc ∧ q = p + bs.length
  | k, [], vs, acc, vs', f, p, q, hp, hd, h1, hb, h => by
    have : vs = [] := by cases k <;> simpa [protoPacked] using h1.symm
    subst this
    cases f with
    | zero => cases h
    | succ f =>
      simp only [pbPacked, List.length_nil, Nat.add_zero, Nat.lt_irrefl, if_false] at h
      cases h
      exact ⟨rfl, rfl⟩
  | 0, _ :: _, _, _, _, _, _, _, _, _, h1, _, _ => by simp [protoPacked] at h1
  | k + 1, b :: bs, vs, acc, vs', f, p, q, hp, hd, h1, hb, h => by
    simp only [protoPacked] at h1
    split at h1
    case h_2 => cases h1
    case h_1 x rest hx =>
    simp only [Option.map_eq_some_iff] at h1
    obtain ⟨ws, hws, rfl⟩ := h1
    cases f with
    | zero => cases h
    | succ f =>
      rw [pbPacked, if_pos (by simp)] at h
      simp only [pbFetch] at h
      cases hr : decode d c (packedElem e) .unit data p with
      | mk s v p' =>
        rw [hr] at h
        cases s with
        | ok =>
          simp only at h
          obtain ⟨hx', g, hg, _⟩ := protoElem_append hx more
          rw [← hd] at hx'
          have hl := congrArg List.length hd
          have hgl := congrArg List.length hg
          simp only [List.length_append, List.length_drop] at hl hgl
          obtain ⟨rfl, hpq, hq, hdq⟩ := num_read hc ha he hlen hn hp hx' (by
            intro eb y hy
            refine hb eb y ?_
            rw [hg]
            rw [hd, hg, List.append_assoc, List.length_append, Nat.add_sub_cancel, List.take_left] at hy
            simp [hy]) hr
          have hp' : p' + rest.length = p + (b :: bs).length := by
            have := congrArg List.length hdq
            simp only [List.length_drop, List.length_append] at this
            omega
          rw [← hp'] at h ⊢
          exact packed_loop_read hc ha he hlen hn k rest ws _ vs' f p' q hq hdq hws (fun eb y hy => hb eb y (by rw [hg]; simp [hy])) h
        | _ => cases h

/-- A packed record of elements of fixed size is what the library writes. -/
theorem packed_fixed {env : Nat → Ty} {e : Ty} (hf : fixedElem e = true) : ∀ (k : Nat) (bs : List UInt8) (vs : List Val),
    protoPacked e k bs = some vs → (e = .bool → ∀ b ∈ bs, b.toNat < 2) → wireNums (pbFmt env) e vs = some bs
  | k, [], vs, h, _ => by
    have : vs = [] := by cases k <;> simpa [protoPacked] using h.symm
    subst this
    rfl
  | 0, _ :: _, _, h, _ => by simp [protoPacked] at h
  | k + 1, b :: bs, vs, h, hb => by
    simp only [protoPacked] at h
    split at h
    case h_2 => cases h
    case h_1 x rest hx =>
    simp only [Option.map_eq_some_iff] at h
    obtain ⟨ws, hws, rfl⟩ := h
    obtain ⟨g, hw, hg⟩ := fixed_wire (env := env) hf hx (fun eb y hy => hb eb y (List.mem_of_mem_take hy))
    have ih := packed_fixed (env := env) hf k rest ws hws (fun eb y hy => hb eb y (by rw [hg]; simp [hy]))
    rw [wireNums, hw, ih, hg]
    rfl

theorem payload_number {e : Ty} {wt : Nat} {p : PbPayload} {bs rest : List UInt8} {v : Val} (h : protoPayload wt bs = some (p, rest))
    (hs : protoScalar e p = some v) : wt ≠ 2 ∧ isLen p = false ∧ ∃ x, v = .num x ∧ protoElem e bs = some (x, rest) := by
  have hv : ∀ y, p = .varint y → wt = 0 ∧ protoVarint bs = some (y, rest) := by
    rintro y rfl
    unfold protoPayload at h
    split at h
    all_goals first
      | (simp only [Option.map_eq_some_iff, Prod.exists, Prod.mk.injEq, PbPayload.varint.injEq, reduceCtorEq, false_and, and_false,
          exists_false] at h; done)
      | skip
    · simp only [Option.map_eq_some_iff, Prod.exists, Prod.mk.injEq, PbPayload.varint.injEq] at h
      obtain ⟨y', r, hy, rfl, rfl⟩ := h
      exact ⟨rfl, hy⟩
    · split at h
      · split at h <;> simp at h
      · cases h
  have h4 : ∀ y, p = .fixed32 y → wt = 5 ∧ protoFixed 4 bs = some (y, rest) := by
    rintro y rfl
    unfold protoPayload at h
    split at h
    all_goals first
      | (simp only [Option.map_eq_some_iff, Prod.exists, Prod.mk.injEq, PbPayload.fixed32.injEq, reduceCtorEq, false_and, and_false,
          exists_false] at h; done)
      | skip
    · split at h
      · split at h <;> simp at h
      · cases h
    · simp only [Option.map_eq_some_iff, Prod.exists, Prod.mk.injEq, PbPayload.fixed32.injEq] at h
      obtain ⟨y', r, hy, rfl, rfl⟩ := h
      exact ⟨rfl, hy⟩
  have h8 : ∀ y, p = .fixed64 y → wt = 1 ∧ protoFixed 8 bs = some (y, rest) := by
    rintro y rfl
    unfold protoPayload at h
    split at h
    all_goals first
      | (simp only [Option.map_eq_some_iff, Prod.exists, Prod.mk.injEq, PbPayload.fixed64.injEq, reduceCtorEq, false_and, and_false,
          exists_false] at h; done)
      | skip
    · simp only [Option.map_eq_some_iff, Prod.exists, Prod.mk.injEq, PbPayload.fixed64.injEq] at h
      obtain ⟨y', r, hy, rfl, rfl⟩ := h
      exact ⟨rfl, hy⟩
    · split at h
      · split at h <;> simp at h
      · cases h
  unfold protoScalar at hs
  split at hs
  · obtain ⟨rfl, h'⟩ := h4 _ rfl
    cases hs
    exact ⟨by decide, rfl, _, rfl, h'⟩
  · obtain ⟨rfl, h'⟩ := h8 _ rfl
    cases hs
    exact ⟨by decide, rfl, _, rfl, h'⟩
  · obtain ⟨rfl, h'⟩ := hv _ rfl
    cases hs
    exact ⟨by decide, rfl, _, rfl, by simp [protoElem, h']⟩
  · obtain ⟨rfl, h'⟩ := hv _ rfl
    cases hs
    exact ⟨by decide, rfl, _, rfl, by simp [protoElem, h']⟩
  · obtain ⟨rfl, h'⟩ := hv _ rfl
    cases hs
    exact ⟨by decide, rfl, _, rfl, by simp [protoElem, h']⟩
  · cases hs

theorem payload_len {wt : Nat} {body bs rest : List UInt8} (h : protoPayload wt bs = some (.len body, rest)) :
    wt = 2 ∧ ∃ tail, protoVarint bs = some (body.length, tail) ∧ tail = body ++ rest := by
  unfold protoPayload at h
  split at h
  all_goals first
    | (simp only [Option.map_eq_some_iff, Prod.mk.injEq, reduceCtorEq, false_and, and_false, exists_false] at h; done)
    | skip
  · split at h
    · split at h
      · next n tail hv hle =>
        simp only [Option.some.injEq, Prod.mk.injEq, PbPayload.len.injEq] at h
        obtain ⟨rfl, rfl⟩ := h
        refine ⟨rfl, tail, ?_, (List.take_append_drop n tail).symm⟩
        rw [hv, List.length_take, Nat.min_eq_left hle]
      · cases h
    · cases h

/-- The size of a length-delimited record. -/
theorem hdr_read {c : Cfg} {data tail : List UInt8} {p n len q : Nat} (hp : p ≤ data.length)
    (hx : protoVarint (data.drop p) = some (n, tail)) (h : decHdr c .varint data p = (.ok, len, q)) :
    len = n ∧ p < q ∧ q ≤ data.length ∧ data.drop q = tail := by
  simp only [decHdr] at h
  split at h
  · next x p1 hv =>
    obtain ⟨h1, h2, h3, h4⟩ := varint_read (n := 8) rfl hp hx hv
    cases h
    refine ⟨?_, h2, h3, h4⟩
    simp only [Val.num.injEq, protoNumber] at h1
    rw [h1]
    obtain ⟨g, _, rfl, _⟩ := protoVarint_some hx
    exact Nat.mod_eq_of_lt (Nat.mod_lt _ (by decide))
  · cases h
  · next s v p1 hne hv => cases h; simp_all

end Zpp
