import Verif.Proof.ProtoBytes
import Verif.Proof.InRecFail
/-!
# Reading any bytes as a protobuf parser does: members
-/

namespace Zpp
open Spec

/-- The library, with stack `d`, reads nested messages as the parser `sub` does. -/
def SubBytes (c : Cfg) (d : Nat) (sub : SubParser) : Prop :=
  ∀ t maps nums fs, msgOf c.env t = some (maps, nums, fs) → Good c t = true →
    ∀ s data p q os v body rest ws, data.length < 2 ^ 64 → p ≤ data.length → 2 * (s + 1) + 3 ≤ d → InitialL c.env fs os →
      protoVarint (data.drop p) = some (body.length, body ++ rest) → BytesPlain c.env s (protoFields maps nums fs) [] body →
      sub (protoFields maps nums fs) os body = some ws → decode d c t (.list os) data p = ⟨.ok, v, q⟩ →
      ∃ vs, v = .list vs ∧ HoldsEach c fs ws vs ∧ p < q ∧ q ≤ data.length ∧ data.drop q = rest

/-- Containers. -/
def isRepeated : Ty → Bool
  | .seq _ _ _ => true
  | .assoc _ _ _ _ _ => true
  | _ => false

/-- The type of the elements that the parser finds in a container. -/
def parserElem : Ty → Ty
  | .seq _ _ e => e
  | .assoc _ _ _ key none => key
  | .assoc _ _ _ key (some m) => .msg none false [] [none, none] [key, m]
  | _ => .empty

theorem holds_add {c : Cfg} {t : Ty} (ht : isRepeated t = true) {cp cl : Val} (hst : Holds c t cp cl) {ws vs : List Val}
    (h : HoldsAll c (parserElem t) ws vs) : Holds c t (.list (cp.elems ++ ws)) (.list (addAll c t vs cl.elems)) := by
  cases t with
  | seq k sz e =>
    simp only [addAll]
    exact .seq (holdsAll_append h (holds_seq hst))
  | assoc multi hashed sz key mapped =>
    cases mapped with
    | none =>
      obtain ⟨es, hold, hes⟩ := holds_set hst
      rw [hes, addAll_append]
      exact .set (holdsAll_append h hold)
    | some m =>
      obtain ⟨es, hold, hes⟩ := holds_map hst
      rw [hes, addAll_append]
      exact .map (holdsAll_append h hold)
  | _ => cases ht

theorem protoField_container {new : Ty → Val} {sub : SubParser} {env : Nat → Ty} {t : Ty} (ht : isRepeated t = true) (cp : Val)
    (p : PbPayload) : protoField new sub env t cp p = protoContainer new sub env (parserElem t) cp p := by
  cases t with
  | seq k sz e => simp only [protoField, parserElem]
  | assoc multi hashed sz key mapped => cases mapped <;> simp only [protoField, parserElem]
  | _ => cases ht

theorem packed_class {c : Cfg} {rec : Ty → Val → Nat → Res} {fresh : Ty → Val} {t e : Ty} (hcl : pbInClass t = pbElemClass e)
    (hp : isPacked e = true) (wt : Nat) (old : Val) (data : List UInt8) (p : Nat) :
    pbDecField c rec fresh t wt old data p = pbDecPacked c rec t (packedElem e) (fixedElem e) wt old data p := by
  unfold pbDecField
  rw [hcl]
  cases e with
  | scalar k n => cases k <;> rfl
  | bool => rfl
  | varint n zz => rfl
  | _ => cases hp

theorem holdsAll_packed_nums {c : Cfg} {e e' : Ty} : ∀ (k : Nat) (bs : List UInt8) (vs : List Val), protoPacked e k bs = some vs →
    HoldsAll c e' vs vs
  | k, [], vs, h => by
    have : vs = [] := by cases k <;> simpa [protoPacked] using h.symm
    subst this
    exact .nil
  | 0, _ :: _, _, h => by simp [protoPacked] at h
  | k + 1, b :: bs, vs, h => by
    simp only [protoPacked] at h
    split at h
    · simp only [Option.map_eq_some_iff] at h
      obtain ⟨ws, hws, rfl⟩ := h
      exact .cons (.num _ _) (holdsAll_packed_nums k _ ws hws)
    · cases h

theorem depth_packed {e : Ty} : ∀ (k : Nat) (bs : List UInt8) (vs : List Val), protoPacked e k bs = some vs → depth (.list vs) ≤ 2
  | k, [], vs, h => by
    have : vs = [] := by cases k <;> simpa [protoPacked] using h.symm
    subst this
    simp [depth, depthL]
  | 0, _ :: _, _, h => by simp [protoPacked] at h
  | k + 1, b :: bs, vs, h => by
    simp only [protoPacked] at h
    split at h
    · simp only [Option.map_eq_some_iff] at h
      obtain ⟨ws, hws, rfl⟩ := h
      have := depth_packed k _ ws hws
      simp only [depth, depthL] at this ⊢
      omega
    · cases h

theorem fixed_size {e : Ty} (hf : fixedElem e = true) (hn : numTy e = true) : ∃ sz, 0 < sz ∧ (e = .scalar .int sz ∨ e = .scalar .enum sz ∨
    e = .scalar .byte sz ∨ e = .scalar .chr sz ∨ (e = .bool ∧ sz = 1)) := by
  cases e with
  | scalar k n =>
    have : 0 < n := by
      cases k <;> simp only [numTy, scalarOk, beq_iff_eq, decide_eq_true_eq] at hn <;> omega
    cases k with
    | enum => cases hf
    | _ => exact ⟨n, this, by simp⟩
  | bool => exact ⟨1, by omega, by simp⟩
  | _ => cases hf

/-- Elements of fixed size in a container that has the right size already. -/
theorem unsized_read {c : Cfg} (hc : InPb c) (ha : AbiOk c.sizeof) (he : EnvGood c) {d : Nat} {k : SeqKind} {e : Ty}
    {data body rest : List UInt8} {olds vs : List Val} {v : Val} {p q j : Nat} (hlen : data.length < 2 ^ 64)
    (hk : k = .vector ∨ k = .list) (hg : Good c (.seq k (some .none) e) = true) (hf : fixedElem e = true) (hn : numTy e = true)
    (hb : e = .bool → ∀ b ∈ body, b.toNat < 2) (hp : p ≤ data.length) (hdr : data.drop p = body ++ rest)
    (hv : protoPacked e j body = some vs) (hl : olds.length = body.length / c.sizeof e)
    (hd : 3 ≤ d) (h : decode d c (.seq k (some .none) e) (.list olds) data p = ⟨.ok, v, q⟩) :
    v = .list vs ∧ q = p + body.length := by
  have hw := packed_fixed (env := c.env) hf j body vs hv hb
  have hwa : wireAll (fmtOf c) e vs = some body := by
    rw [hc.fmt, ← wireNums_eq_wireAll _ _ hn]; exact hw
  obtain ⟨sz, hsz, hel⟩ := fixed_size hf hn
  have hso : c.sizeof e = sz := by
    rcases hel with rfl | rfl | rfl | rfl | ⟨rfl, rfl⟩ <;> first | exact ha.scalar _ _ hsz | exact ha.bool
  have hbl := wireAll_length (n := sz) (fun v bs hw => wire_num_length hel hw) _ _ hwa
  have hdep := depth_packed j body vs hv
  have := (decode_round d c ha he).2 data hlen k e vs olds body hk hg hn hwa (by
    rw [hl, hbl, hso, Nat.mul_div_cancel _ hsz]) (by omega) p rest hp hdr
  rw [this] at h
  cases h
  exact ⟨rfl, rfl⟩

theorem packedOf_elem {t e : Ty} (h : packedOf t = some e) : isRepeated t = true ∧ parserElem t = e := by
  obtain ⟨_, ⟨k, sz, rfl⟩ | ⟨multi, hashed, sz, rfl⟩⟩ := packedOf_eq h <;> exact ⟨rfl, rfl⟩

theorem protoAppend_number {new : Ty → Val} {sub : SubParser} {env : Nat → Ty} {e : Ty} {p : PbPayload} {v : Val}
    (hl : isLen p = false) (h : protoScalar e p = some v) : protoAppend new sub env e p = some (some [v]) ∧ isText e = false := by
  refine ⟨?_, ?_⟩
  · cases p with
    | len bs => cases hl
    | _ => simp only [protoAppend, h, Option.map]
  · unfold protoScalar at h
    split at h <;> first | rfl | cases h

/-- A number. -/
theorem number_reads {c : Cfg} (hc : InPb c) (ha : AbiOk c.sizeof) (he : EnvGood c) {new : Ty → Val} {d : Nat} {sub : SubParser}
    {t : Ty} {maps : List (Nat × Nat)} {num : Option Nat} {i : Nat} (hf : pbFieldOk c.env maps num i t = true)
    {data rest : List UInt8} {p q wt : Nat} {pay : PbPayload} {cp cl v w v' : Val} (hlen : data.length < 2 ^ 64) (hp : p ≤ data.length)
    (hpay : protoPayload wt (data.drop p) = some (pay, rest)) (hv : protoScalar t pay = some v')
    (hb : t = .bool → ∀ b ∈ (data.drop p).take ((data.drop p).length - rest.length), b.toNat < 2)
    (hw : protoField new sub c.env t cp pay = some w)
    (h : pbDecField c (fun t v q => decode d c t v data q) (dflt c d) t wt cl data p = ⟨.ok, v, q⟩) :
    Holds c t w v ∧ p < q ∧ q ≤ data.length ∧ data.drop q = rest := by
  obtain ⟨_, _, x, rfl, hx⟩ := payload_number hpay hv
  have hs : pbScalarOk t = true := by
    unfold protoScalar at hv
    split at hv <;> first | cases hv | skip
    all_goals simpa [pbFieldOk, isMsg] using hf
  rw [protoField_scalar hs, hv] at hw
  cases hw
  have hn : numTy (packedElem t) = true := by
    cases t with
    | scalar k n => cases k <;> simp [pbScalarOk] at hs <;> simp [packedElem, numTy, scalarOk, hs] <;> omega
    | bool => rfl
    | varint n zz => exact hs
    | _ => cases hs
  have key : ∀ d', decode d' c (packedElem t) cl data p = ⟨.ok, v, q⟩ → Holds c t (.num x) v ∧ p < q ∧ q ≤ data.length ∧ data.drop q = rest := by
    intro d' h'
    obtain ⟨rfl, h1, h2, h3⟩ := num_read hc ha he hlen hn hp hx hb h'
    exact ⟨.num _ _, h1, h2, h3⟩
  cases t with
  | scalar k n =>
    cases k with
    | enum => exact key 1 h
    | int => exact key d h
    | byte => simp [pbScalarOk] at hs
    | chr => simp [pbScalarOk] at hs
  | bool => exact key d h
  | varint n zz => exact key d h
  | _ => cases hs

/-- A single element of a repeated field. -/
theorem one_reads {c : Cfg} (hc : InPb c) (ha : AbiOk c.sizeof) (he : EnvGood c) {new : Ty → Val} {d : Nat} {sub : SubParser}
    {t e : Ty} {maps : List (Nat × Nat)} {num : Option Nat} {i : Nat} (hf : pbFieldOk c.env maps num i t = true) (hg : Good c t = true)
    {data rest : List UInt8} {p q wt : Nat} {pay : PbPayload} {cp cl v w v' : Val} (hlen : data.length < 2 ^ 64) (hp : p ≤ data.length)
    (hpay : protoPayload wt (data.drop p) = some (pay, rest)) (ht : packedOf t = some e) (hv : protoScalar e pay = some v')
    (hb : e = .bool → ∀ b ∈ (data.drop p).take ((data.drop p).length - rest.length), b.toNat < 2)
    (hst : Holds c t cp cl) (hw : protoField new sub c.env t cp pay = some w)
    (h : pbDecField c (fun t v q => decode d c t v data q) (dflt c d) t wt cl data p = ⟨.ok, v, q⟩) :
    Holds c t w v ∧ p < q ∧ q ≤ data.length ∧ data.drop q = rest := by
  obtain ⟨hwt, hnl, x, rfl, hx⟩ := payload_number hpay hv
  obtain ⟨hpk, hn, hcl, _⟩ := packed_facts hf hg ht
  obtain ⟨hrep, hpe⟩ := packedOf_elem ht
  obtain ⟨happ, htx⟩ := protoAppend_number (new := new) (sub := sub) (env := c.env) hnl hv
  rw [protoField_container hrep, hpe] at hw
  simp only [protoContainer, happ, htx, Bool.false_eq_true, if_false, Option.some.injEq] at hw
  subst hw
  rw [packed_class hcl hpk] at h
  unfold pbDecPacked at h
  simp only [ne_eq, hwt, not_false_eq_true, if_true, pbFetch] at h
  cases hr : decode d c (packedElem e) .unit data p with
  | mk s v1 p1 =>
    rw [hr] at h
    cases s with
    | ok =>
      obtain ⟨rfl, h1, h2, h3⟩ := num_read hc ha he hlen hn hp hx hb hr
      simp only [ResL.toRes] at h
      cases h
      refine ⟨?_, h1, h2, h3⟩
      have := pushAll_eq c t [.num x] cl.elems
      simp only [pushAll, List.foldl] at this
      rw [this]
      exact holds_add hrep hst (by rw [hpe]; exact .cons (.num _ _) .nil)
    | _ => cases h

/-- A packed record. -/
theorem packed_reads {c : Cfg} (hc : InPb c) (ha : AbiOk c.sizeof) (he : EnvGood c) {new : Ty → Val} {d : Nat} (hd : 3 ≤ d)
    {sub : SubParser} {t e : Ty} {maps : List (Nat × Nat)} {num : Option Nat} {i : Nat} (hf : pbFieldOk c.env maps num i t = true)
    (hg : Good c t = true) {data body rest : List UInt8} {p q wt : Nat} {cp cl v w : Val} (hlen : data.length < 2 ^ 64)
    (hp : p ≤ data.length) (hpay : protoPayload wt (data.drop p) = some (.len body, rest)) (ht : packedOf t = some e)
    (hb : e = .bool → ∀ b ∈ body, b.toNat < 2) (hst : Holds c t cp cl)
    (hcur : firstOnly c.env t = true → cp = cl ∧ Initial c.env t cl) (hw : protoField new sub c.env t cp (.len body) = some w)
    (h : pbDecField c (fun t v q => decode d c t v data q) (dflt c d) t wt cl data p = ⟨.ok, v, q⟩) :
    Holds c t w v ∧ p < q ∧ q ≤ data.length ∧ data.drop q = rest := by
  obtain ⟨rfl, tail, hvar, rfl⟩ := payload_len hpay
  obtain ⟨hpk, hn, hcl, hseq⟩ := packed_facts hf hg ht
  obtain ⟨hrep, hpe⟩ := packedOf_elem ht
  rw [protoField_container hrep, hpe] at hw
  simp only [protoContainer, protoAppend, hpk, if_true] at hw
  cases hvs : protoPacked e body.length body with
  | none => simp [hvs] at hw
  | some vs =>
  simp only [hvs, Option.map, Option.some.injEq] at hw
  rw [packed_class hcl hpk] at h
  unfold pbDecPacked at h
  simp only [ne_eq, not_true_eq_false, if_false] at h
  cases hh : decHdr c .varint data p with
  | mk s r =>
  obtain ⟨len, p1⟩ := r
  rw [hh] at h
  cases s with
  | ok =>
    obtain ⟨rfl, h1, h2, h3⟩ := hdr_read hp hvar hh
    have hs := drop_split h2 h3
    simp only at h
    have hnums : ∀ e', HoldsAll c e' vs vs := fun e' => holdsAll_packed_nums _ _ _ hvs
    have hend : q = p1 + body.length → p < q ∧ q ≤ data.length ∧ data.drop q = rest := by
      rintro rfl
      exact ⟨by omega, hs.1, hs.2⟩
    split at h
    · -- one copy
      rename_i hres
      simp only [Bool.and_eq_true] at hres
      split at h
      · cases h
      split at h
      · cases h
      rw [packedElem_fixed hres.2] at h hn
      cases t with
      | seq k sz e' =>
        obtain ⟨hk, rfl, hgs⟩ := hseq k sz e' rfl
        simp only [unsizedTy] at h
        obtain ⟨rfl, hq⟩ := unsized_read hc ha he hlen hk hgs hres.2 hn hb h2 h3 hvs (resizeVals_length _ _ _) hd h
        refine ⟨?_, hend hq⟩
        by_cases htx : isText e' = true
        · simp only [htx, if_true] at hw
          subst hw
          exact .seq (hnums _)
        · simp only [htx, Bool.false_eq_true, if_false] at hw
          subst hw
          obtain ⟨rfl, hi⟩ := hcur (by simp [firstOnly, hres.2, htx])
          cases hi
          exact .seq (hnums _)
      | assoc multi hashed sz key mapped => simp [hasResize] at hres
      | _ => cases hrep
    · rename_i hres
      split at h
      · cases h
      have hwrap : wrap (body.length + p1) = p1 + body.length := by
        unfold wrap
        rw [Nat.mod_eq_of_lt (by omega)]; omega
      rw [hwrap] at h
      cases hl : pbPacked (pbFetch c t (fun p => decode d c (packedElem e) .unit data p)) (p1 + body.length) (data.length + 1) cl.elems p1 with
      | mk s vs' p2 =>
      have hl' := hl
      change (pbPacked (pbFetch c t (fun p => decode d c (packedElem e) .unit data p)) (p1 + body.length) (data.length + 1) cl.elems p1).toRes = _ at h
      rw [hl] at h
      simp only [ResL.toRes, Res.mk.injEq] at h
      obtain ⟨rfl, rfl, rfl⟩ := h
      obtain ⟨rfl, hq⟩ := packed_loop_read hc ha he hlen hn _ body vs cl.elems vs' _ p1 p2 h2 h3 hvs hb hl
      refine ⟨?_, hend hq⟩
      rw [pushAll_eq]
      have hadd := holds_add hrep hst (by rw [hpe]; exact hnums e)
      by_cases htx : isText e = true
      · simp only [htx, if_true] at hw
        subst hw
        have hfx : fixedElem e = true := by
          cases e with
          | scalar k n => cases k <;> simp [isText] at htx <;> rfl
          | _ => simp [isText] at htx
        have hfo : firstOnly c.env t = true := by
          cases t with
          | seq k sz e' =>
            obtain ⟨hk, _, _⟩ := hseq k sz e' rfl
            rcases hk with rfl | rfl <;> simp [hasResize, hfx] at hres
          | assoc multi hashed sz key mapped =>
            cases mapped with
            | none => simpa only [firstOnly, ← hpe, parserElem] using htx
            | some m => simp [packedOf] at ht
          | _ => cases hrep
        obtain ⟨rfl, hi⟩ := hcur hfo
        have hcp : cp.elems = [] := by
          cases t with
          | seq k sz e' => cases hi; rfl
          | assoc multi hashed sz key mapped => cases hi; rfl
          | _ => cases hrep
        rw [hcp] at hadd
        exact (hcp ▸ hadd)
      · simp only [htx, Bool.false_eq_true, if_false] at hw
        subst hw
        exact hadd
  | _ => cases h

/-- One element of a repeated field, read with the library's fresh object. -/
theorem fetch_reads {c : Cfg} {t : Ty} (hrep : isRepeated t = true) {elem : Nat → Res} {cp cl v we : Val} {p q : Nat}
    (hst : Holds c t cp cl) (h : (pbFetch c t elem cl.elems p).toRes = ⟨.ok, v, q⟩)
    (he : ∀ ve, elem p = ⟨.ok, ve, q⟩ → Holds c (parserElem t) we ve) :
    (∃ ve, elem p = ⟨.ok, ve, q⟩) ∧ Holds c t (.list (cp.elems ++ [we])) v := by
  unfold pbFetch at h
  cases hr : elem p with
  | mk s v1 p1 =>
    rw [hr] at h
    cases s with
    | ok =>
      simp only [ResL.toRes, Res.mk.injEq, true_and] at h
      obtain ⟨rfl, rfl⟩ := h
      refine ⟨⟨_, rfl⟩, ?_⟩
      have := pushAll_eq c t [v1] cl.elems
      simp only [pushAll, List.foldl] at this
      rw [this]
      exact holds_add hrep hst (.cons (he _ hr) .nil)
    | _ => cases h

/-- A string of a repeated field. -/
theorem text_reads {c : Cfg} (hc : InPb c) (ha : AbiOk c.sizeof) (he : EnvGood c) {new : Ty → Val} {d : Nat} (hd : 3 ≤ d)
    {sub : SubParser} {t ch : Ty} {k : SeqKind} {sz : Option SizeTy} {maps : List (Nat × Nat)} {num : Option Nat} {i : Nat}
    (hf : pbFieldOk c.env maps num i t = true)
    (hg : Good c t = true) {data body rest : List UInt8} {p q wt : Nat} {cp cl v w : Val} (hlen : data.length < 2 ^ 64)
    (hp : p ≤ data.length) (hpay : protoPayload wt (data.drop p) = some (.len body, rest)) (ht : elemTy t = .seq k sz ch)
    (hst : Holds c t cp cl) (hw : protoField new sub c.env t cp (.len body) = some w)
    (h : pbDecField c (fun t v q => decode d c t v data q) (dflt c d) t wt cl data p = ⟨.ok, v, q⟩) :
    Holds c t w v ∧ p < q ∧ q ≤ data.length ∧ data.drop q = rest := by
  obtain ⟨rfl, tail, hvar, rfl⟩ := payload_len hpay
  have facts : isRepeated t = true ∧ parserElem t = .seq k sz ch ∧ isStr (.seq k sz ch) = true ∧ Good c (.seq k sz ch) = true ∧
      pbInClass t = pbElemClass (.seq k sz ch) := by
    have hel : pbElemOk c.env (.seq k sz ch) = true → isStr (.seq k sz ch) = true := by
      intro h
      simpa [pbElemOk, numTy, packedElem, isMsg] using h
    cases t with
    | seq k' sz' e =>
      simp only [elemTy] at ht
      subst ht
      simp only [pbFieldOk, Bool.and_eq_true] at hf
      simp only [Good, Bool.and_eq_true] at hg
      exact ⟨rfl, rfl, hel hf.1.2, by simpa only [Good, Bool.and_eq_true] using hg.2, rfl⟩
    | assoc multi hashed sz' key mapped =>
      cases mapped with
      | none =>
        simp only [elemTy] at ht
        subst ht
        simp only [pbFieldOk, Bool.and_eq_true] at hf
        exact ⟨rfl, rfl, hel hf.1.2, by simpa only [Good] using hg, rfl⟩
      | some m => simp [elemTy] at ht
    | _ => simp [elemTy] at ht
  obtain ⟨hrep, hpe, hstr, hgs, hcl⟩ := facts
  have hcls := (repeated_class (env := c.env) (Or.inr hstr)).1
  obtain ⟨sk, rfl, rfl, rfl, hsk⟩ : ∃ sk, k = .vector ∧ sz = none ∧ ch = .scalar sk 1 ∧ (sk = .chr ∨ sk = .byte) := by
    unfold isStr at hstr
    split at hstr
    · rename_i heq
      cases heq
      simp only [Bool.and_eq_true, beq_iff_eq, Bool.or_eq_true] at hstr
      obtain ⟨⟨⟨h1, h2⟩, h3⟩, h4⟩ := hstr
      exact ⟨_, h1, h2, by rw [h4], h3⟩
    · cases hstr
  have hfx : fixedElem (.scalar sk 1) = true := by rcases hsk with rfl | rfl <;> rfl
  have hn : numTy (.scalar sk 1) = true := by rcases hsk with rfl | rfl <;> rfl
  rw [protoField_container hrep, hpe] at hw
  simp only [protoContainer, protoAppend, isPacked, Bool.false_eq_true, if_false] at hw
  cases hvs : protoPacked (.scalar sk 1) body.length body with
  | none => simp [hvs] at hw
  | some vs =>
  simp only [hvs, Option.map, isText, Bool.false_eq_true, if_false, Option.some.injEq] at hw
  subst hw
  unfold pbDecField at h
  rw [hcl, hcls] at h
  simp only at h
  have elem : ∀ ve, decode d c (.seq .vector none (.scalar sk 1)) (dflt c d (.seq .vector none (.scalar sk 1))) data p = ⟨.ok, ve, q⟩ →
      ve = .list vs ∧ p < q ∧ q ≤ data.length ∧ data.drop q = rest := by
    intro ve h
    obtain ⟨d, rfl⟩ : ∃ d', d = d' + 1 := ⟨d - 1, by omega⟩
    have heff : effSz c none = .varint := by
      have := congrArg Cfg.dsz hc.idem
      simpa [effSz, pbCfg] using this.symm
    simp only [decode, heff] at h
    cases hh : decHdr c .varint data p with
    | mk s r =>
    obtain ⟨len, p1⟩ := r
    rw [hh] at h
    cases s with
    | ok =>
      obtain ⟨rfl, h1, h2, h3⟩ := hdr_read hp hvar hh
      have hs := drop_split h2 h3
      simp only [seqFill] at h
      split at h
      · cases h
      split at h
      · cases h
      have hgu : Good c (.seq .vector (some .none) (.scalar sk 1)) = true := by
        simp only [Good, Bool.and_eq_true] at hgs ⊢
        exact ⟨by simpa [nodeOk] using hgs.1, hgs.2⟩
      have := unsized_read (d := d + 1) (olds := resizeVals (dflt c (d + 1) (.seq .vector none (.scalar sk 1))).elems body.length
        (dflt c d (.scalar sk 1))) hc ha he hlen (Or.inl rfl) hgu hfx hn (by intro h; cases h) h2 h3 hvs (by
          rw [resizeVals_length, ha.scalar _ _ (by omega), Nat.div_one]) hd (v := ve) (q := q) (by
          simp only [decode, effSz, Option.getD, seqUnsized]
          exact h)
      obtain ⟨rfl, rfl⟩ := this
      exact ⟨rfl, by omega, hs.1, hs.2⟩
    | _ => cases h
  obtain ⟨⟨ve, hve⟩, hH⟩ := fetch_reads (we := .list vs) hrep hst h (by
    intro ve hve
    obtain ⟨rfl, _⟩ := elem ve hve
    rw [hpe]
    exact .seq (holdsAll_packed_nums _ _ _ hvs))
  exact ⟨hH, (elem ve hve).2⟩

/-- A nested message. -/
theorem message_reads {c : Cfg} {new : Ty → Val} {d : Nat}
    {sub : SubParser} (hsub : SubBytes c d sub) {t : Ty} {maps : List (Nat × Nat)} {nums : List (Option Nat)} {fs : List Ty} {s : Nat}
    (hg : Good c t = true) {data body rest : List UInt8} {p q wt : Nat} {cp cl v w : Val} (hlen : data.length < 2 ^ 64)
    (hp : p ≤ data.length) (hd : 2 * (s + 1) + 3 ≤ d) (hpay : protoPayload wt (data.drop p) = some (.len body, rest))
    (ht : msgOf c.env t = some (maps, nums, fs)) (hpl : BytesPlain c.env s (protoFields maps nums fs) [] body)
    (hcur : firstOnly c.env t = true → cp = cl ∧ Initial c.env t cl) (hw : protoField new sub c.env t cp (.len body) = some w)
    (h : pbDecField c (fun t v q => decode d c t v data q) (dflt c d) t wt cl data p = ⟨.ok, v, q⟩) :
    Holds c t w v ∧ p < q ∧ q ≤ data.length ∧ data.drop q = rest := by
  obtain ⟨rfl, tail, hvar, rfl⟩ := payload_len hpay
  obtain ⟨rfl, hi⟩ := hcur (by
    cases t with
    | seq k sz e => simp [msgOf] at ht
    | assoc multi hashed sz key mp => simp [msgOf] at ht
    | _ => simp [firstOnly, ht])
  obtain ⟨os, rfl, hos⟩ := initial_msg ht hi
  have hpf : protoField new sub c.env t (.list os) (.len body) = protoMessage sub c.env t (.list os) body := by
    cases t <;> first | rfl | simp [msgOf] at ht
  rw [hpf] at hw
  simp only [protoMessage, ht, Val.elems, Option.map_eq_some_iff] at hw
  obtain ⟨ws, hws, rfl⟩ := hw
  have hcl : pbInClass t = .single := by
    cases t <;> first | rfl | simp [msgOf] at ht
  unfold pbDecField at h
  rw [hcl] at h
  obtain ⟨vs, rfl, h1, h2⟩ := hsub t maps nums fs ht hg s data p q os v body rest ws hlen hp hd hos hvar hpl hws h
  exact ⟨.msg ht h1, h2⟩

/-- A message of a repeated field, or an entry of a map. -/
theorem element_reads {c : Cfg} (hc : InPb c) {new : Ty → Val} (hnew : NewObjects c.env new) {d : Nat}
    {sub : SubParser} (hsub : SubBytes c d sub) (henum : SubEnum sub) {t : Ty} {maps' : List (Nat × Nat)} {num : Option Nat} {i : Nat}
    (hf : pbFieldOk c.env maps' num i t = true) {maps : List (Nat × Nat)} {nums : List (Option Nat)} {fs : List Ty} {s : Nat}
    (hg : Good c t = true) {data body rest : List UInt8} {p q wt : Nat} {o cp cl v w : Val} (hlen : data.length < 2 ^ 64)
    (hp : p ≤ data.length) (hd : 2 * (s + 1) + 3 ≤ d) (hpay : protoPayload wt (data.drop p) = some (.len body, rest))
    (ht : msgOf c.env (elemTy t) = some (maps, nums, fs)) (ho : Initial c.env (elemTy t) o) (hdo : depth o ≤ s + 1)
    (hpl : BytesPlain c.env s (protoFields maps nums fs) [] body)
    (hst : Holds c t cp cl) (hw : protoField new sub c.env t cp (.len body) = some w)
    (h : pbDecField c (fun t v q => decode d c t v data q) (dflt c d) t wt cl data p = ⟨.ok, v, q⟩) :
    Holds c t w v ∧ p < q ∧ q ≤ data.length ∧ data.drop q = rest := by
  obtain ⟨rfl, tail, hvar, rfl⟩ := payload_len hpay
  obtain ⟨hge, hdec⟩ := elem_facts hc hf hg ht (rec := fun t v q => decode d c t v data q) (fresh := dflt c d)
  rw [hdec] at h
  have hfr : dflt c d (elemTy t) = o := decFresh_dflt c d _ _ ho (by split <;> omega)
  rw [hfr] at h
  obtain ⟨os, rfl, hos⟩ := initial_msg ht ho
  have hrep : isRepeated t = true := by
    cases t <;> first | rfl | simp [elemTy, msgOf] at ht
  rw [protoField_container hrep] at hw
  -- what the parser finds
  have hpar : ∃ ws, sub (protoFields maps nums fs) os body = some ws ∧ w = .list (cp.elems ++ [.list ws]) ∧
      ∀ vs, HoldsEach c fs ws vs → Holds c (parserElem t) (.list ws) (.list vs) := by
    have elem : ∀ e, msgOf c.env e = some (maps, nums, fs) → Initial c.env e (.list os) → protoContainer new sub c.env e cp (.len body) = some w →
        ∃ ws, sub (protoFields maps nums fs) os body = some ws ∧ w = .list (cp.elems ++ [.list ws]) ∧
        ∀ vs, HoldsEach c fs ws vs → Holds c e (.list ws) (.list vs) := by
      intro e hmo hi hw
      have hne : new e = .list os := hnew _ _ hi
      have htx : isText e = false := by cases e <;> first | rfl | simp [msgOf] at hmo
      have happ : protoAppend new sub c.env e (.len body) =
          ((sub (protoFields maps nums fs) os body).map Val.list).map fun v => some [v] := by
        cases e with
        | msg sz' ok' maps'' nums'' fs'' =>
          simp only [protoAppend, isPacked, Bool.false_eq_true, if_false, protoMessage, hmo, hne, Val.elems]
        | ref i =>
          simp only [protoAppend, isPacked, Bool.false_eq_true, if_false, protoMessage, hmo, hne, Val.elems]
        | _ => simp [msgOf] at hmo
      simp only [protoContainer, happ, htx, Bool.false_eq_true, if_false] at hw
      cases hs : sub (protoFields maps nums fs) os body with
      | none => simp [hs] at hw
      | some ws =>
        simp only [hs, Option.map, Option.some.injEq] at hw
        exact ⟨ws, rfl, hw.symm, fun vs hvs => .msg hmo hvs⟩
    cases t with
    | seq k sz e => exact elem e ht ho hw
    | assoc multi hashed sz key mapped =>
      cases mapped with
      | none => exact elem key ht ho hw
      | some mp =>
        simp only [elemTy, msgOf, Option.some.injEq, Prod.mk.injEq] at ht
        obtain ⟨rfl, rfl, rfl⟩ := ht
        have hos' : InitialL c.env [key, mp] os := initialL_entry (fs := [key, mp]) hos
        have hr' := henum [] [none, none] [key, mp] os body
        simp only [List.map_cons, List.map_nil] at hr'
        rw [hr']
        have hne : new (.msg none false [] [none, none] [key, mp]) = .list os := hnew _ _ (.msg hos')
        simp only [parserElem, protoContainer, protoAppend, isPacked, isText, Bool.false_eq_true, if_false, protoMessage, msgOf, hne,
          Val.elems] at hw
        cases hs : sub (protoFields [] [none, none] [key, mp]) os body with
        | none => simp [hs] at hw
        | some ws =>
          simp only [hs, Option.map, Option.some.injEq] at hw
          exact ⟨ws, rfl, hw.symm, fun vs hvs => .msg rfl (holdsEach_entry (fs := [key, mp]) hvs)⟩
    | _ => cases hrep
  obtain ⟨ws, hws, rfl, hH⟩ := hpar
  have key : ∀ ve, decode d c (elemTy t) (.list os) data p = ⟨.ok, ve, q⟩ →
      ∃ vs, ve = .list vs ∧ HoldsEach c fs ws vs ∧ p < q ∧ q ≤ data.length ∧ data.drop q = rest := by
    intro ve hve
    exact hsub _ maps nums fs ht hge s data p q os ve body rest ws hlen hp hd hos hvar hpl hws hve
  obtain ⟨⟨ve, hve⟩, hfin⟩ := fetch_reads (we := .list ws) hrep hst h (by
    intro ve hve
    obtain ⟨vs, rfl, h1, _⟩ := key ve hve
    exact hH vs h1)
  obtain ⟨vs, _, _, h2⟩ := key ve hve
  exact ⟨hfin, h2⟩

/-- One record. -/
theorem field_reads {c : Cfg} (hc : InPb c) (ha : AbiOk c.sizeof) (he : EnvGood c) {new : Ty → Val}
    (hnew : NewObjects c.env new) {d : Nat} {sub : SubParser} (hsub : SubBytes c d sub) (henum : SubEnum sub) {t : Ty}
    {maps : List (Nat × Nat)} {num : Option Nat} {i : Nat} (hf : pbFieldOk c.env maps num i t = true) (hg : Good c t = true)
    {s : Nat} {data rest : List UInt8} {p q wt : Nat} {pay : PbPayload} {cp cl v w : Val} (hlen : data.length < 2 ^ 64)
    (hp : p ≤ data.length) (hd : 2 * s + 3 ≤ d) (hpay : protoPayload wt (data.drop p) = some (pay, rest))
    (hpl : PayPlain c.env s t pay ((data.drop p).take ((data.drop p).length - rest.length))) (hst : Holds c t cp cl)
    (hcur : firstOnly c.env t = true → isLen pay = true → cp = cl ∧ Initial c.env t cl)
    (hw : protoField new sub c.env t cp pay = some w)
    (h : pbDecField c (fun t v q => decode d c t v data q) (dflt c d) t wt cl data p = ⟨.ok, v, q⟩) :
    Holds c t w v ∧ p < q ∧ q ≤ data.length ∧ data.drop q = rest := by
  cases hpl with
  | number hv hb => exact number_reads hc ha he hf hlen hp hpay hv hb hw h
  | one ht hv hb => exact one_reads hc ha he hf hg hlen hp hpay ht hv hb hst hw h
  | packed ht hb => exact packed_reads hc ha he (by omega) hf hg hlen hp hpay ht hb hst (fun h => hcur h rfl) hw h
  | text ht => exact text_reads hc ha he (by omega) hf hg hlen hp hpay ht hst hw h
  | message ht hb => exact message_reads hsub hg hlen hp hd hpay ht hb (fun h => hcur h rfl) hw h
  | element ht ho hs hb => exact element_reads hc hnew hsub henum hf hg hlen hp hd hpay ht ho hs hb hst hw h

end Zpp
