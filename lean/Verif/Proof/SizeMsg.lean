import Verif.Proof.SizeTypes
import Verif.Proof.OutProtocol
import Verif.Proof.OutCall
/-! Lemmas about messages with size types of any integer type. -/

namespace Zpp
open Zpp.Spec

/-- What moving a message of the bytes `bs` ahead to make room for `L - bs.length` bytes of size gives, `patch` being what is done
with the buffer afterwards; or why there was no room. -/
def MovedRes (g : Growth) (L : Nat) (bs pre rest : List UInt8) (patch : OutM) (r : Status × OutSt) : Prop :=
  (∃ k y, y.length + bs.length = L ∧
      r = patch ⟨pre ++ (y ++ bs) ++ (rest ++ List.replicate k 0).drop L, pre.length + L⟩ ∧
      L ≤ rest.length + k ∧ (g.resizable = false → k = 0) ∧ rest.length + pre.length + k < 2 ^ 63) ∨
  (g.resizable = false ∧ r.1 = .err .resultOutOfRange ∧ rest.length < L) ∨
  (g.resizable = true ∧ r.1 = .err .noBufferSpace ∧ ¬ LimitRoom g (pre.length + L)) ∨
  (g.resizable = true ∧ r.1 = .badAlloc ∧ ¬ MemRoom g (pre.length + L))

theorem moved_run {g : Growth} (hg : GrowthOk g) {z : Bool} {hdr body : OutM} {x bs : List UInt8} (hh : Emits g z x hdr)
    (hx : x.length = 1) (hb : Emits g z bs body) (hlt : bs.length < 2 ^ 62) (patch : Nat → Nat → OutM) (pre rest : List UInt8)
    (hz : z = true → AllZero rest) (hl : pre.length + rest.length < 2 ^ 63) :
    MovedRes g ((varintBytes bs.length).length + bs.length) bs pre rest (patch pre.length bs.length)
      (((hdr.andThen body).andThen fun st' =>
        ((moveAhead g pre.length).andThen (patch pre.length (subSz (subSz st'.pos pre.length) 1))) st') ⟨pre ++ rest, pre.length⟩) := by
  have hhb := hh.andThen hb
  have hvs := varintSize_eq_length 8 bs.length (by omega) (by omega)
  have hvp := varintBytes_length_pos bs.length
  have hvl : (varintBytes bs.length).length ≤ 10 := varintBytes_length_le_max 8 bs.length (by omega)
  rcases hhb pre rest hz hl with ⟨kk, he, hk, hf, hbd⟩ | ⟨hr, he, hlt'⟩ | ⟨hr, he, hlt'⟩ | ⟨hr, he, hlt'⟩
  · rw [OutM.andThen_ok he]
    simp only [List.length_append]
    rw [subSz_of_le (by omega : pre.length ≤ pre.length + (x.length + bs.length)), subSz_of_le (by omega)]
    rw [show pre.length + (x.length + bs.length) - pre.length - 1 = bs.length by omega]
    generalize hr' : (rest ++ List.replicate kk 0).drop (x.length + bs.length) = r'
    have hr'l : r'.length = rest.length + kk - (x.length + bs.length) := by rw [← hr']; simp
    simp only [List.length_append] at hk
    -- moveAhead
    have hmove : moveAhead g pre.length ⟨pre ++ (x ++ bs) ++ r', pre.length + (x.length + bs.length)⟩ =
        if (varintBytes bs.length).length - 1 = 0 then
          (.ok, ⟨pre ++ (x ++ bs) ++ r', pre.length + (x.length + bs.length)⟩)
        else match claim g ((varintBytes bs.length).length - 1)
            ⟨pre ++ (x ++ bs) ++ r', pre.length + (x.length + bs.length)⟩ with
          | (.ok, st1) =>
            if pre.length + (x.length + bs.length) + ((varintBytes bs.length).length - 1) ≤ st1.data.length ∧
                pre.length + 1 ≤ pre.length + (x.length + bs.length) then
              (.ok, { data := st1.data.take (pre.length + 1 + ((varintBytes bs.length).length - 1)) ++
                        (st1.data.take (pre.length + (x.length + bs.length))).drop (pre.length + 1) ++
                        st1.data.drop (pre.length + (x.length + bs.length) + ((varintBytes bs.length).length - 1)),
                      pos := pre.length + (x.length + bs.length) + ((varintBytes bs.length).length - 1) })
            else (.ub, st1)
          | r => r := by
      unfold moveAhead
      simp only
      rw [subSz_of_le (by omega : pre.length ≤ pre.length + (x.length + bs.length)), subSz_of_le (by omega)]
      rw [show pre.length + (x.length + bs.length) - pre.length - 1 = bs.length by omega, hvs]
      rfl
    by_cases hA : (varintBytes bs.length).length - 1 = 0
    · rw [if_pos hA] at hmove
      rw [OutM.andThen_ok hmove]
      left
      have e : (varintBytes bs.length).length = x.length := by omega
      refine ⟨kk, x, by omega, ?_, by omega, hf, hbd⟩
      rw [e, hr']
    · rw [if_neg hA] at hmove
      generalize hAA : (varintBytes bs.length).length - 1 = A at *
      -- success of the claim
      have hok : ∀ k2 : Nat, A ≤ r'.length + k2 → (g.resizable = false → k2 = 0) →
          rest.length + pre.length + (kk + k2) < 2 ^ 63 →
          claim g A ⟨pre ++ (x ++ bs) ++ r', pre.length + (x.length + bs.length)⟩ =
            (.ok, ⟨pre ++ (x ++ bs) ++ (r' ++ List.replicate k2 0), pre.length + (x.length + bs.length)⟩) →
          MovedRes g ((varintBytes bs.length).length + bs.length) bs pre rest (patch pre.length bs.length)
            ((moveAhead g pre.length).andThen (patch pre.length bs.length)
              ⟨pre ++ (x ++ bs) ++ r', pre.length + (x.length + bs.length)⟩) := by
        intro k2 h1 h2 h3 hcl
        rw [hcl] at hmove
        simp only at hmove
        rw [if_pos ⟨by simp; omega, by omega⟩] at hmove
        rw [OutM.andThen_ok hmove]
        left
        refine ⟨kk + k2, (x ++ bs ++ (r' ++ List.replicate k2 0)).take (1 + A), by simp; omega, ?_, by omega, ?_, h3⟩
        · have hb1 : ((pre ++ (x ++ bs) ++ (r' ++ List.replicate k2 0)).take
              (pre.length + (x.length + bs.length))).drop (pre.length + 1) = bs := by
            rw [List.take_append_of_le_length (by simp), List.take_of_length_le (by simp),
              ← List.append_assoc pre, List.drop_append_of_le_length (by simp; omega)]
            rw [List.drop_of_length_le (by simp; omega)]
            simp
          have hb2 : (pre ++ (x ++ bs) ++ (r' ++ List.replicate k2 0)).take (pre.length + 1 + A) =
              pre ++ ((x ++ bs ++ (r' ++ List.replicate k2 0)).take (1 + A)) := by
            rw [List.append_assoc pre, List.take_append, List.take_of_length_le (by omega)]
            congr 2; omega
          have hb3 : (pre ++ (x ++ bs) ++ (r' ++ List.replicate k2 0)).drop
              (pre.length + (x.length + bs.length) + A) = (r' ++ List.replicate k2 0).drop A := by
            rw [List.drop_append, List.drop_of_length_le (by simp)]
            simp
          have hb4 : (rest ++ List.replicate (kk + k2) 0).drop ((varintBytes bs.length).length + bs.length) =
              (r' ++ List.replicate k2 0).drop A := by
            rw [← hr', ← List.replicate_append_replicate, ← List.append_assoc,
              ← List.drop_append_of_le_length (l₁ := rest ++ List.replicate kk 0) (by simp; omega),
              List.drop_drop]
            congr 1
            omega
          rw [hb1, hb2, hb3, hb4]
          congr 1
          simp only [List.append_assoc, OutSt.mk.injEq, true_and]
          omega
        · intro hf'; rw [hf hf', h2 hf']
      have hposl : pre.length + (x.length + bs.length) = (pre ++ (x ++ bs)).length := by simp
      have hclaim : claim g A ⟨pre ++ (x ++ bs) ++ r', pre.length + (x.length + bs.length)⟩ =
          if g.resizable then enlargeFor g A ⟨pre ++ (x ++ bs) ++ r', pre.length + (x.length + bs.length)⟩
          else if r'.length < A then (.err .resultOutOfRange, ⟨pre ++ (x ++ bs) ++ r', pre.length + (x.length + bs.length)⟩)
          else (.ok, ⟨pre ++ (x ++ bs) ++ r', pre.length + (x.length + bs.length)⟩) := by
        unfold claim
        rw [if_neg (by omega)]
        simp only [List.length_append]
        rw [subSz_of_le (by omega)]
        rw [show pre.length + (x.length + bs.length) + r'.length - (pre.length + (x.length + bs.length)) =
          r'.length by omega]
      have hfail : ∀ s st1, claim g A ⟨pre ++ (x ++ bs) ++ r', pre.length + (x.length + bs.length)⟩ = (s, st1) →
          s ≠ .ok →
          ((moveAhead g pre.length).andThen (patch pre.length bs.length)
              ⟨pre ++ (x ++ bs) ++ r', pre.length + (x.length + bs.length)⟩) = (s, st1) := by
        intro s st1 hcl hs
        rw [hcl] at hmove
        have hmove' : moveAhead g pre.length ⟨pre ++ (x ++ bs) ++ r', pre.length + (x.length + bs.length)⟩ = (s, st1) := by
          rw [hmove]
          cases s <;> first | exact absurd rfl hs | rfl
        rw [OutM.andThen_ne (by rw [hmove']; exact hs), hmove']
      cases hres : g.resizable with
      | false =>
        rw [hres] at hclaim
        simp only [Bool.false_eq_true, if_false] at hclaim
        by_cases hshort : r'.length < A
        · rw [if_pos hshort] at hclaim
          rw [hfail _ _ hclaim (by simp)]
          right; left
          have := hf hres
          exact ⟨hres, rfl, by omega⟩
        · rw [if_neg hshort] at hclaim
          refine hok 0 (by omega) (fun _ => rfl) (by omega) ?_
          rw [hclaim]; simp
      | true =>
        rw [hres] at hclaim
        simp only [if_true] at hclaim
        rw [hposl] at hclaim ⊢
        rw [hposl] at hok hfail
        rcases enlargeFor_emit (hg hres) (add := A) (N := pre.length + ((varintBytes bs.length).length + bs.length))
          (pre ++ (x ++ bs)) r' (by simp; omega) (by omega) (by simp; omega) with
          ⟨k2, he2, hk2, hb2⟩ | ⟨he2, hlim⟩ | ⟨he2, hmem⟩
        · refine hok k2 hk2 (fun h => by rw [hres] at h; cases h) ?_ ?_
          · simp at hb2; omega
          · rw [hclaim, he2]
        · rw [← hclaim] at he2
          rw [hfail _ _ (Prod.ext he2 rfl) (by simp)]
          right; right; left
          exact ⟨hres, rfl, hlim⟩
        · rw [← hclaim] at he2
          rw [hfail _ _ (Prod.ext he2 rfl) (by simp)]
          right; right; right
          exact ⟨hres, rfl, hmem⟩
  · rw [OutM.andThen_ne (by rw [he]; simp)]
    right; left
    refine ⟨hr, he, ?_⟩
    simp at hlt' ⊢; omega
  · rw [OutM.andThen_ne (by rw [he]; simp)]
    right; right; left
    exact ⟨hr, he, fun hh => hlt' (hh.mono (by simp; omega))⟩
  · rw [OutM.andThen_ne (by rw [he]; simp)]
    right; right; right
    exact ⟨hr, he, fun hh => hlt' (hh.mono (by simp; omega))⟩

theorem varintLoad_holds {n : Nat} {sgn zz : Bool} {x : Nat} (hS : SizeIntOk (.var n sgn zz)) (hx : SizeHolds (.var n sgn zz) x) :
    varintLoad n zz x = if zz then 2 * x else x := by
  unfold varintLoad
  cases zz
  · rfl
  · have hs : sgn = true := hS.2 rfl
    subst hs
    simp only [SizeHolds, SizeInt.signed, SizeInt.width, if_true] at hx
    simp only [if_true]
    have hw := sizeIntOk_width hS
    simp only [SizeInt.width] at hw
    unfold zzEnc
    have : ¬ 2 ^ (8 * n - 1) ≤ x := by
      rcases hw with e | e | e | e <;> subst e <;> simp only [Nat.reduceMul, Nat.reducePow, Nat.reduceSub] at hx ⊢ <;> omega
    rw [if_neg this, Nat.xor_zero, Nat.shiftLeft_eq, Nat.pow_one, Nat.mod_eq_of_lt (by omega)]
    omega

/-- Twice a number takes at most one more byte than the number, and only from 64 on. -/
theorem varintBytes_double (x : Nat) : (varintBytes x).length ≤ (varintBytes (2 * x)).length ∧
    (varintBytes (2 * x)).length ≤ (varintBytes x).length + 1 ∧
    ((varintBytes (2 * x)).length = (varintBytes x).length + 1 → 64 ≤ x) := by
  have hp := varintBytes_length_pos x
  have hp2 := varintBytes_length_pos (2 * x)
  have h1 := (varintBytes_length_le_iff x _ hp).mp (Nat.le_refl _)
  have h2 := (varintBytes_length_le_iff (2 * x) _ hp2).mp (Nat.le_refl _)
  refine ⟨(varintBytes_length_le_iff x _ hp2).mpr (by omega), (varintBytes_length_le_iff _ _ (by omega)).mpr ?_, ?_⟩
  · rw [Nat.pow_succ]; omega
  · intro h
    have h3 := (varintBytes_length_le_iff (2 * x) 1 (by omega))
    have : ¬ 2 * x < 128 ^ 1 := fun hl => by have := h3.mpr hl; omega
    omega

/-- What the body of a message is written as. -/
theorem msg_body {d : Nat} {c : Cfg} {z : Bool} {ok : Bool} {maps : List (Nat × Nat)} {nums : List (Option Nat)}
    {fs : List Ty} {vs : List Val} {bs : List UInt8} (hg : GrowthOk c.g) (ha : AbiOk c.sizeof) (he : EnvGood c)
    (gt : Good c (.msg (some .none) ok maps nums fs) = true)
    (hw : wire (fmtOf c) (.msg (some .none) ok maps nums fs) (.list vs) = some bs) (hl : bs.length < 2 ^ 63)
    (hz : z = true ∨ noBits (.list vs) = true) (hd : 2 * depth (.list vs) ≤ d + 2) :
    Emits c.g z bs (pbEncFields (pbOutCfg c) (encode d (pbOutCfg c)) maps 0 nums fs vs) := by
  have := encode_ok z (d + 1) c hg ha he (.msg (some .none) ok maps nums fs) (.list vs) bs gt hw hl hz
    (by simp only [Ty.isRef, Bool.false_eq_true, if_false]; omega)
  simp only [encode, effSz, Option.getD_some] at this
  exact this

/-- The patch of a varint size: the bytes of the number stand where the room was made, and reach into the message if they are more. -/
theorem patchVar_run {c : Cfg} {n : Nat} {sgn zz : Bool} {m : Nat} (hn : IntWidth n) (hS : SizeIntOk (.var n sgn zz))
    (hm : SizeHolds (.var n sgn zz) m)
    {q pre w : List UInt8} {p : Nat} (hq : varintBytes (if zz then 2 * m else m) = q) (hw : q.length ≤ w.length) :
    patchSizeInt c (.var n sgn zz) pre.length m ⟨pre ++ w, p⟩ =
      if n < q.length then (.err .resultOutOfRange, ⟨pre ++ w, p⟩) else (.ok, ⟨pre ++ q ++ w.drop q.length, p⟩) := by
  have hst := (count_stored hS hm).1
  have hlt : m < 2 ^ (8 * n) := by
    have : m % 2 ^ (8 * n) = m := hst
    rw [← this]; exact Nat.mod_lt _ (Nat.two_pow_pos _)
  have h0 : 0 < n := by rcases hn with h | h | h | h <;> omega
  have hvl := varintLoad_lt n zz m h0 hlt
  unfold patchSizeInt
  simp only [hst]
  rw [varintSize_eq_length n _ h0 hvl, varintLoad_holds hS hm, hq]
  split
  · rfl
  · rw [memcpyAt_append pre w q hw]

/-- A call with fitting at the end, for anything that writes `bs`. -/
theorem fit_appends {c : Cfg} {noFit : Bool} {m : OutM} {st st' : OutSt} {bs : List UInt8} (hpos : st.pos ≤ st.data.length)
    (h : EmitRes c.g bs (st.data.take st.pos) (st.data.drop st.pos) (m st)) (hok : fitCall c noFit m st = (.ok, st')) :
    st'.pos = st.pos + bs.length ∧
    ∃ k, st'.data = st.data.take st.pos ++ bs ++ st.data.drop (st.pos + bs.length) ++ List.replicate k 0 := by
  have hpl : (st.data.take st.pos).length = st.pos := by simp; omega
  have hdrop : ∀ k, ∃ k', ((st.data.drop st.pos ++ List.replicate k (0 : UInt8)).drop bs.length) =
      st.data.drop (st.pos + bs.length) ++ List.replicate k' 0 := by
    intro k
    rw [List.drop_append, List.drop_drop, List.drop_replicate]
    exact ⟨_, rfl⟩
  unfold fitCall at hok
  split at hok
  · rcases h with ⟨k, he, hk, hf, _⟩ | ⟨_, he, _⟩ | ⟨_, he, _⟩ | ⟨_, he, _⟩
    · rw [he] at hok
      simp only at hok
      split at hok
      · split at hok
        · cases hok
        · cases hok
          simp only [hpl]
          refine ⟨trivial, 0, ?_⟩
          rename_i hge _
          simp only [hpl] at hge
          simp only [List.length_drop] at hk
          rw [List.drop_eq_nil_of_le (as := st.data) hge]
          simp only [resizeBytes]
          rw [List.take_append_of_le_length (by simp; omega), List.take_of_length_le (by simp; omega)]
          simp
          omega
      · cases hok
        simp only [hpl]
        refine ⟨trivial, ?_⟩
        obtain ⟨k', hk'⟩ := hdrop k
        exact ⟨k', by rw [hk']; simp⟩
    all_goals
      exfalso
      generalize m st = r at he hok
      obtain ⟨s, st1⟩ := r
      simp only at he
      subst he
      simp only at hok
      first
      | (split at hok
         · split at hok <;> cases hok
         · cases hok)
      | cases hok
  · rcases h with ⟨k, he, hk, hf, _⟩ | ⟨_, he, _⟩ | ⟨_, he, _⟩ | ⟨_, he, _⟩
    · rw [he] at hok
      cases hok
      simp only [hpl]
      refine ⟨trivial, ?_⟩
      obtain ⟨k', hk'⟩ := hdrop k
      exact ⟨k', by rw [hk']; simp⟩
    all_goals (rw [hok] at he; cases he)

/-- A message with a varint size, written into any buffer. `q` is the encoding of the size. -/
theorem msgVar_run {d : Nat} {c : Cfg} {n : Nat} {sgn zz : Bool} {z : Bool} {sz : Option SizeTy} {ok : Bool}
    {maps : List (Nat × Nat)} {nums : List (Option Nat)} {fs : List Ty} {vs : List Val} {bs q : List UInt8}
    (hg : GrowthOk c.g) (ha : AbiOk c.sizeof) (he : EnvGood c) (hS : SizeIntOk (.var n sgn zz))
    (gt : Good c (.msg (some .none) ok maps nums fs) = true)
    (hw : wire (fmtOf c) (.msg (some .none) ok maps nums fs) (.list vs) = some bs) (hl : bs.length < 2 ^ 62)
    (hh : SizeHolds (.var n sgn zz) bs.length)
    (hz : z = true ∨ noBits (.list vs) = true) (hd : 2 * depth (.list vs) ≤ d + 2)
    (hq : varintBytes (if zz then 2 * bs.length else bs.length) = q) (pre rest : List UInt8)
    (hzr : z = true → AllZero rest) (hlen : pre.length + rest.length < 2 ^ 63) :
    (q.length ≤ n → EmitRes c.g (q ++ bs.drop (q.length - (varintBytes bs.length).length)) pre rest
      (encSized (d + 1) c (.var n sgn zz) (.msg sz ok maps nums fs) (.list vs) ⟨pre ++ rest, pre.length⟩)) ∧
    (n < q.length → (encSized (d + 1) c (.var n sgn zz) (.msg sz ok maps nums fs) (.list vs) ⟨pre ++ rest, pre.length⟩).1 ≠ .ok) := by
  have hn : IntWidth n := intWidth_iff.mp hS.1
  have h0 : 0 < n := by rcases hn with h | h | h | h <;> omega
  have hbody := msg_body (d := d) (z := z) hg ha he gt hw (by omega) hz hd
  have hhdr : Emits c.g z [0] (encode (d + 1) c (SizeInt.var n sgn zz).ty (.num 0)) := by
    have h1 : varintLoad n zz 0 = 0 := by
      unfold varintLoad zzEnc
      cases zz
      · rfl
      · simp only [if_true, Nat.zero_shiftLeft, Nat.zero_mod, Nat.le_zero]
        rw [if_neg (by have := Nat.two_pow_pos (8 * n - 1); omega)]; rfl
    have := putVarint_emits hg z hn (value := 0) (Nat.two_pow_pos _)
    simp only [SizeInt.ty, encode, encVarintVal]
    rw [if_pos ⟨h0, by rcases hn with h | h | h | h <;> omega, Nat.two_pow_pos _⟩, h1]
    rw [varintBytes_small (by omega)] at this
    exact this
  have hrun := moved_run hg hhdr rfl hbody hl (patchSizeInt c (.var n sgn zz)) pre rest hzr hlen
  have hql : (varintBytes bs.length).length ≤ q.length ∧ q.length ≤ (varintBytes bs.length).length + 1 ∧
      (q.length = (varintBytes bs.length).length + 1 → 64 ≤ bs.length) := by
    have := varintBytes_double bs.length
    rw [← hq]
    cases zz
    · simp only [Bool.false_eq_true, if_false]; omega
    · simpa using this
  have heq : encSized (d + 1) c (.var n sgn zz) (.msg sz ok maps nums fs) (.list vs) ⟨pre ++ rest, pre.length⟩ =
      (((encode (d + 1) c (SizeInt.var n sgn zz).ty (.num 0)).andThen
        (pbEncFields (pbOutCfg c) (encode d (pbOutCfg c)) maps 0 nums fs vs)).andThen fun st' =>
        ((moveAhead c.g pre.length).andThen (patchSizeInt c (.var n sgn zz) pre.length
          (subSz (subSz st'.pos pre.length) 1))) st') ⟨pre ++ rest, pre.length⟩ := rfl
  rw [heq]
  generalize (((encode (d + 1) c (SizeInt.var n sgn zz).ty (.num 0)).andThen
        (pbEncFields (pbOutCfg c) (encode d (pbOutCfg c)) maps 0 nums fs vs)).andThen fun st' =>
        ((moveAhead c.g pre.length).andThen (patchSizeInt c (.var n sgn zz) pre.length
          (subSz (subSz st'.pos pre.length) 1))) st') ⟨pre ++ rest, pre.length⟩ = r at *
  generalize hL : (varintBytes bs.length).length = L at *
  have hqlen : (q ++ bs.drop (q.length - L)).length = L + bs.length := by
    simp; omega
  rcases hrun with ⟨k, y, hy, hr, h1, h2, h3⟩ | ⟨h1, h2, h3⟩ | ⟨h1, h2, h3⟩ | ⟨h1, h2, h3⟩
  · rw [List.append_assoc, patchVar_run hn hS hh hq (by simp; omega)] at hr
    refine ⟨fun hle => ?_, fun hlt => ?_⟩
    · rw [if_neg (by omega)] at hr
      left
      refine ⟨k, ?_, by omega, h2, h3⟩
      rw [hr, hqlen]
      simp only [Prod.mk.injEq, OutSt.mk.injEq, true_and, and_true]
      rw [List.append_assoc y, List.drop_append, List.drop_of_length_le (by omega), List.nil_append,
        List.drop_append_of_le_length (by omega), show q.length - y.length = q.length - L by omega]
      simp
    · rw [if_pos hlt] at hr
      rw [hr]; simp
  · exact ⟨fun _ => Or.inr (Or.inl ⟨h1, h2, by omega⟩), fun _ => by rw [h2]; simp⟩
  · exact ⟨fun _ => Or.inr (Or.inr (Or.inl ⟨h1, h2, by rw [hqlen]; exact h3⟩)), fun _ => by rw [h2]; simp⟩
  · exact ⟨fun _ => Or.inr (Or.inr (Or.inr ⟨h1, h2, by rw [hqlen]; exact h3⟩)), fun _ => by rw [h2]; simp⟩

/-- The encoding of a size by a varint size type. -/
theorem sizeVar_wire {c : Cfg} {n : Nat} {sgn zz : Bool} {x : Nat} {q : List UInt8} (hS : SizeIntOk (.var n sgn zz))
    (hx : SizeHolds (.var n sgn zz) x) (hq : wire (fmtOf c) (SizeInt.var n sgn zz).ty (.num x) = some q) :
    varintBytes (if zz then 2 * x else x) = q ∧ x < 2 ^ (8 * n) := by
  have hst : x % 2 ^ (8 * n) = x := (count_stored hS hx).1
  have hlt : x < 2 ^ (8 * n) := by rw [← hst]; exact Nat.mod_lt _ (Nat.two_pow_pos _)
  simp only [SizeInt.ty, wire, wireNum] at hq
  rw [if_pos hlt] at hq
  cases hq
  rw [leb_varintValue n zz x (intWidth_iff.mp hS.1) hlt, varintLoad_holds hS hx]
  exact ⟨rfl, hlt⟩

/-- The patch of a varint size, for any number: what is stored is the number modulo the values of the type. -/
theorem patchVar_any {c : Cfg} {n : Nat} {sgn zz : Bool} {m : Nat} (hn : IntWidth n)
    {q pre w : List UInt8} {p : Nat} (hq : varintBytes (varintLoad n zz (m % 2 ^ (8 * n))) = q) (hw : q.length ≤ w.length) :
    patchSizeInt c (.var n sgn zz) pre.length m ⟨pre ++ w, p⟩ =
      if n < q.length then (.err .resultOutOfRange, ⟨pre ++ w, p⟩) else (.ok, ⟨pre ++ q ++ w.drop q.length, p⟩) := by
  have h0 : 0 < n := by rcases hn with h | h | h | h <;> omega
  have hvl := varintLoad_lt n zz (m % 2 ^ (8 * n)) h0 (Nat.mod_lt _ (Nat.two_pow_pos _))
  have hst : (SizeInt.var n sgn zz).stored m = m % 2 ^ (8 * n) := rfl
  unfold patchSizeInt
  simp only [hst, varintSize_eq_length n _ h0 hvl, hq]
  split
  · rfl
  · rw [memcpyAt_append pre w q hw]

/-- A message longer than the largest value of its varint size type, written into any buffer: `q` is the encoding of the length
modulo the values of the type. -/
theorem msgVar_beyond {d : Nat} {c : Cfg} {n : Nat} {sgn zz : Bool} {z : Bool} {sz : Option SizeTy} {ok : Bool}
    {maps : List (Nat × Nat)} {nums : List (Option Nat)} {fs : List Ty} {vs : List Val} {bs q : List UInt8}
    (hg : GrowthOk c.g) (ha : AbiOk c.sizeof) (he : EnvGood c) (hS : SizeIntOk (.var n sgn zz))
    (gt : Good c (.msg (some .none) ok maps nums fs) = true)
    (hw : wire (fmtOf c) (.msg (some .none) ok maps nums fs) (.list vs) = some bs) (hl : bs.length < 2 ^ 62)
    (hh : ¬ SizeHolds (.var n sgn zz) bs.length)
    (hz : z = true ∨ noBits (.list vs) = true) (hd : 2 * depth (.list vs) ≤ d + 2)
    (hq : varintBytes (varintLoad n zz (bs.length % 2 ^ (8 * n))) = q) (pre rest : List UInt8)
    (hzr : z = true → AllZero rest) (hlen : pre.length + rest.length < 2 ^ 63) :
    q.length ≤ (varintBytes bs.length).length ∧
    (q.length ≤ n → ∃ gap, q.length + gap.length = (varintBytes bs.length).length ∧
      EmitRes c.g (q ++ gap ++ bs) pre rest
        (encSized (d + 1) c (.var n sgn zz) (.msg sz ok maps nums fs) (.list vs) ⟨pre ++ rest, pre.length⟩)) ∧
    (n < q.length → (encSized (d + 1) c (.var n sgn zz) (.msg sz ok maps nums fs) (.list vs) ⟨pre ++ rest, pre.length⟩).1 ≠ .ok) := by
  have hn : IntWidth n := intWidth_iff.mp hS.1
  have h0 : 0 < n := by rcases hn with h | h | h | h <;> omega
  have hbody := msg_body (d := d) (z := z) hg ha he gt hw (by omega) hz hd
  have hhdr : Emits c.g z [0] (encode (d + 1) c (SizeInt.var n sgn zz).ty (.num 0)) := by
    have h1 : varintLoad n zz 0 = 0 := by
      unfold varintLoad zzEnc
      cases zz
      · rfl
      · simp only [if_true, Nat.zero_shiftLeft, Nat.zero_mod, Nat.le_zero]
        rw [if_neg (by have := Nat.two_pow_pos (8 * n - 1); omega)]; rfl
    have := putVarint_emits hg z hn (value := 0) (Nat.two_pow_pos _)
    simp only [SizeInt.ty, encode, encVarintVal]
    rw [if_pos ⟨h0, by rcases hn with h | h | h | h <;> omega, Nat.two_pow_pos _⟩, h1]
    rw [varintBytes_small (by omega)] at this
    exact this
  have hrun := moved_run hg hhdr rfl hbody hl (patchSizeInt c (.var n sgn zz)) pre rest hzr hlen
  have hql : q.length ≤ (varintBytes bs.length).length := by
    have hvl := varintLoad_lt n zz (bs.length % 2 ^ (8 * n)) h0 (Nat.mod_lt _ (Nat.two_pow_pos _))
    have hp2 := varintBytes_length_pos bs.length
    have h2 := (varintBytes_length_le_iff bs.length _ hp2).mp (Nat.le_refl _)
    have hbig : 2 ^ (8 * n) ≤ 2 * bs.length := by
      simp only [SizeHolds, SizeInt.signed, SizeInt.width] at hh
      cases sgn <;> simp only [Bool.false_eq_true, if_false, if_true] at hh <;> omega
    rw [← hq]
    refine (varintBytes_length_le_iff _ _ hp2).mpr ?_
    generalize (varintBytes bs.length).length = L at h2
    -- both sides are powers of two, one with an exponent divisible by 8
    have : 2 ^ (8 * n) < 2 ^ (7 * L + 1) := by
      have e : (128 : Nat) ^ L = 2 ^ (7 * L) := by rw [show (128 : Nat) = 2 ^ 7 by rfl, ← Nat.pow_mul]
      rw [Nat.pow_succ]; omega
    have h3 := (Nat.pow_lt_pow_iff_right (by omega : 1 < 2)).mp this
    have e : (128 : Nat) ^ L = 2 ^ (7 * L) := by rw [show (128 : Nat) = 2 ^ 7 by rfl, ← Nat.pow_mul]
    have h4 : 2 ^ (8 * n) ≤ 2 ^ (7 * L) := Nat.pow_le_pow_right (by omega) (by omega)
    omega
  have heq : encSized (d + 1) c (.var n sgn zz) (.msg sz ok maps nums fs) (.list vs) ⟨pre ++ rest, pre.length⟩ =
      (((encode (d + 1) c (SizeInt.var n sgn zz).ty (.num 0)).andThen
        (pbEncFields (pbOutCfg c) (encode d (pbOutCfg c)) maps 0 nums fs vs)).andThen fun st' =>
        ((moveAhead c.g pre.length).andThen (patchSizeInt c (.var n sgn zz) pre.length
          (subSz (subSz st'.pos pre.length) 1))) st') ⟨pre ++ rest, pre.length⟩ := rfl
  rw [heq]
  generalize (((encode (d + 1) c (SizeInt.var n sgn zz).ty (.num 0)).andThen
        (pbEncFields (pbOutCfg c) (encode d (pbOutCfg c)) maps 0 nums fs vs)).andThen fun st' =>
        ((moveAhead c.g pre.length).andThen (patchSizeInt c (.var n sgn zz) pre.length
          (subSz (subSz st'.pos pre.length) 1))) st') ⟨pre ++ rest, pre.length⟩ = r at *
  generalize hL : (varintBytes bs.length).length = L at *
  refine ⟨hql, ?_⟩
  have hany : q.length ≤ L → ∃ gap : List UInt8, q.length + gap.length = L := fun h =>
    ⟨List.replicate (L - q.length) 0, by simp; omega⟩
  rcases hrun with ⟨k, y, hy, hr, h1, h2, h3⟩ | ⟨h1, h2, h3⟩ | ⟨h1, h2, h3⟩ | ⟨h1, h2, h3⟩
  · rw [List.append_assoc, patchVar_any hn hq (by simp; omega)] at hr
    refine ⟨fun hle => ⟨y.drop q.length, by simp; omega, ?_⟩, fun hlt => ?_⟩
    · rw [if_neg (by omega)] at hr
      left
      have hqlen : (q ++ y.drop q.length ++ bs).length = L + bs.length := by simp; omega
      refine ⟨k, ?_, by omega, h2, h3⟩
      rw [hr, hqlen]
      simp only [Prod.mk.injEq, OutSt.mk.injEq, true_and, and_true]
      rw [List.append_assoc y, List.drop_append_of_le_length (by omega)]
      simp
    · rw [if_pos hlt] at hr
      rw [hr]; simp
  all_goals
    obtain ⟨gap, hgap⟩ := hany hql
    have hqlen : (q ++ gap ++ bs).length = L + bs.length := by simp; omega
  · exact ⟨fun _ => ⟨gap, hgap, Or.inr (Or.inl ⟨h1, h2, by omega⟩)⟩, fun _ => by rw [h2]; simp⟩
  · exact ⟨fun _ => ⟨gap, hgap, Or.inr (Or.inr (Or.inl ⟨h1, h2, by rw [hqlen]; exact h3⟩))⟩, fun _ => by rw [h2]; simp⟩
  · exact ⟨fun _ => ⟨gap, hgap, Or.inr (Or.inr (Or.inr ⟨h1, h2, by rw [hqlen]; exact h3⟩))⟩, fun _ => by rw [h2]; simp⟩

/-- Reading a message of a size type behind whose size the body stands. -/
theorem decSized_msg {d : Nat} {c : Cfg} {S : SizeInt} (ha : AbiOk c.sizeof) (he : EnvGood c) {sz : Option SizeTy} {ok : Bool}
    {maps : List (Nat × Nat)} {nums : List (Option Nat)} {fs : List Ty} {vs : List Val} {body rest : List UInt8}
    (hS : SizeIntOk S) (gt : Good c (.msg (some .none) ok maps nums fs) = true)
    (hw : wire (fmtOf c) (.msg (some .none) ok maps nums fs) (.list vs) = some body)
    (hld : LoadablePb (pbCfg c) fs vs) (hd : 2 * depth (.list vs) ≤ d + 2) (hn : SizeHolds S body.length) (old : Val)
    {data : List UInt8} (hlen : data.length < 2 ^ 64) {p p1 : Nat} (hp : p1 ≤ data.length)
    (hx : decode 1 c S.ty (.num 0) data p = ⟨.ok, .num body.length, p1⟩) (hdr : data.drop p1 = body ++ rest) :
    decSized (d + 1) c S (.msg sz ok maps nums fs) old data p = ⟨.ok, .list vs, p1 + body.length⟩ := by
  simp only [depth] at hd
  simp only [wire] at hw
  cases hb : pbFields (fmtOf c).env maps 0 nums fs vs with
  | none => simp [hb] at hw
  | some b =>
    simp only [hb, Option.getD_some, msgPrefix, sizePrefix, cat, List.nil_append, Option.some.injEq] at hw
    subst hw
    simp only [Good, nodeOk, Bool.and_eq_true] at gt
    obtain ⟨⟨⟨⟨g1, g2⟩, g3⟩, g4⟩, g5⟩ := gt
    obtain ⟨ihp, ihu⟩ := decode_round d (pbCfg c) ha (EnvGood.pb he)
    have hl := congrArg List.length hdr
    simp only [List.length_drop, List.length_append] at hl
    have hrun := msgRun_rd (c := pbCfg c) (inPb_pbCfg c) ha ihp ihu (fresh := dflt (pbCfg c) d) (maps := maps)
      g1 g5 g2 hb hld (by omega) hlen old hp hdr (size := b.length) (by omega)
    rw [decSized, prefix_any, hx]
    simp only [(count_stored hS hn).2, hrun]

/-- Reading a message with any size type is reading it with an eight byte size that says the same number. -/
theorem decSized_msg_eight {d : Nat} {c : Cfg} {S : SizeInt} {t : Ty} {old : Val} {data : List UInt8} {p x p1 : Nat}
    (hS : SizeIntOk S) (ht : isMessage t = true) (hp : p ≤ data.length)
    (hd : decode 1 c S.ty (.num 0) data p = ⟨.ok, .num x, p1⟩) :
    ∃ q, decode (d + 1) c (withSize (.fixed 8) t) old (digits (fmtOf c).order 8 (S.count x) ++ data.drop p1) 0 =
        ⟨(decSized (d + 1) c S t old data p).s, (decSized (d + 1) c S t old data p).v, 8 + q⟩ ∧
      (decSized (d + 1) c S t old data p).p = p1 + q := by
  obtain ⟨hx, hp1⟩ := prefix_lt hS hp hd
  have hN := count_lt hS hx
  generalize hNe : S.count x = N at *
  have hh : decHdr c (.fixed 8) (digits (fmtOf c).order 8 N ++ data.drop p1) 0 = (.ok, N, 8) := by
    have := decHdr_rd (c := c) (sz := .fixed 8) (data := digits (fmtOf c).order 8 N ++ data.drop p1) (p := 0) (n := N)
      (pre := digits (fmtOf c).order 8 N) (rest := data.drop p1) (by simp)
      (by simp only [sizePrefix]; exact if_pos (by omega)) (Nat.zero_le _) rfl
    rw [this, digits_length]
  have hl8 : (digits (fmtOf c).order 8 N).length = 8 := digits_length _ _ _
  have hlt : (data.take p1).length = p1 := by simp; omega
  have hdt : data = data.take p1 ++ data.drop p1 := (List.take_append_drop p1 data).symm
  cases t with
  | msg sz ok maps nums fs =>
    rw [decSized, prefix_any, hd]
    simp only [withSize, decode, effSz, Option.getD_some, hh, hNe]
    have a := msgRun_shift (pre := digits (fmtOf c).order 8 N) (data := data.drop p1) (pbCfg c) (decode d (pbCfg c))
      (dflt (pbCfg c) d) maps nums fs old N 0
    have b := msgRun_shift (pre := data.take p1) (data := data.drop p1) (pbCfg c) (decode d (pbCfg c))
      (dflt (pbCfg c) d) maps nums fs old N 0
    rw [hl8, Nat.add_zero] at a
    rw [hlt, ← hdt, Nat.add_zero] at b
    rw [a, b]
    exact ⟨_, rfl, rfl⟩
  | _ => simp [isMessage] at ht

end Zpp
