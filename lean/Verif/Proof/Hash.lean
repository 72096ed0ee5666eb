import Verif.Proof.Numbers
/-!
# The hash functions compute what FIPS 180-4 says
-/

namespace Zpp

/-- A `big_endian<std::uint32_t>` object holds a word. -/
structure Rep (e : Endian) (v : W) (x : BitVec 32) : Prop where
  lt : v < 256 ^ 4
  val : beValue (hostBytes e 4 v) = x.toNat

theorem foldl_rel {α β γ : Type} (R : α → β → Prop) (f : α → γ → α) (g : β → γ → β) :
    ∀ (l : List γ) (a : α) (b : β), R a b → (∀ a b i, i ∈ l → R a b → R (f a i) (g b i)) →
    R (l.foldl f a) (l.foldl g b)
  | [], _, _, h, _ => h
  | i :: l, a, b, h, hs => by
    simp only [List.foldl_cons]
    exact foldl_rel R f g l _ _ (hs a b i (by simp) h) (fun a b j hj => hs a b j (by simp [hj]))

theorem Rep.shl {e : Endian} {v : W} {x : BitVec 32} (h : Rep e v x) (c : Nat) : Rep e (beShl e 4 v c) (x <<< c) := by
  refine ⟨?_, ?_⟩
  · have h1 := (shl_loop 4 c (hostBytes e 4 v) (by simp) 4 (Nat.le_refl _)).1
    have h2 := hostNat_lt e ((List.range 4).foldl (shlStep 4 c) (hostBytes e 4 v))
    rw [h1] at h2
    exact h2
  · rw [beShl_value, h.val, BitVec.toNat_shiftLeft, Nat.shiftLeft_eq]

theorem Rep.shr {e : Endian} {v : W} {x : BitVec 32} (h : Rep e v x) (c : Nat) (hc : c ≤ 32) :
    Rep e (beShr e 4 v c) (x >>> c) := by
  have hc' : c / 8 + 4 ≤ 2 ^ 64 := by omega
  refine ⟨?_, ?_⟩
  · have h1 := (shr_loop 4 c (hostBytes e 4 v) (by simp) hc' 4 (Nat.le_refl _)).1
    have h2 := hostNat_lt e ((List.range 4).foldl (shrStep 4 c) (hostBytes e 4 v))
    rw [h1] at h2
    exact h2
  · rw [beShr_value _ _ _ _ hc', h.val, BitVec.toNat_ushiftRight, Nat.shiftRight_eq_div_pow]

theorem Rep.and {e : Endian} {v w : W} {x y : BitVec 32} (h : Rep e v x) (k : Rep e w y) : Rep e (beAnd v w) (x &&& y) :=
  ⟨Nat.lt_of_le_of_lt Nat.and_le_left h.lt, by rw [beAnd_value e 4 _ _ h.lt k.lt, h.val, k.val, BitVec.toNat_and]⟩

theorem Rep.or {e : Endian} {v w : W} {x y : BitVec 32} (h : Rep e v x) (k : Rep e w y) : Rep e (beOr v w) (x ||| y) :=
  ⟨by have a := h.lt; have b := k.lt; rw [pow256] at *; exact Nat.or_lt_two_pow a b,
   by rw [beOr_value e 4 _ _ h.lt k.lt, h.val, k.val, BitVec.toNat_or]⟩

theorem Rep.xor {e : Endian} {v w : W} {x y : BitVec 32} (h : Rep e v x) (k : Rep e w y) : Rep e (beXor v w) (x ^^^ y) :=
  ⟨by have a := h.lt; have b := k.lt; rw [pow256] at *; exact Nat.xor_lt_two_pow a b,
   by rw [beXor_value e 4 _ _ h.lt k.lt, h.val, k.val, BitVec.toNat_xor]⟩

theorem Rep.not {e : Endian} {v : W} {x : BitVec 32} (h : Rep e v x) : Rep e (beNot 4 v) (~~~x) :=
  ⟨Nat.lt_of_le_of_lt (Nat.sub_le _ _) (by decide), by rw [beNot_value e 4 _ h.lt, h.val, BitVec.toNat_not]⟩

theorem Rep.add {e : Endian} {v w : W} {x y : BitVec 32} (h : Rep e v x) (k : Rep e w y) :
    Rep e (beAdd e 4 v w) (x + y) := by
  refine ⟨?_, by rw [beAdd_value, h.val, k.val, BitVec.toNat_add]⟩
  unfold beAdd
  have h1 := (addBytes_spec (hostBytes e 4 v).reverse (hostBytes e 4 w).reverse 0 (by simp) (by omega)).1
  have h2 := hostNat_lt e (addBytes (hostBytes e 4 v).reverse (hostBytes e 4 w).reverse 0).reverse
  rw [List.length_reverse, h1] at h2
  simpa using h2

theorem Rep.make (e : Endian) (v : Nat) : Rep e (beMake e 4 v) (BitVec.ofNat 32 v) := by
  refine ⟨?_, ?_⟩
  · have := hostNat_lt e (beDigits 4 v)
    rw [beDigits_length] at this
    exact this
  · rw [beMake, hostBytes_hostNat' e 4 _ (beDigits_length 4 v), beValue_beDigits, BitVec.toNat_ofNat]

theorem Rep.rotl {e : Endian} {v : W} {x : BitVec 32} (h : Rep e v x) (c : Nat) (hc : c < 32) :
    Rep e (shaRotl e v c) (x.rotateLeft c) := by
  have := (h.shl c).or (h.shr (4 * 8 - c) (by omega))
  refine ⟨this.lt, ?_⟩
  rw [shaRotl, this.val, BitVec.toNat_rotateLeft, BitVec.toNat_or, BitVec.toNat_shiftLeft, BitVec.toNat_ushiftRight,
    Nat.mod_eq_of_lt hc]

theorem Rep.rotr {e : Endian} {v : W} {x : BitVec 32} (h : Rep e v x) (c : Nat) (hc : c < 32) :
    Rep e (shaRotr e v c) (x.rotateRight c) := by
  have := (h.shr c (by omega)).or (h.shl (4 * 8 - c))
  refine ⟨this.lt, ?_⟩
  rw [shaRotr, this.val, BitVec.toNat_rotateRight, BitVec.toNat_or, BitVec.toNat_shiftLeft, BitVec.toNat_ushiftRight,
    Nat.mod_eq_of_lt hc]

/-! ## The message -/

theorem ofNat_and_ff (x : Nat) : UInt8.ofNat (x &&& 0xff) = UInt8.ofNat x := by
  apply UInt8.toNat.inj
  have h : x &&& 0xff = x % 256 := Nat.and_two_pow_sub_one_eq_mod x 8
  rw [h]
  simp

theorem beDigits_len64 (n : Nat) : beDigits 8 n = Fips.len64 n := by
  simp only [beDigits, ofNat_and_ff, Nat.shiftRight_eq_div_pow, Fips.len64, List.nil_append,
    List.cons_append, Nat.div_div_eq_div_mul, ← Nat.pow_add]

theorem shaMessage_eq (e : Endian) (msg : List UInt8) :
    shaMessage e msg = if msg.length ≤ 4096 ∧ msg.length % 64 ≤ 55 then some (Fips.pad msg) else none := by
  unfold shaMessage alignUp
  dsimp only
  by_cases h : 0x1000 < msg.length
  · rw [if_pos h, if_neg (by omega)]
  rw [if_neg h]
  by_cases h' : msg.length % 64 ≤ 55
  · rw [if_neg (by omega), if_pos (by omega)]
    congr 1
    rw [beMake, hostBytes_hostNat' e 8 _ (beDigits_length 8 _), beDigits_len64, Fips.pad, Nat.mul_comm msg.length 8]
    have : (msg.length + 1 + (64 - 1)) / 64 * 64 - msg.length - 1 - 8 = (119 - msg.length % 64) % 64 := by omega
    rw [this]
  · rw [if_pos (by omega), if_neg (by omega)]

theorem pad_length (msg : List UInt8) : (Fips.pad msg).length = 64 * ((msg.length + 72) / 64) := by
  simp only [Fips.pad, Fips.len64, List.length_append, List.length_cons, List.length_nil, List.length_replicate]
  omega

theorem shaWords_spec (e : Endian) : ∀ (k : Nat) (bs : List UInt8), 4 * k ≤ bs.length →
    (shaWords e k bs).length = k ∧
    ∀ t, t < k → Rep e ((shaWords e k bs).getD t 0) (Fips.word (bs.take (4 * k)) t)
  | 0, _, _ => ⟨rfl, fun t h => absurd h (Nat.not_lt_zero t)⟩
  | k + 1, bs, hl => by
    obtain ⟨i1, i2⟩ := shaWords_spec e k (bs.drop 4) (by simp; omega)
    refine ⟨by simp [shaWords, i1], fun t ht => ?_⟩
    cases t with
    | zero =>
      simp only [shaWords, List.getD_cons_zero, Fips.word]
      have hlen : (bs.take 4).length = 4 := by simp; omega
      refine ⟨by have := hostNat_lt e (bs.take 4); rw [hlen] at this; exact this, ?_⟩
      rw [hostBytes_hostNat' e 4 _ hlen, BitVec.toNat_ofNat]
      have h1 := beValue_lt (bs.take 4)
      rw [hlen] at h1
      simp only [Nat.mul_zero, List.drop_zero, List.take_take]
      rw [show min 4 (4 * (k + 1)) = 4 by omega, Nat.mod_eq_of_lt h1]
    | succ t =>
      simp only [shaWords, List.getD_cons_succ]
      have := i2 t (by omega)
      have hw : Fips.word (bs.take (4 * (k + 1))) (t + 1) = Fips.word ((bs.drop 4).take (4 * k)) t := by
        simp only [Fips.word]
        congr 3
        simp only [List.drop_take, List.drop_drop]
        congr 1
        · omega
        · congr 1; omega
      rw [hw]; exact this

/-! ## SHA-1 -/

theorem getD_app_left (l : List W) (x : W) (t : Nat) (h : t < l.length) : (l ++ [x]).getD t 0 = l.getD t 0 := by
  simp [List.getD, List.getElem?_append_left h]

theorem getD_app_end (l : List W) (x : W) (t : Nat) (h : t = l.length) : (l ++ [x]).getD t 0 = x := by
  subst h; simp [List.getD]

theorem sched1_spec (e : Endian) (block : List UInt8) (w0 : List W) (h0 : w0.length = 16)
    (hr : ∀ t, t < 16 → Rep e (w0.getD t 0) (Fips.word block t)) (m : Nat) :
    ((List.range' 16 m).foldl (sha1Extend e) w0).length = 16 + m ∧
    ∀ t, t < 16 + m → Rep e (((List.range' 16 m).foldl (sha1Extend e) w0).getD t 0) (Fips.sched1 block t) := by
  induction m with
  | zero =>
    refine ⟨h0, fun t ht => ?_⟩
    rw [Fips.sched1, if_pos (by omega)]
    exact hr t (by omega)
  | succ m ih =>
    obtain ⟨i1, i2⟩ := ih
    rw [List.range'_concat, List.foldl_append]
    simp only [List.foldl_cons, List.foldl_nil, Nat.one_mul]
    generalize (List.range' 16 m).foldl (sha1Extend e) w0 = w at i1 i2
    refine ⟨by simp [sha1Extend, i1]; omega, fun t ht => ?_⟩
    simp only [sha1Extend]
    by_cases h : t < 16 + m
    · rw [getD_app_left _ _ _ (by omega)]
      exact i2 t h
    · have ht : t = 16 + m := by omega
      subst ht
      rw [getD_app_end _ _ _ i1.symm]
      rw [Fips.sched1, if_neg (by omega)]
      exact ((((i2 _ (by omega)).xor (i2 _ (by omega))).xor (i2 _ (by omega))).xor (i2 _ (by omega))).rotl 1 (by omega)

/-- The states agree. -/
structure Rep1 (e : Endian) (s : S1) (h : Fips.H1) : Prop where
  a : Rep e s.a h.a
  b : Rep e s.b h.b
  c : Rep e s.c h.c
  d : Rep e s.d h.d
  e : Rep e s.e h.e

theorem ch_or (x y z : BitVec 32) : (x &&& y) ||| (~~~x &&& z) = Fips.ch x y z := by
  unfold Fips.ch
  ext i
  simp only [BitVec.getElem_or, BitVec.getElem_and, BitVec.getElem_not, BitVec.getElem_xor]
  cases x[i] <;> simp

theorem maj_or (x y z : BitVec 32) : (x &&& y) ||| (x &&& z) ||| (y &&& z) = Fips.maj x y z := by
  unfold Fips.maj
  ext i
  simp only [BitVec.getElem_or, BitVec.getElem_and, BitVec.getElem_xor]
  cases x[i] <;> cases y[i] <;> cases z[i] <;> rfl

theorem sha1FK_spec {e : Endian} {s : S1} {h : Fips.H1} (r : Rep1 e s h) (i : Nat) :
    Rep e (sha1FK e i s).1 (Fips.f1 i h.b h.c h.d) ∧ Rep e (sha1FK e i s).2 (Fips.k1 i) := by
  unfold sha1FK Fips.f1 Fips.k1
  by_cases h1 : i ≤ 19
  · rw [if_pos h1, if_pos (by omega : i < 20), if_pos (by omega : i < 20), ← ch_or]
    exact ⟨(r.b.and r.c).or (r.b.not.and r.d), Rep.make e _⟩
  rw [if_neg h1, if_neg (by omega : ¬ i < 20), if_neg (by omega : ¬ i < 20)]
  by_cases h2 : i ≤ 39
  · rw [if_pos h2, if_pos (by omega : i < 40), if_pos (by omega : i < 40)]
    exact ⟨(r.b.xor r.c).xor r.d, Rep.make e _⟩
  rw [if_neg h2, if_neg (by omega : ¬ i < 40), if_neg (by omega : ¬ i < 40)]
  by_cases h3 : i ≤ 59
  · rw [if_pos h3, if_pos (by omega : i < 60), if_pos (by omega : i < 60), ← maj_or]
    exact ⟨((r.b.and r.c).or (r.b.and r.d)).or (r.c.and r.d), Rep.make e _⟩
  rw [if_neg h3, if_neg (by omega : ¬ i < 60), if_neg (by omega : ¬ i < 60)]
  exact ⟨(r.b.xor r.c).xor r.d, Rep.make e _⟩

theorem sha1Chunk_spec {e : Endian} {s : S1} {h : Fips.H1} (r : Rep1 e s h) (block : List UInt8) (chunk : List W)
    (hl : chunk.length = 16) (hr : ∀ t, t < 16 → Rep e (chunk.getD t 0) (Fips.word block t)) :
    Rep1 e (sha1Chunk e s chunk) (Fips.block1 h block) := by
  have hs := (sched1_spec e block chunk hl hr 64).2
  have key : Rep1 e ((List.range 80).foldl (sha1Round e (sha1Schedule e chunk)) s)
      ((List.range 80).foldl (Fips.step1 block) h) := by
    refine foldl_rel (Rep1 e) _ _ _ _ _ r ?_
    intro s h i hi r
    have hi : i < 80 := by simpa using hi
    obtain ⟨f, k⟩ := sha1FK_spec r i
    exact ⟨((((r.a.rotl 5 (by omega)).add f).add r.e).add k).add (hs i (by omega)), r.a, r.b.rotl 30 (by omega), r.c, r.d⟩
  simp only [sha1Chunk, Fips.block1]
  refine ⟨?_, ?_, ?_, ?_, ?_⟩ <;> dsimp only <;> rw [BitVec.add_comm]
  · exact r.a.add key.a
  · exact r.b.add key.b
  · exact r.c.add key.c
  · exact r.d.add key.d
  · exact r.e.add key.e

theorem chunk_words (e : Endian) (m : List UInt8) (k : Nat) (i : Nat) (hl : m.length = 64 * k) (hi : i < k) :
    (shaWords e 16 (m.drop (64 * i))).length = 16 ∧
    ∀ t, t < 16 → Rep e ((shaWords e 16 (m.drop (64 * i))).getD t 0) (Fips.word (Fips.nthBlock m i) t) :=
  shaWords_spec e 16 (m.drop (64 * i)) (by simp; omega)

theorem sha1Loop_spec (e : Endian) (m : List UInt8) (k : Nat) (hl : m.length = 64 * k) :
    ∀ (j i : Nat) (s : S1) (h : Fips.H1), i + j = k → Rep1 e s h →
    Rep1 e (sha1Loop e j (m.drop (64 * i)) s)
      ((List.range' i j).foldl (fun h i => Fips.block1 h (Fips.nthBlock m i)) h)
  | 0, _, _, _, _, r => r
  | j + 1, i, s, h, hij, r => by
    rw [sha1Loop, List.range'_succ, List.foldl_cons, List.drop_drop, show 64 * i + 64 = 64 * (i + 1) by omega]
    obtain ⟨c1, c2⟩ := chunk_words e m k i hl (by omega)
    exact sha1Loop_spec e m k hl j (i + 1) _ _ (by omega) (sha1Chunk_spec r _ _ c1 c2)

theorem Rep.bytes {e : Endian} {v : W} {x : BitVec 32} (h : Rep e v x) : hostBytes e 4 v = Fips.wordBytes x := by
  apply beValue_inj
  · simp [Fips.wordBytes]
  · rw [h.val]
    have hx := x.isLt
    simp [beValue, Fips.wordBytes]
    omega

theorem sha1_spec (e : Endian) (msg : List UInt8) :
    sha1 e msg = if msg.length ≤ 4096 ∧ msg.length % 64 ≤ 55 then some (Fips.sha1 msg) else none := by
  unfold sha1
  rw [shaMessage_eq]
  split
  · next h => split at h
              · cases h
              · next hc => rw [if_neg hc]
  · next m h =>
    split at h
    · next hc =>
      rw [if_pos hc]
      cases h
      have hl := pad_length msg
      unfold Fips.sha1
      dsimp only
      rw [hl, Nat.mul_div_cancel_left _ (by omega : 0 < 64)]
      have r := sha1Loop_spec e (Fips.pad msg) _ hl _ 0 _ _ (Nat.zero_add _)
        (⟨Rep.make e 0x67452301, Rep.make e 0xefcdab89, Rep.make e 0x98badcfe, Rep.make e 0x10325476,
          Rep.make e 0xc3d2e1f0⟩ :
          Rep1 e ⟨beMake e 4 0x67452301, beMake e 4 0xefcdab89, beMake e 4 0x98badcfe, beMake e 4 0x10325476,
            beMake e 4 0xc3d2e1f0⟩ ⟨0x67452301#32, 0xefcdab89#32, 0x98badcfe#32, 0x10325476#32, 0xc3d2e1f0#32⟩)
      rw [Nat.mul_zero, List.drop_zero, ← List.range_eq_range'] at r
      rw [r.a.bytes, r.b.bytes, r.c.bytes, r.d.bytes, r.e.bytes]
    · cases h

/-! ## SHA-256 -/

theorem sched2_spec (e : Endian) (block : List UInt8) (w0 : List W) (h0 : w0.length = 16)
    (hr : ∀ t, t < 16 → Rep e (w0.getD t 0) (Fips.word block t)) (m : Nat) :
    ((List.range' 16 m).foldl (sha256Extend e) w0).length = 16 + m ∧
    ∀ t, t < 16 + m → Rep e (((List.range' 16 m).foldl (sha256Extend e) w0).getD t 0) (Fips.sched2 block t) := by
  induction m with
  | zero =>
    refine ⟨h0, fun t ht => ?_⟩
    rw [Fips.sched2, if_pos (by omega)]
    exact hr t (by omega)
  | succ m ih =>
    obtain ⟨i1, i2⟩ := ih
    rw [List.range'_concat, List.foldl_append]
    simp only [List.foldl_cons, List.foldl_nil, Nat.one_mul]
    generalize (List.range' 16 m).foldl (sha256Extend e) w0 = w at i1 i2
    refine ⟨by simp [sha256Extend, i1]; omega, fun t ht => ?_⟩
    simp only [sha256Extend]
    by_cases h : t < 16 + m
    · rw [getD_app_left _ _ _ (by omega)]
      exact i2 t h
    · have ht : t = 16 + m := by omega
      subst ht
      rw [getD_app_end _ _ _ i1.symm]
      rw [Fips.sched2, if_neg (by omega)]
      have x15 := i2 (16 + m - 15) (by omega)
      have x2 := i2 (16 + m - 2) (by omega)
      have s0 := ((x15.rotr 7 (by omega)).xor (x15.rotr 18 (by omega))).xor (x15.shr 3 (by omega))
      have s1 := ((x2.rotr 17 (by omega)).xor (x2.rotr 19 (by omega))).xor (x2.shr 10 (by omega))
      have key := (((i2 (16 + m - 16) (by omega)).add s0).add (i2 (16 + m - 7) (by omega))).add s1
      have comm : Fips.sched2 block (16 + m - 16) + Fips.sigma0 (Fips.sched2 block (16 + m - 15)) +
          Fips.sched2 block (16 + m - 7) + Fips.sigma1 (Fips.sched2 block (16 + m - 2)) =
          Fips.sigma1 (Fips.sched2 block (16 + m - 2)) + Fips.sched2 block (16 + m - 7) +
          Fips.sigma0 (Fips.sched2 block (16 + m - 15)) + Fips.sched2 block (16 + m - 16) := by ac_rfl
      rw [← comm]
      exact key

/-- The states agree. -/
structure Rep2 (o : Endian) (s : S2) (h : Fips.H2) : Prop where
  a : Rep o s.a h.a
  b : Rep o s.b h.b
  c : Rep o s.c h.c
  d : Rep o s.d h.d
  e : Rep o s.e h.e
  f : Rep o s.f h.f
  g : Rep o s.g h.g
  h : Rep o s.h h.h

theorem sha256K_spec (e : Endian) (i : Nat) (hi : i < 64) :
    Rep e (beMake e 4 (sha256K.getD i 0)) (Fips.k2.getD i 0) := by
  have h : Fips.k2 = sha256K.map (BitVec.ofNat 32) := rfl
  have hl : sha256K.length = 64 := rfl
  have h2 : Fips.k2.getD i 0 = BitVec.ofNat 32 (sha256K.getD i 0) := by
    simp only [h, List.getD, List.getElem?_map]
    rw [List.getElem?_eq_getElem (by omega)]
    rfl
  rw [h2]
  exact Rep.make e _

theorem sha256Chunk_spec {e : Endian} {s : S2} {h : Fips.H2} (r : Rep2 e s h) (block : List UInt8) (chunk : List W)
    (hl : chunk.length = 16) (hr : ∀ t, t < 16 → Rep e (chunk.getD t 0) (Fips.word block t)) :
    Rep2 e (sha256Chunk e s chunk) (Fips.block2 h block) := by
  have hs := (sched2_spec e block chunk hl hr 48).2
  have key : Rep2 e ((List.range 64).foldl (sha256Round e (sha256Schedule e chunk)) s)
      ((List.range 64).foldl (Fips.step2 block) h) := by
    refine foldl_rel (Rep2 e) _ _ _ _ _ r ?_
    intro s h i hi r
    have hi : i < 64 := by simpa using hi
    have s1 := ((r.e.rotr 6 (by omega)).xor (r.e.rotr 11 (by omega))).xor (r.e.rotr 25 (by omega))
    have ch := (r.e.and r.f).xor (r.e.not.and r.g)
    have t1 := (((r.h.add s1).add ch).add (sha256K_spec e i hi)).add (hs i (by omega))
    have s0 := ((r.a.rotr 2 (by omega)).xor (r.a.rotr 13 (by omega))).xor (r.a.rotr 22 (by omega))
    have maj := ((r.a.and r.b).xor (r.a.and r.c)).xor (r.b.and r.c)
    have t2 := s0.add maj
    exact ⟨t1.add t2, r.a, r.b, r.c, r.d.add t1, r.e, r.f, r.g⟩
  simp only [sha256Chunk, Fips.block2]
  refine ⟨?_, ?_, ?_, ?_, ?_, ?_, ?_, ?_⟩ <;> dsimp only <;> rw [BitVec.add_comm]
  · exact r.a.add key.a
  · exact r.b.add key.b
  · exact r.c.add key.c
  · exact r.d.add key.d
  · exact r.e.add key.e
  · exact r.f.add key.f
  · exact r.g.add key.g
  · exact r.h.add key.h

theorem sha256Loop_spec (e : Endian) (m : List UInt8) (k : Nat) (hl : m.length = 64 * k) :
    ∀ (j i : Nat) (s : S2) (h : Fips.H2), i + j = k → Rep2 e s h →
    Rep2 e (sha256Loop e j (m.drop (64 * i)) s)
      ((List.range' i j).foldl (fun h i => Fips.block2 h (Fips.nthBlock m i)) h)
  | 0, _, _, _, _, r => r
  | j + 1, i, s, h, hij, r => by
    rw [sha256Loop, List.range'_succ, List.foldl_cons, List.drop_drop, show 64 * i + 64 = 64 * (i + 1) by omega]
    obtain ⟨c1, c2⟩ := chunk_words e m k i hl (by omega)
    exact sha256Loop_spec e m k hl j (i + 1) _ _ (by omega) (sha256Chunk_spec r _ _ c1 c2)

theorem sha256_spec (e : Endian) (msg : List UInt8) :
    sha256 e msg = if msg.length ≤ 4096 ∧ msg.length % 64 ≤ 55 then some (Fips.sha256 msg) else none := by
  unfold sha256
  rw [shaMessage_eq]
  split
  · next h => split at h
              · cases h
              · next hc => rw [if_neg hc]
  · next m h =>
    split at h
    · next hc =>
      rw [if_pos hc]
      cases h
      have hl := pad_length msg
      unfold Fips.sha256
      dsimp only
      rw [hl, Nat.mul_div_cancel_left _ (by omega : 0 < 64)]
      have r := sha256Loop_spec e (Fips.pad msg) _ hl _ 0 _ _ (Nat.zero_add _)
        (⟨Rep.make e 0x6a09e667, Rep.make e 0xbb67ae85, Rep.make e 0x3c6ef372, Rep.make e 0xa54ff53a,
          Rep.make e 0x510e527f, Rep.make e 0x9b05688c, Rep.make e 0x1f83d9ab, Rep.make e 0x5be0cd19⟩ :
          Rep2 e ⟨beMake e 4 0x6a09e667, beMake e 4 0xbb67ae85, beMake e 4 0x3c6ef372, beMake e 4 0xa54ff53a,
            beMake e 4 0x510e527f, beMake e 4 0x9b05688c, beMake e 4 0x1f83d9ab, beMake e 4 0x5be0cd19⟩
          ⟨0x6a09e667#32, 0xbb67ae85#32, 0x3c6ef372#32, 0xa54ff53a#32, 0x510e527f#32, 0x9b05688c#32, 0x1f83d9ab#32,
            0x5be0cd19#32⟩)
      rw [Nat.mul_zero, List.drop_zero, ← List.range_eq_range'] at r
      rw [r.a.bytes, r.b.bytes, r.c.bytes, r.d.bytes, r.e.bytes, r.f.bytes, r.g.bytes, r.h.bytes]
    · cases h

end Zpp
