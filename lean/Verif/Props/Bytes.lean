import Verif.Model.Bytes
import Verif.Props.RoundTrip
import Verif.Proof.InSeq
import Verif.Proof.Hash
/-!
# C43: `to_bytes`, `from_bytes`, `id`
-/

namespace Zpp.Props
open Zpp Zpp.Spec

/-- The format of an archive without options. -/
def plainFmt (h : Host) : Fmt := ⟨h.order, .fixed 4, h.env⟩

theorem fmtOf_plain (h : Host) : fmtOf (cfgOf h false []) = plainFmt h := rfl

theorem uninit_length (junk : Nat → UInt8) (n : Nat) : (uninit junk n).length = n := by simp [uninit]

/-- Objects the compile-time helpers are stated for: supported, without bitset (which reads the uninitialized buffer). -/
structure Constant (d : Nat) (h : Host) (items : List (Ty × Val)) : Prop where
  supported : Supported (cfgOf h false []) items
  stack : StackOk d items
  noBits : ∀ x ∈ items, noBits x.2 = true

theorem Constant.head {d : Nat} {h : Host} {x : Ty × Val} {xs : List (Ty × Val)} (k : Constant d h (x :: xs)) :
    Constant d h [x] := by
  refine ⟨⟨k.supported.growth, k.supported.abi, k.supported.env, fun y hy => ?_⟩, fun y hy => ?_, fun y hy => ?_⟩ <;>
    (simp only [List.mem_singleton] at hy; subst hy)
  · exact k.supported.types _ (by simp)
  · exact k.stack _ (by simp)
  · exact k.noBits _ (by simp)

theorem Constant.tail {d : Nat} {h : Host} {x : Ty × Val} {xs : List (Ty × Val)} (k : Constant d h (x :: xs)) :
    Constant d h xs :=
  ⟨⟨k.supported.growth, k.supported.abi, k.supported.env, fun y hy => k.supported.types y (by simp [hy])⟩,
    fun y hy => k.stack y (by simp [hy]), fun y hy => k.noBits y (by simp [hy])⟩

theorem wireItems_one (f : Fmt) (t : Ty) (v : Val) (b : List UInt8) (hw : wire f t v = some b) :
    wireItems f [(t, v)] = some b := by
  simp [wireItems, hw, cat]

theorem toBytesOne_spec (d : Nat) (h : Host) (junk : Nat → UInt8) (t : Ty) (v : Val) (b : List UInt8)
    (k : Constant d h [(t, v)]) (hw : wire (plainFmt h) t v = some b) (hl : b.length < 2 ^ 63) :
    toBytesOne d h junk t v = if b.length ≤ 4096 then some b else none := by
  have hw' : wireItems (fmtOf (cfgOf h false [])) [(t, v)] = some b := wireItems_one _ t v b hw
  have big := C02_fixed_exact d (cfgOf h false []) false [(t, v)] ⟨uninit junk 0x1000, 0⟩ b rfl (Nat.zero_le _)
    (by rw [uninit_length]; decide) k.supported k.stack (Or.inl k.noBits) hw' hl
  simp only [uninit_length, Nat.zero_add] at big
  unfold toBytesOne
  by_cases hb : b.length ≤ 4096
  · rw [big.1 hb, if_pos hb]
    dsimp only
    by_cases h0 : b.length = 0
    · rw [if_pos h0, List.length_eq_zero_iff.mp h0]
    · have small := C02_fixed_exact d (cfgOf h false []) false [(t, v)] ⟨uninit junk b.length, 0⟩ b rfl (Nat.zero_le _)
        (by rw [uninit_length]; exact hl) k.supported k.stack (Or.inl k.noBits) hw' hl
      simp only [uninit_length, Nat.zero_add] at small
      rw [if_neg h0, small.1 (Nat.le_refl _)]
      simp [List.drop_eq_nil_of_le, uninit_length]
  · rw [if_neg hb]
    have := big.2 (by omega)
    generalize outCall d (cfgOf h false []) false [(t, v)] ⟨uninit junk 0x1000, 0⟩ = r at this ⊢
    obtain ⟨s, st⟩ := r
    simp only at this
    subst this
    rfl

theorem wireItems_bytes (h : Host) (pieces : List (List UInt8)) :
    wireItems (plainFmt h) (pieces.map bytesItem) = some pieces.flatten := by
  induction pieces with
  | nil => rfl
  | cons b bs ih =>
    have hall : ∀ l : List UInt8, wireAll (plainFmt h) (.scalar .byte 1) (l.map fun b => .num b.toNat) = some l := by
      intro l
      induction l with
      | nil => simp [wireAll]
      | cons x l ihl =>
        have hx := x.toNat_lt
        simp only [List.map_cons, wireAll, ihl, wire, wireNum, cat]
        rw [if_pos (by omega)]
        simp only [digits, plainFmt]
        cases h.order <;> simp [leBytes, digits]
    have hb : wire (plainFmt h) (bytesItem b).1 (bytesItem b).2 = some b := by
      unfold bytesItem
      split
      · next he => subst he; simp [wire, sizePrefix, wireAll, cat]
      · simp only [wire, List.length_map, if_pos, hall]
    simp only [List.map_cons, wireItems, hb, ih, cat, List.flatten_cons]

theorem bytes_constant (d : Nat) (h : Host) (pieces : List (List UInt8)) (habi : AbiOk h.sizeof)
    (henv : EnvGood (cfgOf h false [])) (hd : 6 ≤ d) : Constant d h (pieces.map bytesItem) := by
  have depth_bytes : ∀ l : List UInt8, depthL (l.map fun b => Val.num b.toNat) ≤ 1 := by
    intro l
    induction l with
    | nil => simp [depthL]
    | cons x l ih => simp only [List.map_cons, depthL, depth]; omega
  have nb : ∀ l : List UInt8, noBitsL (l.map fun b => Val.num b.toNat) = true := by
    intro l
    induction l with
    | nil => rfl
    | cons x l ih => simp only [List.map_cons, noBitsL, noBits, ih, Bool.and_self]
  refine ⟨⟨(fun hr => nomatch (show false = true from hr)), habi, henv, fun x hx => ?_⟩, fun x hx => ?_, fun x hx => ?_⟩ <;>
    (simp only [List.mem_map] at hx; obtain ⟨b, _, rfl⟩ := hx; unfold bytesItem; split)
  · simp [Good, nodeOk, copyOk, plain, scalarOk]
  · next hne =>
      have : 0 < b.length := List.length_pos_iff.mpr hne
      simp [Good, nodeOk, copyOk, plain, scalarOk, this]
  · simp only [depth, depthL]; omega
  · simp only [depth]; have := depth_bytes b; omega
  · simp [noBits, noBitsL]
  · simp only [noBits]; exact nb b

/-- C43. `to_bytes<objects...>()` is the concatenation of the objects' encodings, whatever the uninitialized buffers
contain. -/
theorem C43_to_bytes (d : Nat) (h : Host) (junk : Nat → UInt8) (items : List (Ty × Val)) (bs : List UInt8)
    (k : Constant d h items) (hd : 6 ≤ d) (hw : wireItems (plainFmt h) items = some bs)
    (hone : ∀ x ∈ items, ∀ b, wire (plainFmt h) x.1 x.2 = some b → b.length ≤ 4096) (hl : bs.length < 2 ^ 63) :
    toBytes d h junk items = some bs := by
  have each : ∀ (items : List (Ty × Val)) (bs : List UInt8), Constant d h items →
      wireItems (plainFmt h) items = some bs →
      (∀ x ∈ items, ∀ b, wire (plainFmt h) x.1 x.2 = some b → b.length ≤ 4096) →
      ∃ pieces, toBytesEach d h junk items = some pieces ∧ pieces.flatten = bs := by
    intro items
    induction items with
    | nil => intro bs _ hw _; simp [wireItems] at hw; exact ⟨[], rfl, by simp [hw]⟩
    | cons x xs ih =>
      intro bs k hw hone
      obtain ⟨t, v⟩ := x
      obtain ⟨a, b, ha, hb, rfl⟩ := wireItems_append (xs := [(t, v)]) (ys := xs) (by simpa using hw)
      have ha : wire (plainFmt h) t v = some a := by
        simp only [wireItems] at ha
        generalize wire (plainFmt h) t v = w at ha
        cases w <;> simp_all [cat]
      have hal := hone _ (List.mem_cons_self ..) a ha
      obtain ⟨ps, h1, h2⟩ := ih b k.tail hb (fun x hx => hone x (by simp [hx]))
      refine ⟨a :: ps, ?_, by simp [h2]⟩
      rw [toBytesEach, toBytesOne_spec d h junk t v a k.head ha (by omega), if_pos hal, h1]
  obtain ⟨ps, h1, h2⟩ := each items bs k hw hone
  unfold toBytes
  rw [h1]
  dsimp only
  unfold joinBytes
  have hsum : (ps.map List.length).sum = bs.length := by rw [← h2, List.length_flatten]
  dsimp only
  rw [hsum]
  by_cases h0 : bs.length = 0
  · rw [if_pos h0, List.length_eq_zero_iff.mp h0]
  · rw [if_neg h0]
    have kb := bytes_constant d h ps k.supported.abi k.supported.env hd
    have := (C02_fixed_exact d (cfgOf h false []) false (ps.map bytesItem) ⟨uninit junk bs.length, 0⟩ bs rfl
      (Nat.zero_le _) (by rw [uninit_length]; exact hl) kb.supported kb.stack (Or.inl kb.noBits)
      (by rw [fmtOf_plain, wireItems_bytes, h2]) hl).1 (by simp [uninit_length])
    rw [this]
    simp [List.drop_eq_nil_of_le, uninit_length]

/-- C43, limit. An object with an encoding of more than 4096 bytes is not accepted. -/
theorem C43_too_large (d : Nat) (h : Host) (junk : Nat → UInt8) (items : List (Ty × Val)) (x : Ty × Val) (b : List UInt8)
    (k : Constant d h items) (hx : x ∈ items) (hw : wire (plainFmt h) x.1 x.2 = some b) (hbig : 4096 < b.length)
    (hl : b.length < 2 ^ 63) : toBytes d h junk items = none := by
  have key : ∀ (items : List (Ty × Val)), Constant d h items → x ∈ items → toBytesEach d h junk items = none := by
    intro items
    induction items with
    | nil => intro _ hx; simp at hx
    | cons y ys ih =>
      intro k hx
      rcases List.mem_cons.mp hx with rfl | hx
      · rw [toBytesEach, toBytesOne_spec d h junk _ _ b k.head hw hl, if_neg (by omega)]
      · rw [toBytesEach, ih k.tail hx]
        split <;> simp_all
  unfold toBytes
  rw [key items k hx]

/-- C43. `from_bytes` inverts `to_bytes`, for one type and for several. -/
theorem C43_from_bytes (d : Nat) (h : Host) (junk : Nat → UInt8) (items : List (Ty × Val)) (bs : List UInt8)
    (k : Constant d h items) (hd : 6 ≤ d) (hw : wireItems (plainFmt h) items = some bs)
    (hone : ∀ x ∈ items, ∀ b, wire (plainFmt h) x.1 x.2 = some b → b.length ≤ 4096) (hl : bs.length < 2 ^ 63)
    (hload : ∀ x ∈ items, Loadable (cfgOf h false []) x.1 x.2)
    (hstack : 2 * (1 + depthL (items.map Prod.snd)) ≤ d) (data : List UInt8)
    (hto : toBytes d h junk items = some data) :
    (∀ t v old, items = [(t, v)] → fromBytes d h data t old = some v) ∧
    (∀ olds, fromBytesTuple d h data (items.map Prod.fst) olds = some (.list (items.map Prod.snd))) := by
  rw [C43_to_bytes d h junk items bs k hd hw hone hl] at hto
  cases hto
  constructor
  · rintro t v old rfl
    have := C10_read_encoding d (cfgOf h false []) [(t, v)] [(t, old)] [] bs [] (by simp; omega) hw
      ⟨k.supported.abi, k.supported.env, k.supported.types, hload⟩ k.stack rfl
    simp only [List.nil_append, List.append_nil, List.length_nil] at this
    unfold fromBytes
    rw [this]
    rfl
  · intro olds
    have hw' : wireItems (plainFmt h) [(.struct false (items.map Prod.fst), .list (items.map Prod.snd))] = some bs := by
      apply wireItems_one
      rw [wire]
      clear hl hone hload hstack k hd
      induction items generalizing bs with
      | nil => simpa [wireItems, wireFields] using hw
      | cons x xs ih =>
        obtain ⟨t, v⟩ := x
        simp only [wireItems] at hw
        simp only [List.map_cons, wireFields]
        cases hr : wireItems (plainFmt h) xs with
        | none => rw [hr] at hw; cases hq : wire (plainFmt h) t v <;> simp [hq, cat] at hw
        | some r => rw [hr] at hw; rw [ih r hr]; exact hw
    have hgood : Good (cfgOf h false []) (.struct false (items.map Prod.fst)) = true := by
      have hL : GoodL (cfgOf h false []) (items.map Prod.fst) = true := by
        have := k.supported.types
        clear hw hl hone hload hstack k hd hw'
        induction items with
        | nil => rfl
        | cons x xs ih =>
          simp only [List.map_cons, GoodL, Bool.and_eq_true]
          exact ⟨this x (by simp), ih (fun y hy => this y (by simp [hy]))⟩
      rw [Good, hL]
      simp [nodeOk, copyOk, oneBlock]
    have hld : Loadable (cfgOf h false []) (.struct false (items.map Prod.fst)) (.list (items.map Prod.snd)) := by
      rw [Loadable]
      clear hw hl hone hstack k hd hw' hgood
      induction items with
      | nil => simp [LoadableF]
      | cons x xs ih =>
        simp only [List.map_cons, LoadableF]
        exact ⟨hload x (by simp), ih (fun y hy => hload y (by simp [hy]))⟩
    have := C10_read_encoding d (cfgOf h false []) [(.struct false (items.map Prod.fst), .list (items.map Prod.snd))]
      [(.struct false (items.map Prod.fst), .list olds)] [] bs [] (by simp; omega) hw'
      ⟨k.supported.abi, k.supported.env, by intro x hx; simp only [List.mem_singleton] at hx; subst hx; exact hgood,
        by intro x hx; simp only [List.mem_singleton] at hx; subst hx; exact hld⟩
      (by intro x hx; simp only [List.mem_singleton] at hx; subst hx; simp only [depth]; omega) rfl
    simp only [List.nil_append, List.append_nil, List.length_nil] at this
    unfold fromBytesTuple fromBytes
    rw [this]
    rfl

/-- C43, ids. `id<objects, n>` is written by an archive without options as the first `n` bytes (all bytes if `n` is not
given) of the objects' encoding, also when it was turned into an integer. -/
theorem C43_id (d : Nat) (h : Host) (junk : Nat → UInt8) (items : List (Ty × Val)) (bs : List UInt8) (maxSize : Option Nat)
    (k : Constant d h items) (hd : 6 ≤ d) (hw : wireItems (plainFmt h) items = some bs)
    (hone : ∀ x ∈ items, ∀ b, wire (plainFmt h) x.1 x.2 = some b → b.length ≤ 4096) (hl : bs.length < 2 ^ 63)
    (hne : bs ≠ []) (hm : ∀ n, maxSize = some n → 0 < n ∧ n ≤ bs.length) :
    ∃ id, serializeId d h junk items maxSize = some id ∧
      wire (plainFmt h) id.1 id.2 = some (maxSize.elim bs bs.take) := by
  have hs : sliceBytes bs maxSize = some (maxSize.elim bs bs.take) := by
    cases maxSize with
    | none => rfl
    | some n => simp only [sliceBytes]; rw [if_pos (hm n rfl)]; rfl
  refine ⟨idItem h (maxSize.elim bs bs.take), ?_, ?_⟩
  · unfold serializeId
    rw [C43_to_bytes d h junk items bs k hd hw hone hl]
    dsimp only
    rw [hs]
    have : maxSize.elim bs bs.take ≠ [] := by
      cases maxSize with
      | none => exact hne
      | some n =>
        have := hm n rfl
        simp only [Option.elim, ne_eq, List.take_eq_nil_iff, hne, or_false]
        omega
    exact if_neg this
  · generalize (maxSize.elim bs bs.take) = s
    have num : ∀ (sk : SKind) (n : Nat), s.length = n →
        wire (plainFmt h) (.scalar sk n) (.num (hostNat h.order s)) = some s := by
      intro sk n hn
      have hlt := hostNat_lt h.order s
      rw [hn] at hlt
      simp only [wire, wireNum]
      rw [if_pos (by simpa using hlt)]
      subst hn
      have := hostBytes_hostNat h.order s
      simp only [plainFmt]
      rw [digits_host]
      exact congrArg some this
    unfold idItem
    split
    · next h1 => exact num _ _ h1
    split
    · next h1 => exact num _ _ h1
    split
    · next h1 => exact num _ _ h1
    split
    · next h1 => exact num _ _ h1
    · have := wireItems_bytes h [s]
      by_cases h0 : s = []
      · subst h0; simp [wire, wireAll]
      · simp only [List.map_cons, List.map_nil, wireItems, bytesItem, if_neg h0, List.flatten_cons, List.flatten_nil,
          List.append_nil] at this
        cases hq : wire (plainFmt h) (.array s.length (.scalar .byte 1)) (.list (s.map fun b => .num b.toNat)) with
        | none => rw [hq] at this; simp [cat] at this
        | some r => rw [hq] at this; simpa [cat] using this

/-- The padded message of the hash functions is what the code passes to `to_bytes` (zpp_bits.h:5339-5347, 5464-5472): the
message's bytes, the byte `0x80`, the zero bytes, and the length in bits as a `big_endian<std::uint64_t>`. -/
theorem C43_hash_message (d : Nat) (h : Host) (junk : Nat → UInt8) (msg m : List UInt8) (habi : AbiOk h.sizeof)
    (henv : EnvGood (cfgOf h false [])) (hd : 6 ≤ d) (hm : shaMessage h.order msg = some m) :
    toBytes d h junk [bytesItem msg, (.scalar .byte 1, .num 0x80),
      bytesItem (List.replicate (alignUp (msg.length + 1) 64 - msg.length - 1 - 8) 0),
      (.struct true [.scalar .int 8], .list [.num (beMake h.order 8 (msg.length * 8))])] = some m := by
  have hlen : msg.length ≤ 4096 ∧ msg.length % 64 ≤ 55 := by
    rw [shaMessage_eq] at hm
    split at hm
    · assumption
    · cases hm
  have hz : alignUp (msg.length + 1) 64 - msg.length - 1 - 8 ≤ 64 := by unfold alignUp; omega
  have hmm : m = msg ++ [0x80] ++ List.replicate (alignUp (msg.length + 1) 64 - msg.length - 1 - 8) 0 ++
      hostBytes h.order 8 (beMake h.order 8 (msg.length * 8)) := by
    unfold shaMessage at hm
    dsimp only at hm
    rw [if_neg (by omega), if_neg (by unfold alignUp; omega)] at hm
    exact (Option.some.inj hm).symm
  generalize alignUp (msg.length + 1) 64 - msg.length - 1 - 8 = z at hz hmm ⊢
  have w1 : ∀ bs : List UInt8, wire (plainFmt h) (bytesItem bs).1 (bytesItem bs).2 = some bs := by
    intro bs
    have := wireItems_bytes h [bs]
    simp only [List.map_cons, List.map_nil, wireItems, List.flatten_cons, List.flatten_nil, List.append_nil] at this
    cases hq : wire (plainFmt h) (bytesItem bs).1 (bytesItem bs).2 with
    | none => rw [hq] at this; simp [cat] at this
    | some r => rw [hq] at this; simpa [cat] using this
  have w2 : wire (plainFmt h) (.scalar .byte 1) (.num 0x80) = some [0x80] := by
    simp only [wire, wireNum]
    rw [if_pos (by decide), digits_one _ _ (by decide)]
    rfl
  have hbe : beMake h.order 8 (msg.length * 8) < 256 ^ 8 := by
    have := hostNat_lt h.order (beDigits 8 (msg.length * 8))
    rw [beDigits_length] at this
    exact this
  have w4 : wire (plainFmt h) (.struct true [.scalar .int 8]) (.list [.num (beMake h.order 8 (msg.length * 8))]) =
      some (hostBytes h.order 8 (beMake h.order 8 (msg.length * 8))) := by
    simp only [wire, wireFields, wireNum]
    rw [if_pos hbe, digits_host]
    simp [cat, plainFmt]
  have kb := bytes_constant d h [msg, List.replicate z 0] habi henv hd
  refine C43_to_bytes d h junk _ m ⟨⟨kb.supported.growth, habi, henv, ?_⟩, ?_, ?_⟩ hd ?_ ?_ ?_
  · intro x hx
    simp only [List.mem_cons, List.not_mem_nil, or_false] at hx
    rcases hx with rfl | rfl | rfl | rfl
    · exact kb.supported.types _ (by simp)
    · rfl
    · exact kb.supported.types _ (by simp)
    · simp [Good, GoodL, nodeOk, copyOk, plain, plain.plainAll, scalarOk]
  · intro x hx
    simp only [List.mem_cons, List.not_mem_nil, or_false] at hx
    rcases hx with rfl | rfl | rfl | rfl
    · exact kb.stack _ (by simp)
    · simp only [depth]; omega
    · exact kb.stack _ (by simp)
    · simp only [depth, depthL]; omega
  · intro x hx
    simp only [List.mem_cons, List.not_mem_nil, or_false] at hx
    rcases hx with rfl | rfl | rfl | rfl
    · exact kb.noBits _ (by simp)
    · rfl
    · exact kb.noBits _ (by simp)
    · rfl
  · simp only [wireItems, w1, w2, w4, cat]
    rw [hmm]
    simp
  · intro x hx b hb
    simp only [List.mem_cons, List.not_mem_nil, or_false] at hx
    rcases hx with rfl | rfl | rfl | rfl
    · rw [w1] at hb; cases hb; omega
    · rw [w2] at hb; cases hb; decide
    · rw [w1] at hb; cases hb; simp; omega
    · rw [w4] at hb; cases hb; simp
  · rw [hmm]; simp; omega

/-! ## The hypotheses are met -/

/-- A little-endian host. -/
def exHost : Host := ⟨.little, 2 ^ 40, fun _ => 8, fun _ => .struct false [], fun _ _ _ => false⟩

example : toBytes 10 exHost (fun _ => 0xcc) [(.scalar .int 4, .num 0x01020304), (.optional false .bool, .some (.num 1)), (.empty, .unit)] =
    some [4, 3, 2, 1, 1, 1] := by decide +kernel

example : wireItems (plainFmt exHost) [(.scalar .int 4, .num 0x01020304), (.optional false .bool, .some (.num 1)), (.empty, .unit)] =
    some [4, 3, 2, 1, 1, 1] := by decide +kernel

example : serializeId 10 exHost (fun _ => 0xcc) [(.array 5 (.scalar .byte 1), .list [.num 1, .num 2, .num 3, .num 4, .num 5])]
    (some 4) = some (.scalar .int 4, .num 0x04030201) := by
  have : toBytes 10 exHost (fun _ => 0xcc) [(.array 5 (.scalar .byte 1), .list [.num 1, .num 2, .num 3, .num 4, .num 5])] =
    some [1, 2, 3, 4, 5] := by decide +kernel
  rw [serializeId, this]
  rfl

end Zpp.Props
