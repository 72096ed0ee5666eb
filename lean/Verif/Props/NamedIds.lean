import Verif.Props.Bytes
import Verif.Props.Hash
import Verif.Props.Rpc
import Verif.Props.Protobuf
/-!
# C83: ids made from names
-/

namespace Zpp.Props
open Zpp Zpp.Spec

/-- An id made of the bytes `s` as written in an archive with format `f`: the bytes themselves, or, if the id was turned into
a number and the archive's byte order is not the host's, the bytes backwards. -/
theorem idItem_wire (h : Host) (f : Fmt) (s : List UInt8) :
    wire f (idItem h s).1 (idItem h s).2 =
      some (if (s.length = 2 ∨ s.length = 4 ∨ s.length = 8) ∧ f.order ≠ h.order then s.reverse else s) := by
  have rev : ∀ (e e' : Endian) (n : Nat), s.length = n → e ≠ e' → hostBytes e n (hostNat e' s) = s.reverse := by
    intro e e' n hn hne
    have h1 := hostBytes_hostNat' e n s.reverse (by simpa using hn)
    cases e <;> cases e' <;> first | exact absurd rfl hne | simpa [hostNat] using h1
  have num : ∀ (sk : SKind) (n : Nat), s.length = n →
      wire f (.scalar sk n) (.num (hostNat h.order s)) = some (if f.order ≠ h.order then s.reverse else s) := by
    intro sk n hn
    have hlt := hostNat_lt h.order s
    rw [hn] at hlt
    simp only [wire, wireNum]
    rw [if_pos (by simpa using hlt), digits_host]
    split
    · next hne => rw [rev _ _ n hn hne]
    · next hne =>
      simp only [ne_eq, Decidable.not_not] at hne
      rw [hne, hostBytes_hostNat' _ _ _ hn]
  unfold idItem
  split
  · next h1 =>
    rw [num _ _ h1]
    match s, h1 with
    | [x], _ => simp
  split
  · next h1 => rw [num _ _ h1]; simp [h1]
  split
  · next h1 => rw [num _ _ h1]; simp [h1]
  split
  · next h1 => rw [num _ _ h1]; simp [h1]
  · next h1 h2 h3 h4 =>
    rw [if_neg (by omega)]
    have hall : ∀ l : List UInt8, wireAll f (.scalar .byte 1) (l.map fun b => .num b.toNat) = some l := by
      intro l
      induction l with
      | nil => simp [wireAll]
      | cons x l ih =>
        have := x.toNat_lt
        simp only [List.map_cons, wireAll, ih, wire, wireNum]
        rw [if_pos (by omega), digits_one _ _ (by omega)]
        simp [cat]
    simp [wire, hall]

/-- The first bytes of some bytes as an id. -/
theorem serializeId_bytes (d : Nat) (h : Host) (junk : Nat → UInt8) (bs : List UInt8) (m : Option Nat) (habi : AbiOk h.sizeof)
    (henv : EnvGood (cfgOf h false [])) (hd : 6 ≤ d) (hb : bs ≠ []) (hl : bs.length ≤ 4096)
    (hm : ∀ n, m = some n → 0 < n ∧ n ≤ bs.length) :
    serializeId d h junk [bytesItem bs] m = some (idItem h (m.elim bs bs.take)) := by
  have kb := bytes_constant d h [bs] habi henv hd
  have hw := wireItems_bytes h [bs]
  simp only [List.map_cons, List.map_nil, List.flatten_cons, List.flatten_nil, List.append_nil] at kb hw
  have ht : toBytes d h junk [bytesItem bs] = some bs := by
    refine C43_to_bytes d h junk _ bs kb hd hw ?_ (by omega)
    intro x hx b hxb
    simp only [List.mem_singleton] at hx
    subst hx
    simp only [wireItems, hxb, cat, List.append_nil, Option.some.injEq] at hw
    rw [hw]
    omega
  have hs : sliceBytes bs m = some (m.elim bs bs.take) := by
    cases m with
    | none => rfl
    | some n => simp only [sliceBytes]; rw [if_pos (hm n rfl)]; rfl
  have hne : m.elim bs bs.take ≠ [] := by
    cases m with
    | none => exact hb
    | some n =>
      have := hm n rfl
      simp only [Option.elim, ne_eq, List.take_eq_nil_iff, hb, or_false]
      omega
  rw [serializeId, ht]
  dsimp only
  rw [hs]
  exact if_neg hne

theorem sha1_length (msg : List UInt8) : (Fips.sha1 msg).length = 20 := by
  simp [Fips.sha1, Fips.wordBytes]

theorem sha256_length (msg : List UInt8) : (Fips.sha256 msg).length = 32 := by
  simp [Fips.sha256, Fips.wordBytes]

/-- C83, names as text. The id made of a text is the text itself on the wire, for every host and every archive with the
host's byte order (the default), and for other archives if the text does not have the length of an integer. -/
theorem C83_text_partial (d : Nat) (h : Host) (junk : Nat → UInt8) (text : List UInt8) (f : Fmt) (habi : AbiOk h.sizeof)
    (henv : EnvGood (cfgOf h false [])) (hd : 6 ≤ d) (hne : text ≠ []) (hl : text.length ≤ 4096)
    (hf : f.order = h.order ∨ text.length ≠ 2 ∧ text.length ≠ 4 ∧ text.length ≠ 8) :
    ∃ id, textId d h junk text = some id ∧ wire f id.1 id.2 = some text := by
  refine ⟨_, serializeId_bytes d h junk text none habi henv hd hne hl (by simp), ?_⟩
  rw [idItem_wire]
  exact congrArg some (if_neg (by
    simp only [Option.elim]
    rcases hf with hf | hf
    · simp [hf]
    · omega))

/-- C83, names as hashes. `"text"_sha1_int` and `"text"_sha256_int` are the first four bytes of the SHA-1 and SHA-256 digest
on the wire, for every host and every archive with the host's byte order. -/
theorem C83_hash_partial (d : Nat) (h : Host) (junk : Nat → UInt8) (text : List UInt8) (f : Fmt) (habi : AbiOk h.sizeof)
    (henv : EnvGood (cfgOf h false [])) (hd : 6 ≤ d) (hl : text.length ≤ 4096 ∧ text.length % 64 ≤ 55)
    (hf : f.order = h.order) :
    (∃ id, sha1Int d h junk text = some id ∧ wire f id.1 id.2 = some ((Fips.sha1 text).take 4)) ∧
    (∃ id, sha256Int d h junk text = some id ∧ wire f id.1 id.2 = some ((Fips.sha256 text).take 4)) := by
  have h1 := sha1_length text
  have h2 := sha256_length text
  constructor
  · refine ⟨idItem h ((Fips.sha1 text).take 4), ?_, ?_⟩
    · rw [sha1Int, (C40_sha1 h.order text).1 hl]
      exact serializeId_bytes d h junk _ (some 4) habi henv hd (by intro h; simp [h] at h1) (by omega)
        (by intro n hn; cases hn; omega)
    · rw [idItem_wire]; simp [hf]
  · refine ⟨idItem h ((Fips.sha256 text).take 4), ?_, ?_⟩
    · rw [sha256Int, (C41_sha256 h.order text).1 hl]
      exact serializeId_bytes d h junk _ (some 4) habi henv hd (by intro h; simp [h] at h2) (by omega)
        (by intro n hn; cases hn; omega)
    · rw [idItem_wire]; simp [hf]

/-- C83 fails for an archive with an explicit byte order other than the host's: the id is written backwards. So an explicit
byte order, which makes everything else independent of the host (C26), makes these ids depend on it: hosts of different
byte order write the same name with the same archive options as opposite bytes. -/
theorem C83_hosts_differ (d : Nat) (h : Host) (junk : Nat → UInt8) (text : List UInt8) (f : Fmt) (habi : AbiOk h.sizeof)
    (henv : EnvGood (cfgOf h false [])) (hd : 6 ≤ d) (hl : text.length ≤ 4096 ∧ text.length % 64 ≤ 55)
    (hf : f.order ≠ h.order) :
    (∃ id, sha1Int d h junk text = some id ∧ wire f id.1 id.2 = some ((Fips.sha1 text).take 4).reverse) ∧
    (∃ id, sha256Int d h junk text = some id ∧ wire f id.1 id.2 = some ((Fips.sha256 text).take 4).reverse) ∧
    (text.length = 2 ∨ text.length = 4 ∨ text.length = 8 →
      ∃ id, textId d h junk text = some id ∧ wire f id.1 id.2 = some text.reverse) := by
  have h1 := sha1_length text
  have h2 := sha256_length text
  refine ⟨⟨idItem h ((Fips.sha1 text).take 4), ?_, ?_⟩, ⟨idItem h ((Fips.sha256 text).take 4), ?_, ?_⟩, fun hlen => ?_⟩
  · rw [sha1Int, (C40_sha1 h.order text).1 hl]
    exact serializeId_bytes d h junk _ (some 4) habi henv hd (by intro h; simp [h] at h1) (by omega)
      (by intro n hn; cases hn; omega)
  · rw [idItem_wire, if_pos ⟨.inr (.inl (by simp [h1])), hf⟩]
  · rw [sha256Int, (C41_sha256 h.order text).1 hl]
    exact serializeId_bytes d h junk _ (some 4) habi henv hd (by intro h; simp [h] at h2) (by omega)
      (by intro n hn; cases hn; omega)
  · rw [idItem_wire, if_pos ⟨.inr (.inl (by simp [h2])), hf⟩]
  · refine ⟨_, serializeId_bytes d h junk text none habi henv hd (by intro h; simp [h] at hlen) (by omega) (by simp), ?_⟩
    rw [idItem_wire, if_pos ⟨hlen, hf⟩]
    rfl

/-- C83. In one program different names have different ids: ids made of texts are equal only if the texts are, and ids made
of digests only if the digests begin with the same four bytes (which the check for equal ids then rejects, C66). -/
theorem C83_distinct (d : Nat) (h : Host) (junk : Nat → UInt8) (a b : List UInt8) (habi : AbiOk h.sizeof)
    (henv : EnvGood (cfgOf h false [])) (hd : 6 ≤ d)
    (ha : a ≠ [] ∧ a.length ≤ 4096) (hb : b ≠ [] ∧ b.length ≤ 4096) :
    (textId d h junk a = textId d h junk b ↔ a = b) ∧
    (a.length % 64 ≤ 55 → b.length % 64 ≤ 55 →
      (sha256Int d h junk a = sha256Int d h junk b ↔ (Fips.sha256 a).take 4 = (Fips.sha256 b).take 4) ∧
      (sha1Int d h junk a = sha1Int d h junk b ↔ (Fips.sha1 a).take 4 = (Fips.sha1 b).take 4)) := by
  have inj : ∀ s s' : List UInt8, some (idItem h s) = some (idItem h s') → s = s' := by
    intro s s' hs
    simp only [Option.some.injEq] at hs
    have h1 := idItem_wire h (plainFmt h) s
    have h2 := idItem_wire h (plainFmt h) s'
    rw [hs, h2] at h1
    simpa [plainFmt] using h1.symm
  constructor
  · have e1 := serializeId_bytes d h junk a none habi henv hd ha.1 ha.2 (by simp)
    have e2 := serializeId_bytes d h junk b none habi henv hd hb.1 hb.2 (by simp)
    simp only [textId, e1, e2]
    exact ⟨fun h => inj _ _ h, fun h => by rw [h]⟩
  · intro la lb
    have la := And.intro ha.2 la
    have lb := And.intro hb.2 lb
    have h1 := sha1_length
    have h2 := sha256_length
    constructor
    · have e1 := serializeId_bytes d h junk (Fips.sha256 a) (some 4) habi henv hd (by intro h; have := h2 a; simp [h] at this)
        (by have := h2 a; omega) (by have := h2 a; intro n hn; cases hn; omega)
      have e2 := serializeId_bytes d h junk (Fips.sha256 b) (some 4) habi henv hd (by intro h; have := h2 b; simp [h] at this)
        (by have := h2 b; omega) (by have := h2 b; intro n hn; cases hn; omega)
      simp only [sha256Int, (C41_sha256 h.order a).1 la, (C41_sha256 h.order b).1 lb, e1, e2]
      exact ⟨fun h => inj _ _ h, fun h => by simp only [Option.elim, h]⟩
    · have e1 := serializeId_bytes d h junk (Fips.sha1 a) (some 4) habi henv hd (by intro h; have := h1 a; simp [h] at this)
        (by have := h1 a; omega) (by have := h1 a; intro n hn; cases hn; omega)
      have e2 := serializeId_bytes d h junk (Fips.sha1 b) (some 4) habi henv hd (by intro h; have := h1 b; simp [h] at this)
        (by have := h1 b; omega) (by have := h1 b; intro n hn; cases hn; omega)
      simp only [sha1Int, (C40_sha1 h.order a).1 la, (C40_sha1 h.order b).1 lb, e1, e2]
      exact ⟨fun h => inj _ _ h, fun h => by simp only [Option.elim, h]⟩

/-! ## The hypotheses are met -/

/-- Hosts of both byte orders. -/
def idHost (o : Endian) : Host := ⟨o, 2 ^ 40, Checks.so, fun _ => .bool, fun _ _ _ => false⟩

example : AbiOk (idHost .little).sizeof ∧ EnvGood (cfgOf (idHost .little) false []) ∧
    AbiOk (idHost .big).sizeof ∧ EnvGood (cfgOf (idHost .big) false []) :=
  ⟨so_abi, fun _ => ⟨rfl, rfl⟩, so_abi, fun _ => ⟨rfl, rfl⟩⟩

/-- The ids of "abc" and of some texts on both hosts. -/
theorem ex_ids (o : Endian) :
    (Fips.sha256 [97, 98, 99]).take 4 = [0xba, 0x78, 0x16, 0xbf] ∧
    sha256Int 6 (idHost o) (fun _ => 0) [97, 98, 99] =
      some (.scalar .int 4, .num (match o with | .little => 0xbf1678ba | .big => 0xba7816bf)) ∧
    textId 6 (idHost o) (fun _ => 0) [97, 98, 99, 100] =
      some (.scalar .int 4, .num (match o with | .little => 0x64636261 | .big => 0x61626364)) ∧
    textId 6 (idHost o) (fun _ => 0) [97, 98, 99, 100, 101] =
      some (.array 5 (.scalar .byte 1), .list [.num 97, .num 98, .num 99, .num 100, .num 101]) := by
  have h4 : (Fips.sha256 [97, 98, 99]).take 4 = [0xba, 0x78, 0x16, 0xbf] := by
    have h1 : (sha256 .little [97, 98, 99]).map (List.take 4) = some [0xba, 0x78, 0x16, 0xbf] := by decide +kernel
    rw [(C41_sha256 .little _).1 ⟨by simp, by simp⟩] at h1
    exact Option.some.inj h1
  have hl := sha256_length [97, 98, 99]
  have ser := fun bs m => serializeId_bytes 6 (idHost o) (fun _ => 0) bs m so_abi (fun _ => ⟨rfl, rfl⟩) (by decide)
  refine ⟨h4, ?_, ?_, ?_⟩
  · rw [sha256Int, (C41_sha256 _ _).1 ⟨by simp, by simp⟩]
    dsimp only
    rw [ser _ (some 4) (by intro h; simp [h] at hl) (by omega) (by intro n hn; cases hn; omega)]
    simp only [Option.elim, h4]
    cases o <;> simp [idItem, idHost, hostNat, leNat]
  · rw [textId, ser _ none (by simp) (by simp) (by simp)]
    cases o <;> simp [idItem, idHost, hostNat, leNat]
  · rw [textId, ser _ none (by simp) (by simp) (by simp)]
    simp [idItem]

/-- C83: what follows for calls between hosts. Client and server bind the same function to `"abc"_sha256_int` and both use
`endian::big`. The client's host is little endian, the server's big endian: the server does not know the function. With
archives of the hosts' own byte order it would (the id, not the arguments, is then understood). -/
theorem C83_rpc_between_hosts :
    let client := cfgOf (idHost .little) true [.endian .big]
    let server := cfgOf (idHost .big) true [.endian .big]
    ∃ idc ids : Ty × Val, sha256Int 6 (idHost .little) (fun _ => 0) [97, 98, 99] = some idc ∧
      sha256Int 6 (idHost .big) (fun _ => 0) [97, 98, 99] = some ids ∧
      ∃ request, (outCall 6 client false (requestItems true idc.1 idc.2 [] []) ⟨[], 0⟩) = (.ok, request) ∧
        request.data = [0xbf, 0x16, 0x78, 0xba] ∧
        (serve 6 server false ids.1 [.bind ids.2 [] (Body.void fun w _ => w + 1)] 0 request.data 0 ⟨[], 0⟩).s =
          .err .notSupported ∧
        (serve 6 server false ids.1 [.bind ids.2 [] (Body.void fun w _ => w + 1)] 0 [0xba, 0x78, 0x16, 0xbf] 0 ⟨[], 0⟩).w = 1 := by
  refine ⟨(.scalar .int 4, .num 0xbf1678ba), (.scalar .int 4, .num 0xba7816bf), (ex_ids .little).2.1, (ex_ids .big).2.1,
    ⟨[0xbf, 0x16, 0x78, 0xba], 4⟩, by decide +kernel, rfl, by decide +kernel, by decide +kernel⟩

end Zpp.Props
