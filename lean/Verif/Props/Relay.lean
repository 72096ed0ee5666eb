import Verif.Proof.Relay
import Verif.Props.RoundTrip2
import Verif.Props.Objects
import Verif.Props.Reread
/-!
# Properties of archives: messages from elsewhere are passed on
-/

namespace Zpp.Props
open Zpp Zpp.Spec

/-- The body of a message that is a valid object. -/
theorem relay_body {c : Cfg} {W : Nat} (habi : AbiOk c.sizeof) (henv : EnvGood c) (hnar : ∀ i, narrow c.sizeof W (c.env i) = true)
    (hW : 1 ≤ W) {sz : Option SizeTy} {ok : Bool} {maps : List (Nat × Nat)} {nums : List (Option Nat)} {fs : List Ty} {v : Val}
    (ho : Object c.env c.keyLt (.msg sz ok maps nums fs) v) (hg : Good c (.msg sz ok maps nums fs) = true)
    (hb : Bools c.env (.msg sz ok maps nums fs) v) (hn : narrow c.sizeof W (.msg sz ok maps nums fs) = true)
    (hr : Roomy c.g W (cells v)) :
    ∃ vs bs, v = .list vs ∧ pbFields c.env maps 0 nums fs vs = some bs ∧ bs.length ≤ (W + 30) * cells v ∧
      LoadablePb (insideMsg c) fs vs := by
  cases ho with
  | msg h =>
    rename_i vs
    simp only [Good, nodeOk, Bool.and_eq_true] at hg
    simp only [Bools] at hb
    simp only [narrow] at hn
    simp only [cells] at hr ⊢
    obtain ⟨bs, h1, h2, h3⟩ := body_exists (c := insideMsg c) (W := W) rfl habi (fun i => (henv i).2) hnar hW (cellsL vs) maps 0 nums fs vs
      (Nat.le_refl _) h hb hn hg.1.1.1.1 hg.2 (hr.le (by omega))
    refine ⟨vs, bs, rfl, h1, ?_, h3⟩
    rw [Nat.mul_add]
    omega

/-- Messages that are valid objects have encodings and can be read back. -/
theorem relay_items {c : Cfg} {W : Nat} (habi : AbiOk c.sizeof) (henv : EnvGood c) (hnar : ∀ i, narrow c.sizeof W (c.env i) = true)
    (hW : 1 ≤ W) : ∀ items : List (Ty × Val), (∀ x ∈ items, Object c.env c.keyLt x.1 x.2 ∧ Sendable c W x.1 x.2) →
    (∃ bs, wireItems (fmtOf c) items = some bs) ∧ ∀ x ∈ items, Loadable c x.1 x.2
  | [], _ => ⟨⟨[], rfl⟩, by simp⟩
  | (t, v) :: rest, h => by
    obtain ⟨⟨bs, hbs⟩, hl⟩ := relay_items habi henv hnar hW rest fun x hx => h x (by simp [hx])
    obtain ⟨ho, hs⟩ := h (t, v) (by simp)
    have hpre := hs.pre
    dsimp only at ho hs hpre
    have key : ∃ a, wire (fmtOf c) t v = some a ∧ Loadable c t v := by
      cases t with
      | msg sz ok maps nums fs =>
        obtain ⟨vs, body, rfl, h1, h2, h3⟩ := relay_body habi henv hnar hW ho hs.good hs.bools hs.narrow hs.room
        have hlen := hs.room.len
        simp only [prefixRoom] at hpre
        have hp : ∃ b, msgPrefix (fmtOf c) (sz.getD c.dsz) body.length = some b := by
          generalize sz.getD c.dsz = e at hpre ⊢
          cases e with
          | fixed k => exact ⟨_, by simp only [msgPrefix, sizePrefix]; rw [if_pos (by simp only at hpre; omega)]⟩
          | varint => exact ⟨_, by simp only [msgPrefix]; rw [if_pos (by omega)]⟩
          | none => exact hpre.elim
        obtain ⟨b, hb⟩ := hp
        refine ⟨b ++ body, ?_, ?_⟩
        · simp only [wire]
          rw [show (fmtOf c).env = c.env from rfl, h1, show (fmtOf c).dsz = c.dsz from rfl]
          simp only [hb, cat]
        · simp only [Loadable]
          refine ⟨?_, h3⟩
          intro e
          rw [e] at hpre
          exact hpre
      | _ => exact hpre.elim
    obtain ⟨a, ha, hla⟩ := key
    refine ⟨⟨a ++ bs, by simp only [wireItems, ha, hbs, cat]⟩, ?_⟩
    intro x hx
    rcases List.mem_cons.mp hx with rfl | hx
    · exact hla
    · exact hl x hx

theorem objects_zip {env : Nat → Ty} {lt : Ty → Val → Val → Bool} : ∀ {ts : List Ty} {vs : List Val}, Objects env lt ts vs →
    ts.length = vs.length ∧ ∀ x ∈ ts.zip vs, Object env lt x.1 x.2
  | [], _, h => by cases h; simp
  | t :: ts, _, h => by
    cases h with
    | cons h hs =>
      obtain ⟨h1, h2⟩ := objects_zip hs
      refine ⟨by simp [h1], ?_⟩
      intro x hx
      rcases List.mem_cons.mp hx with rfl | hx
      · exact h
      · exact h2 x hx

/-- C84. Whatever bytes protobuf messages were read from, written by this library or not, and whatever the outcome: the
objects have an encoding, and it is a normal form, in that reading it, anywhere in an input and into any destinations,
succeeds and gives the same objects. -/
theorem C84_normal (R S L W : Nat) (rank layer : Nat → Nat) (d d' : Nat) (c : Cfg) (data : List UInt8) (items : List (Ty × Val)) (p : Nat)
    (ha : AbiOk c.sizeof) (hgenv : EnvGood c) (henv : ∀ i, widthsOk (c.env i) = true) (hfenv : ∀ i, formed (c.env i) = true)
    (hnar : ∀ i, narrow c.sizeof W (c.env i) = true) (hW : 1 ≤ W)
    (hlt : ∀ key, WeakOrder (c.keyLt key)) (hcc : CyclesCost c R S rank) (hL : Layered c.env L layer)
    (hw : ∀ it ∈ items, widthsOk it.1 = true) (hf : ∀ it ∈ items, formed it.1 = true) (hp : p ≤ data.length)
    (hd : heightL (items.map Prod.fst) + (S + 1) * R * (data.length - p + 1) + (S + 1) * L ≤ d)
    (ho : ∀ it ∈ items, Object c.env c.keyLt it.1 it.2)
    (hs : ∀ x ∈ (items.map Prod.fst).zip (decMany d c data items p).vs, Sendable c W x.1 x.2) :
    let vs := (decMany d c data items p).vs
    ∃ bs, wireItems (fmtOf c) ((items.map Prod.fst).zip vs) = some bs ∧
      ∀ (pre rest : List UInt8) (ds : List (Ty × Val)), (pre ++ bs ++ rest).length < 2 ^ 64 →
        StackOk d' ((items.map Prod.fst).zip vs) → ds.map Prod.fst = items.map Prod.fst →
        decMany d' c (pre ++ bs ++ rest) ds pre.length = ⟨.ok, vs, pre.length + bs.length⟩ := by
  intro vs
  have hobj := C76_valid R S L rank layer d c data items ha henv hfenv hlt hcc hL p hw hf hp hd ho
  obtain ⟨hl, hz⟩ := objects_zip hobj
  obtain ⟨⟨bs, hbs⟩, hload⟩ := relay_items ha hgenv hnar hW _ fun x hx => ⟨hz x hx, hs x hx⟩
  refine ⟨bs, hbs, ?_⟩
  intro pre rest ds hlen hst hds
  have := C10_read_encoding d' c _ ds pre bs rest hlen hbs ⟨ha, hgenv, fun x hx => (hs x hx).good, hload⟩ hst
    (by rw [List.map_fst_zip (by omega)]; exact hds)
  rw [List.map_snd_zip (by omega)] at this
  exact this

/-- C84, with the archives themselves: what was read from arbitrary bytes (successfully or not) and then written by a
successful call is read back as the same objects. -/
theorem C84_resave (R S L W : Nat) (rank layer : Nat → Nat) (d d1 d2 : Nat) (c co : Cfg) (noFit : Bool) (data : List UInt8)
    (items ds : List (Ty × Val)) (p : Nat) (st st' : OutSt)
    (ha : AbiOk c.sizeof) (hgenv : EnvGood c) (henv : ∀ i, widthsOk (c.env i) = true) (hfenv : ∀ i, formed (c.env i) = true)
    (hnar : ∀ i, narrow c.sizeof W (c.env i) = true) (hW : 1 ≤ W)
    (hlt : ∀ key, WeakOrder (c.keyLt key)) (hcc : CyclesCost c R S rank) (hL : Layered c.env L layer)
    (hw : ∀ it ∈ items, widthsOk it.1 = true) (hf : ∀ it ∈ items, formed it.1 = true) (hp : p ≤ data.length)
    (hd : heightL (items.map Prod.fst) + (S + 1) * R * (data.length - p + 1) + (S + 1) * L ≤ d)
    (ho : ∀ it ∈ items, Object c.env c.keyLt it.1 it.2)
    (hs : ∀ x ∈ (items.map Prod.fst).zip (decMany d c data items p).vs, Sendable c W x.1 x.2) :
    let vs := (decMany d c data items p).vs
    let out := (items.map Prod.fst).zip vs
    fmtOf c = fmtOf co → st.pos ≤ st.data.length → st.data.length < 2 ^ 63 → Supported co out → StackOk d1 out → StackOk d2 out →
    BitsOk out st → (∀ bs, wireItems (fmtOf co) out = some bs → bs.length < 2 ^ 63) → outCall d1 co noFit out st = (.ok, st') →
    ds.map Prod.fst = items.map Prod.fst →
    decMany d2 c st'.data ds st.pos = ⟨.ok, vs, st'.pos⟩ := by
  intro vs out hfm hpos hst hsup h1 h2 hbits hl hok hds
  have hobj := C76_valid R S L rank layer d c data items ha henv hfenv hlt hcc hL p hw hf hp hd ho
  obtain ⟨hlz, hz⟩ := objects_zip hobj
  obtain ⟨⟨bs, hbs⟩, hload⟩ := relay_items ha hgenv hnar hW _ fun x hx => ⟨hz x hx, hs x hx⟩
  have := C10_round_trip d1 d2 co c noFit out ds st st' bs hfm hpos hst hsup h1 hbits (by rw [← hfm]; exact hbs)
    (hl bs (by rw [← hfm]; exact hbs)) hok
    ⟨ha, hgenv, fun x hx => (hs x hx).good, hload⟩ h2 (by rw [List.map_fst_zip (Nat.le_of_eq hlz)]; exact hds)
  rw [List.map_snd_zip (Nat.le_of_eq hlz.symm)] at this
  exact this

/-- C84, a message without size prefix (`no_size`), which extends to the end of the input. -/
theorem C84_unsized (R S L W : Nat) (rank layer : Nat → Nat) (d d' : Nat) (c : Cfg) (data : List UInt8) (sz : Option SizeTy) (ok : Bool)
    (maps : List (Nat × Nat)) (nums : List (Option Nat)) (fs : List Ty) (old : Val) (p : Nat)
    (ha : AbiOk c.sizeof) (hgenv : EnvGood c) (henv : ∀ i, widthsOk (c.env i) = true) (hfenv : ∀ i, formed (c.env i) = true)
    (hnar : ∀ i, narrow c.sizeof W (c.env i) = true) (hW : 1 ≤ W)
    (hlt : ∀ key, WeakOrder (c.keyLt key)) (hcc : CyclesCost c R S rank) (hL : Layered c.env L layer)
    (hsz : sz.getD c.dsz = .none) (hp : p ≤ data.length) :
    let t := Ty.msg sz ok maps nums fs
    let v := (decode d c t old data p).v
    widthsOk t = true → formed t = true → height t + (S + 1) * R * (data.length - p + 1) + (S + 1) * L ≤ d →
    Object c.env c.keyLt t old → Good c t = true → Bools c.env t v → narrow c.sizeof W t = true → Roomy c.g W (cells v) →
    2 * depth v ≤ d' →
    ∃ bs, wire (fmtOf c) t v = some bs ∧
      ∀ (pre : List UInt8) (old' : Val), (pre ++ bs).length < 2 ^ 64 →
        decode d' c t old' (pre ++ bs) pre.length = ⟨.ok, v, pre.length + bs.length⟩ := by
  intro t v hw hf hd ho hg hb hn hr hdep
  rw [Nat.mul_add, Nat.mul_one] at hd
  have hobj := decode_object d c t old data p R ha henv hfenv hlt hcc hL hw hf hp (fun j _ => hcc.below j) (Nat.le_refl _)
    (by unfold budget; omega) ho
  obtain ⟨vs, bs, e, h1, h2, h3⟩ := relay_body ha hgenv hnar hW hobj hg hb hn hr
  have hwire : wire (fmtOf c) t (.list vs) = some bs := by
    simp only [t, wire]
    rw [show (fmtOf c).env = c.env from rfl, h1, show (fmtOf c).dsz = c.dsz from rfl]
    simp only [hsz, msgPrefix, sizePrefix, cat, List.nil_append]
  rw [show v = .list vs from e] at hdep ⊢
  refine ⟨bs, hwire, ?_⟩
  intro pre old' hlen
  have := msg_unsized_rd d' c ha hgenv hsz hg hwire h3 (by omega) old' (data := pre ++ bs) hlen (p := pre.length) (by simp) (by simp)
  rw [this]

/-- C84: without an allocation limit only. Under a limit of four bytes two numbers are read from two records, one each, but
not from the one record they are written to. -/
theorem C84_limit_refuses :
    let c := Checks.le { Checks.grow with limit := 4 } .varint
    let t := Checks.msg [.seq .vector none Checks.i32]
    let v : Val := .list [.list [.num 1, .num 2]]
    decMany 20 c [10, 0x0d, 1, 0, 0, 0, 0x0d, 2, 0, 0, 0] [(t, .list [.list []])] 0 = ⟨.ok, [v], 11⟩ ∧
    wireItems (fmtOf c) [(t, v)] = some [10, 0x0a, 8, 1, 0, 0, 0, 2, 0, 0, 0] ∧
    (decMany 20 c [10, 0x0a, 8, 1, 0, 0, 0, 2, 0, 0, 0] [(t, .list [.list []])] 0).s = .err .messageSize := by decide +kernel

/-! ## The hypotheses are met -/

/-- `struct tree { vint32_t value; std::vector<tree> children; std::vector<vint32_t> path; using serialize = pb_protocol; };` -/
def relayTy : Ty := .msg none false [] [none, none, none] [Checks.vint32, .seq .vector none (.ref 0), .seq .vector none Checks.vint32]
def relayCfg : Cfg :=
  { Checks.le Checks.grow .varint with env := fun _ => relayTy, keyLt := fun _ a b => decide (keyRank a < keyRank b) }
/-- Records in no particular order: a part of the path, a child with an overlong number, a number, more of the path, and the
number again. -/
def relayOdd : List UInt8 := [15, 0x1a, 1, 5, 0x12, 3, 8, 0x81, 0, 8, 9, 0x1a, 1, 6, 8, 7]
def relayRead : Val := .list [.num 7, .list [.list [.num 1, .list [], .list []]], .list [.num 5, .num 6]]
def relayOld : Val := .list [.num 3, .list [], .list [.num 1]]

-- Read, written in eleven bytes, and read again.
example : decMany 60 relayCfg relayOdd [(relayTy, relayOld)] 0 = ⟨.ok, [relayRead], 16⟩ ∧
    wireItems (fmtOf relayCfg) [(relayTy, relayRead)] = some [10, 8, 7, 0x12, 2, 8, 1, 0x1a, 2, 5, 6] ∧
    decMany 60 relayCfg [10, 8, 7, 0x12, 2, 8, 1, 0x1a, 2, 5, 6] [(relayTy, relayOld)] 0 = ⟨.ok, [relayRead], 11⟩ := by decide +kernel

-- A damaged message: what it left in the destination can be passed on as well.
example : decMany 60 relayCfg [5, 8, 9, 0x1a, 2, 6] [(relayTy, relayOld)] 0 =
    ⟨.err .resultOutOfRange, [.list [.num 9, .list [], .list [.num 6]]], 6⟩ := by decide +kernel

theorem relaySendable : Sendable relayCfg 8 relayTy relayRead where
  good := by decide +kernel
  bools := by simp [relayTy, relayRead, Bools, BoolsF, BoolsL, relayCfg, Checks.vint32]
  narrow := by decide +kernel
  room := ⟨by decide +kernel, by decide +kernel, rfl⟩
  pre := by simp [relayTy, prefixRoom, relayCfg, Checks.le]

example : ∃ bs, wireItems (fmtOf relayCfg) [(relayTy, relayRead)] = some bs ∧
    ∀ (pre rest : List UInt8) (ds : List (Ty × Val)), (pre ++ bs ++ rest).length < 2 ^ 64 →
      StackOk 20 [(relayTy, relayRead)] → ds.map Prod.fst = [relayTy] →
      decMany 20 relayCfg (pre ++ bs ++ rest) ds pre.length = ⟨.ok, [relayRead], pre.length + bs.length⟩ := by
  have hr : decMany 300 relayCfg relayOdd [(relayTy, relayOld)] 0 = ⟨.ok, [relayRead], 16⟩ := by decide +kernel
  have := C84_normal 1 5 1 8 (fun _ => 0) (fun _ => 0) 300 20 relayCfg relayOdd [(relayTy, relayOld)] 0 so_abi
    (fun _ => (by decide +kernel : Good relayCfg relayTy = true ∧ Good (insideMsg relayCfg) relayTy = true))
    (fun _ => (by decide +kernel : widthsOk relayTy = true)) (fun _ => (by decide +kernel : formed relayTy = true))
    (fun _ => (by decide +kernel : narrow relayCfg.sizeof 8 relayTy = true)) (by omega)
    (fun _ => ⟨by intro a b; simp [relayCfg]; omega, by intro a b c; simp [relayCfg]; omega⟩)
    ⟨fun _ => by decide, fun _ => (by decide +kernel : height relayTy ≤ 5),
      by intro i j hj; simp [relayCfg, relayTy, Checks.le, freeRefs] at hj,
      by intro i j hj; simp [relayCfg, relayTy, Checks.le, freeRefs] at hj⟩
    ⟨fun _ => by decide, fun i j hj => by simp [relayCfg, relayTy, stored, storedL, Checks.vint32] at hj⟩
    (by intro it hit; rcases List.mem_singleton.mp hit with rfl; decide +kernel)
    (by intro it hit; rcases List.mem_singleton.mp hit with rfl; decide +kernel)
    (by decide) (by decide +kernel)
    (by
      intro it hit
      rcases List.mem_singleton.mp hit with rfl
      exact .msg (.cons (.varint (by decide)) (.cons (.seq (by simp)) (.cons (.seq (by
        intro v hv; rcases List.mem_singleton.mp hv with rfl; exact .varint (by decide))) .nil))))
    (by
      rw [hr]
      intro x hx
      rcases List.mem_singleton.mp hx with rfl
      exact relaySendable)
  rw [hr] at this
  exact this

end Zpp.Props
