import Verif.Spec.Lossy
import Verif.Proof.Indexed
import Verif.Proof.ServePieces
import Verif.Checks
/-!
# C124: remote calls over a connection that loses, repeats and reorders messages
-/

namespace Zpp.Props
open Spec

/-- Objects that one side writes into a buffer of their own, with a number of 8 bytes in front, and the other side reads. -/
structure Sendable (dw : Nat) (cw : Cfg) (dr : Nat) (cr : Cfg) (items : List (Ty × Val)) : Prop where
  sup : Supported cw items
  stack : StackOk dw items
  read : Readable cr items
  stackR : StackOk dr items
  wire : ∃ b, wireItems (fmtOf cw) items = some b ∧ 8 + b.length < 2 ^ 63 ∧ LimitRoom cw.g (8 + b.length) ∧ MemRoom cw.g (8 + b.length)

/-- The world after `k` requests, called directly. -/
def worldAt {σ : Type} (P : LossyProg σ) (w : σ) (k : Nat) : σ := (callAll (boundFns P.bindings) (P.reqs.take k) w).2.1

/-- The reply to a request in world `w`, called directly. -/
def replyTo {σ : Type} (P : LossyProg σ) (w : σ) (r : Nat × List Val) : List (Ty × Val) :=
  match boundFns P.bindings r.1 with
  | some fn => (calledOnce fn.body w r.2).2.2
  | none => []

/-- What the program needs: different ids, functions that exist, the same format on both sides, growing buffers, and requests and replies that can be written and read. -/
structure LossyOk {σ : Type} (P : LossyProg σ) (w : σ) : Prop where
  ids : nodup (P.bindings.map Binding.id) = true
  asks : Asks (boundFns P.bindings) P.reqs
  fmt : fmtOf P.cs = fmtOf P.cc
  growC : P.cc.g.resizable = true
  growS : P.cs.g.resizable = true
  many : P.reqs.length < 2 ^ 63
  stackC : 2 ≤ P.dc
  supS : Supported P.cs []
  readC : Readable P.cc []
  readS : Readable P.cs []
  stackS : 3 ≤ P.ds
  requests : ∀ r ∈ P.reqs, Sendable P.dc P.cc P.ds P.cs (P.request r) ∧ Receivable (P.ds - 1) P.cs [P.request r]
  replies : ∀ (k : Nat) (r : Nat × List Val), P.reqs[k]? = some r → Sendable P.ds P.cs P.dc P.cc (replyTo P (worldAt P w k) r)

theorem numbered_good (c : Cfg) (n : Nat) {items : List (Ty × Val)} (h : ∀ x ∈ items, Good c x.1 = true) : ∀ x ∈ numbered n items, Good c x.1 = true := by
  intro x hx
  rcases List.mem_cons.1 hx with rfl | hx
  · simp [Good, nodeOk, scalarOk]
  · exact h x hx

theorem numbered_stack {d : Nat} (hd : 2 ≤ d) (n : Nat) {items : List (Ty × Val)} (h : StackOk d items) : StackOk d (numbered n items) := by
  intro x hx
  rcases List.mem_cons.1 hx with rfl | hx
  · simp only [depth]; omega
  · exact h x hx

theorem numbered_wire {f : Fmt} {n : Nat} (hn : n < 2 ^ 63) {items : List (Ty × Val)} {b : List UInt8} (h : wireItems f items = some b) :
    wireItems f (numbered n items) = some (digits f.order 8 n ++ b) := by
  have h8 := pos_wire f n hn
  simp only [numbered, wireItems] at h8 ⊢
  cases hw : wire f posTy (.num n) with
  | none => rw [hw] at h8; exact nomatch h8
  | some a =>
    rw [hw] at h8
    simp only [cat, List.append_nil, Option.some.injEq] at h8
    subst h8
    simp only [h, cat]

/-- The number is read. -/
theorem read_number {d : Nat} {c : Cfg} (hd : 2 ≤ d) (hr : Readable c []) {n : Nat} (hn : n < 2 ^ 63) (b : List UInt8) (hl : 8 + b.length < 2 ^ 63) :
    decMany d c (digits (fmtOf c).order 8 n ++ b) [(posTy, .num 0)] 0 = ⟨.ok, [.num n], 8⟩ := by
  have h := C10_read_encoding d c [(posTy, .num n)] [(posTy, .num 0)] [] (digits (fmtOf c).order 8 n) b
    (by simp only [List.nil_append, List.length_append, digits_length]; omega) (pos_wire _ n hn)
    ⟨hr.abi, hr.env, numbered_good c n (items := []) (by simp), by
      intro x hx
      rw [List.mem_singleton.1 hx]
      simp [Loadable]⟩
    (numbered_stack hd n (items := []) (by intro x hx; simp at hx)) rfl
  simpa [digits_length] using h

section
variable {σ : Type} {P : LossyProg σ} {w : σ}

/-- The bytes of a request. -/
def reqBytes (P : LossyProg σ) (k : Nat) (r : Nat × List Val) : List UInt8 :=
  digits (fmtOf P.cc).order 8 k ++ (wireItems (fmtOf P.cc) (P.request r)).getD []

/-- The bytes of a reply. -/
def repBytes (P : LossyProg σ) (w : σ) (k : Nat) (r : Nat × List Val) : List UInt8 :=
  digits (fmtOf P.cc).order 8 k ++ (wireItems (fmtOf P.cc) (replyTo P (worldAt P w k) r)).getD []

theorem worldAt_succ (h : LossyOk P w) {k : Nat} {r : Nat × List Val} {fn : Fn σ} (hr : P.reqs[k]? = some r) (hf : boundFns P.bindings r.1 = some fn) :
    worldAt P w (k + 1) = (calledOnce fn.body (worldAt P w k) r.2).2.1 ∧
    (callAll (boundFns P.bindings) (P.reqs.take (k + 1)) w).1 =
      (callAll (boundFns P.bindings) (P.reqs.take k) w).1 ++ [(calledOnce fn.body (worldAt P w k) r.2).1] := by
  have e : P.reqs.take (k + 1) = P.reqs.take k ++ [r] := by
    rw [List.take_add_one, hr]; rfl
  unfold worldAt
  rw [e, callAll_append _ _ _ (h.asks.take k)]
  obtain ⟨i, args⟩ := r
  simp only [callAll, hf]
  exact ⟨trivial, trivial⟩

theorem resultsOf_get {fns : Fns σ} : ∀ (reqs : List (Nat × List Val)) (w : σ), Asks fns reqs → ∀ (k : Nat) (r : Nat × List Val) (fn : Fn σ), reqs[k]? = some r →
    fns r.1 = some fn → (resultsOf fns reqs w)[k]? = some ((calledOnce fn.body (callAll fns (reqs.take k) w).2.1 r.2).2.2.map Prod.snd)
  | [], _, _, k, r, fn, h, _ => by simp at h
  | (i, args) :: rest, w, ha, k, r, fn, h, hf => by
    obtain ⟨fn', hf', -⟩ := ha _ List.mem_cons_self
    simp only at hf'
    cases k with
    | zero =>
      simp only [List.getElem?_cons_zero, Option.some.injEq] at h
      subst h
      simp only at hf
      rw [hf] at hf'
      cases hf'
      simp [resultsOf, hf, callAll]
    | succ k =>
      simp only [List.getElem?_cons_succ] at h
      have := resultsOf_get rest (calledOnce fn'.body w args).2.1 (fun x hx => ha x (List.mem_cons_of_mem _ hx)) k r fn h hf
      simp only [resultsOf, hf', List.getElem?_cons_succ, List.take_succ_cons, callAll]
      exact this

theorem resultsOf_length {fns : Fns σ} : ∀ (reqs : List (Nat × List Val)) (w : σ), Asks fns reqs → (resultsOf fns reqs w).length = reqs.length
  | [], _, _ => rfl
  | (i, args) :: rest, w, ha => by
    obtain ⟨fn', hf', -⟩ := ha _ List.mem_cons_self
    simp only at hf'
    simp only [resultsOf, hf', List.length_cons, resultsOf_length rest _ (fun x hx => ha x (List.mem_cons_of_mem _ hx))]

/-- What holds at any moment. -/
structure LossyInv (P : LossyProg σ) (w : σ) (x : Lossy σ) : Prop where
  le : x.cur ≤ x.next
  le1 : x.next ≤ x.cur + 1
  all : x.next ≤ P.reqs.length
  world : x.world = worldAt P w x.next
  log : x.log = (callAll (boundFns P.bindings) (P.reqs.take x.next) w).1
  got : x.got = (resultsOf (boundFns P.bindings) P.reqs w).take x.cur
  up : ∀ b ∈ x.toServer, ∃ k r, k ≤ x.cur ∧ P.reqs[k]? = some r ∧ b = reqBytes P k r
  down : ∀ b ∈ x.toClient, ∃ k r, k < x.next ∧ P.reqs[k]? = some r ∧ b = repBytes P w k r
  kept : ∀ r, 0 < x.next → P.reqs[x.next - 1]? = some r → x.last = repBytes P w (x.next - 1) r

theorem send_step (h : LossyOk P w) {x : Lossy σ} (hx : LossyInv P w x) : ∃ y, P.sends x = some y ∧ LossyInv P w y ∧
    (∀ r, P.reqs[x.cur]? = some r → y = { x with toServer := x.toServer ++ [reqBytes P x.cur r] }) := by
  unfold LossyProg.sends
  cases hr : P.reqs[x.cur]? with
  | none => exact ⟨x, rfl, hx, fun r e => nomatch e⟩
  | some r =>
    have hlt : x.cur < P.reqs.length := by
      rcases Nat.lt_or_ge x.cur P.reqs.length with h | h
      · exact h
      · rw [List.getElem?_eq_none h] at hr; exact nomatch hr
    have hm := h.many
    obtain ⟨hs, -⟩ := h.requests r (List.mem_of_getElem? hr)
    obtain ⟨b, hw, hl, hlim, hmem⟩ := hs.wire
    obtain ⟨st, e1, t1⟩ := Tidy.step (d := P.dc) (noFit := P.noFit) (pre := []) (st := ⟨[], 0⟩) ⟨rfl, ⟨0, rfl⟩, by simp⟩ h.growC
      ⟨hs.sup.growth, hs.sup.abi, hs.sup.env, numbered_good P.cc x.cur hs.sup.types⟩ (numbered_stack h.stackC x.cur hs.stack)
      (numbered_wire (by omega) hw)
      (by rw [List.length_append, digits_length]; omega)
      (by simp only [List.length_nil, List.length_append, digits_length, Nat.zero_add]; exact hlim)
      (by simp only [List.length_nil, List.length_append, digits_length, Nat.zero_add]; exact hmem)
    have hbytes : st.data.take st.pos = reqBytes P x.cur r := by
      obtain ⟨k, hk⟩ := t1.data
      rw [t1.pos, hk, List.take_left, List.nil_append, reqBytes, hw, Option.getD_some]
    simp only [e1, hbytes]
    refine ⟨_, rfl, ⟨hx.le, hx.le1, hx.all, hx.world, hx.log, hx.got, ?_, hx.down, hx.kept⟩, ?_⟩
    · intro b hb
      rcases List.mem_append.1 hb with hb | hb
      · exact hx.up b hb
      · exact ⟨x.cur, r, Nat.le_refl _, hr, List.mem_singleton.1 hb⟩
    · intro r' e
      cases e
      rfl

theorem serve_step (h : LossyOk P w) {x : Lossy σ} (hx : LossyInv P w x) {b : List UInt8} {k : Nat} {r : Nat × List Val} (hk : k ≤ x.cur)
    (hr : P.reqs[k]? = some r) (hb : b = reqBytes P k r) : ∃ y, P.serves b x = some y ∧ LossyInv P w y ∧
    (k = x.cur → y.cur = x.cur ∧ x.cur < y.next ∧ y.toClient = x.toClient ++ [repBytes P w k r]) := by
  have hlt : k < P.reqs.length := by
    rcases Nat.lt_or_ge k P.reqs.length with h | h
    · exact h
    · rw [List.getElem?_eq_none h] at hr; exact nomatch hr
  have hm := h.many
  obtain ⟨hs, hrec⟩ := h.requests r (List.mem_of_getElem? hr)
  obtain ⟨q, hw, hl, -, -⟩ := hs.wire
  have hbq : b = digits (fmtOf P.cs).order 8 k ++ q := by rw [hb, reqBytes, hw, Option.getD_some, h.fmt]
  unfold LossyProg.serves
  rw [hbq, read_number (by have := h.stackS; omega) h.readS (by omega) q hl]
  simp only
  by_cases hn : k = x.next
  · obtain ⟨fn, hf, hargs⟩ := h.asks r (List.mem_of_getElem? hr)
    have hrep := h.replies k r hr
    obtain ⟨a, hwa, hla, hlim, hmem⟩ := hrep.wire
    obtain ⟨o, e1, t1⟩ := Tidy.step (d := P.ds) (noFit := P.noFit) (pre := []) (st := ⟨[], 0⟩) (items := [(posTy, .num k)]) ⟨rfl, ⟨0, rfl⟩, by simp⟩ h.growS
      ⟨h.supS.growth, h.supS.abi, h.supS.env, numbered_good P.cs k (items := []) (by simp)⟩
      (numbered_stack (by have := h.stackS; omega) k (items := []) (by intro x hx; simp at hx))
      (pos_wire _ k (by omega)) (by rw [digits_length]; omega)
      (limitRoom_le hlim (by simp only [List.length_nil, digits_length]; omega)) (memRoom_le hmem (by simp only [List.length_nil, digits_length]; omega))
    rw [List.nil_append] at t1
    rw [if_pos hn, e1]
    simp only
    -- the call
    obtain ⟨d, hd⟩ : ∃ d, P.ds = d + 1 := ⟨P.ds - 1, by have := h.stackS; omega⟩
    have hask : P.request r = askItems P.idTy fn r.2 := by simp [LossyProg.request, msgItems, hf, askItems]
    have hserve := serve_complete (noFit := P.noFit) h.ids hf hargs (d := d) (c := P.cs) (idTy := P.idTy) (b := q)
      (by rw [← hask]; rw [hd, Nat.add_sub_cancel] at hrec; exact hrec) (by rw [← hask, h.fmt]; exact hw)
      (pre := digits (fmtOf P.cs).order 8 k) (tail := []) (by simp only [List.append_nil, List.length_append, digits_length]; omega) (w := x.world) (o := o)
    rw [List.append_nil, digits_length, ← hd] at hserve
    rw [hserve]
    have hrw : replyTo P (worldAt P w k) r = (calledOnce fn.body x.world r.2).2.2 := by
      simp only [replyTo, hf, hx.world, hn]
    have hrepl : ∃ o', replied P.ds P.cs P.noFit fn.body x.world r.2 (8 + q.length) o =
        ⟨(calledOnce fn.body x.world r.2).1, (calledOnce fn.body x.world r.2).2.1, 8 + q.length, o'⟩ ∧ o'.data.take o'.pos = repBytes P w k r := by
      have hsup := hrep.sup
      have hst := hrep.stack
      rw [hrw] at hwa hsup hst
      rw [repBytes, hrw, ← h.fmt, hwa, Option.getD_some]
      have hempty : ∀ a, wireItems (fmtOf P.cs) [] = some a → o.data.take o.pos = digits (fmtOf P.cs).order 8 k ++ a := by
        intro a e
        cases e
        obtain ⟨m, hm⟩ := t1.data
        rw [t1.pos, hm, List.take_left, List.append_nil]
      cases hbody : fn.body with
      | void f =>
        rw [hbody] at hwa
        exact ⟨o, rfl, hempty a hwa⟩
      | errc f =>
        rw [hbody] at hwa
        simp only [calledOnce] at hwa
        simp only [replied, calledOnce]
        generalize f x.world r.2 = z at *
        obtain ⟨e, w'⟩ := z
        cases e <;> exact ⟨o, rfl, hempty a hwa⟩
      | value t f =>
        rw [hbody] at hwa hsup hst
        simp only [calledOnce] at hwa hsup hst
        obtain ⟨o', e2, t2⟩ := t1.step (d := P.ds) (noFit := P.noFit) h.growS hsup hst hwa (by omega)
          (by rw [digits_length]; exact hlim) (by rw [digits_length]; exact hmem)
        refine ⟨o', by simp only [replied, calledOnce, e2], ?_⟩
        obtain ⟨m, hm⟩ := t2.data
        rw [t2.pos, hm, List.take_left]
    obtain ⟨o', e2, hbytes⟩ := hrepl
    rw [e2]
    simp only [hbytes]
    obtain ⟨w1, w2⟩ := worldAt_succ h hr hf
    have hxw : x.world = worldAt P w k := by rw [hx.world, hn]
    rw [hxw]
    have hle := hx.le
    refine ⟨_, rfl, ⟨by simp only; omega, by simp only; omega, by simp only; omega, w1.symm, ?_, hx.got, hx.up, ?_, ?_⟩, fun he => ⟨rfl, by simp only; omega, rfl⟩⟩
    · rw [w2, hx.log, hn]
    · intro b' hb'
      rcases List.mem_append.1 hb' with hb' | hb'
      · obtain ⟨k', r', h1, h2, h3⟩ := hx.down b' hb'
        exact ⟨k', r', by simp only; omega, h2, h3⟩
      · exact ⟨k, r, Nat.lt_succ_self _, hr, List.mem_singleton.1 hb'⟩
    · intro r' _ hr'
      simp only [Nat.add_sub_cancel] at hr' ⊢
      rw [hr] at hr'
      cases hr'
      rfl
  · rw [if_neg hn]
    by_cases hn1 : k + 1 = x.next
    · rw [if_pos hn1]
      have hlast := hx.kept r (by omega) (by rw [← hn1, Nat.add_sub_cancel]; exact hr)
      rw [← hn1, Nat.add_sub_cancel] at hlast
      rw [hlast]
      refine ⟨_, rfl, ⟨hx.le, hx.le1, hx.all, hx.world, hx.log, hx.got, hx.up, ?_, ?_⟩, fun he => ⟨rfl, by simp only; omega, rfl⟩⟩
      · intro b' hb'
        rcases List.mem_append.1 hb' with hb' | hb'
        · exact hx.down b' hb'
        · exact ⟨k, r, by simp only; omega, hr, List.mem_singleton.1 hb'⟩
      · rw [← hlast]; exact hx.kept
    · rw [if_neg hn1]
      refine ⟨x, rfl, hx, fun he => ?_⟩
      have := hx.le
      have := hx.le1
      omega

theorem reply_step (h : LossyOk P w) {x : Lossy σ} (hx : LossyInv P w x) {b : List UInt8} {k : Nat} {r : Nat × List Val} (hk : k < x.next)
    (hr : P.reqs[k]? = some r) (hb : b = repBytes P w k r) : ∃ y, P.receives b x = some y ∧ LossyInv P w y ∧ (k = x.cur → y.cur = x.cur + 1) := by
  have hlt : k < P.reqs.length := Nat.lt_of_lt_of_le hk hx.all
  have hm := h.many
  have hrep := h.replies k r hr
  obtain ⟨a, hwa, hla, -, -⟩ := hrep.wire
  rw [h.fmt] at hwa
  have hba : b = digits (fmtOf P.cc).order 8 k ++ a := by rw [hb, repBytes, hwa, Option.getD_some]
  unfold LossyProg.receives
  rw [hba, read_number h.stackC h.readC (by omega) a hla]
  simp only
  by_cases hn : k = x.cur
  · obtain ⟨fn, hf, hargs⟩ := h.asks r (List.mem_of_getElem? hr)
    have hrw : replyTo P (worldAt P w k) r = (calledOnce fn.body (worldAt P w k) r.2).2.2 := by simp only [replyTo, hf]
    have htypes : (P.result k).map Prod.fst = (replyTo P (worldAt P w k) r).map Prod.fst := by
      rw [hrw]
      simp only [LossyProg.result, hr, hf]
      cases fn.body with
      | void f => rfl
      | errc f =>
        simp only [calledOnce]
        generalize f (worldAt P w k) r.2 = z
        obtain ⟨e, w'⟩ := z
        cases e <;> rfl
      | value t f => rfl
    have hread := C10_read_encoding P.dc P.cc (replyTo P (worldAt P w k) r) (P.result k) (digits (fmtOf P.cc).order 8 k) a []
      (by simp only [List.append_nil, List.length_append, digits_length]; omega) hwa hrep.read hrep.stackR htypes
    rw [List.append_nil, digits_length] at hread
    rw [if_pos hn, hread]
    simp only
    have hg := resultsOf_get P.reqs w h.asks k r fn hr hf
    refine ⟨_, rfl, ⟨by simp only; omega, by have := hx.le1; simp only; omega, hx.all, hx.world, hx.log, ?_, ?_, hx.down, hx.kept⟩, fun _ => by simp only [hn]⟩
    · simp only
      rw [List.take_add_one, hg, hx.got, hrw, hn]
      rfl
    · intro b' hb'
      obtain ⟨k', r', h1, h2⟩ := hx.up b' hb'
      exact ⟨k', r', by simp only; omega, h2⟩
  · rw [if_neg hn]
    exact ⟨x, rfl, hx, fun e => absurd e hn⟩

theorem lossy_step (h : LossyOk P w) {x : Lossy σ} (hx : LossyInv P w x) (ev : LossyEv) : ∃ y, P.step ev x = some y ∧ LossyInv P w y := by
  cases ev with
  | send =>
    obtain ⟨y, e, hy, -⟩ := send_step h hx
    exact ⟨y, e, hy⟩
  | toServer i =>
    simp only [LossyProg.step]
    cases hi : x.toServer[i]? with
    | none => exact ⟨x, rfl, hx⟩
    | some b =>
      obtain ⟨k, r, h1, h2, h3⟩ := hx.up b (List.mem_of_getElem? hi)
      obtain ⟨y, e, hy, -⟩ := serve_step h hx h1 h2 h3
      exact ⟨y, e, hy⟩
  | toClient j =>
    simp only [LossyProg.step]
    cases hj : x.toClient[j]? with
    | none => exact ⟨x, rfl, hx⟩
    | some b =>
      obtain ⟨k, r, h1, h2, h3⟩ := hx.down b (List.mem_of_getElem? hj)
      obtain ⟨y, e, hy, -⟩ := reply_step h hx h1 h2 h3
      exact ⟨y, e, hy⟩

theorem lossy_run (h : LossyOk P w) : ∀ (evs : List LossyEv) {x : Lossy σ}, LossyInv P w x → ∃ y, P.run evs x = some y ∧ LossyInv P w y
  | [], x, hx => ⟨x, rfl, hx⟩
  | ev :: evs, x, hx => by
    obtain ⟨y, e, hy⟩ := lossy_step h hx ev
    obtain ⟨z, e', hz⟩ := lossy_run h evs hy
    exact ⟨z, by rw [LossyProg.run, e, Option.bind_some, e'], hz⟩

theorem lossy_start : LossyInv P w (lossyStart w) :=
  ⟨Nat.le_refl _, Nat.zero_le _, Nat.zero_le _, rfl, rfl, rfl, by simp [lossyStart], by simp [lossyStart], fun _ h => absurd h (Nat.lt_irrefl 0)⟩

end

/-- C124. Over a connection that loses, repeats and reorders messages: whatever happens, at any moment the functions have been called for a number of requests `next`, each
once and in order, with the arguments given: the world and what `serve` returned are those of calling them directly. The client has exactly the results of the requests it
has gone past, and the server is never more than one request ahead. -/
theorem C124_once {σ : Type} (P : LossyProg σ) (w : σ) (h : LossyOk P w) (evs : List LossyEv) :
    ∃ x, P.run evs (lossyStart w) = some x ∧ x.cur ≤ x.next ∧ x.next ≤ x.cur + 1 ∧ x.next ≤ P.reqs.length ∧
      x.world = (callAll (boundFns P.bindings) (P.reqs.take x.next) w).2.1 ∧ x.log = (callAll (boundFns P.bindings) (P.reqs.take x.next) w).1 ∧
      x.got = (resultsOf (boundFns P.bindings) P.reqs w).take x.cur := by
  obtain ⟨x, e, hx⟩ := lossy_run h evs lossy_start
  exact ⟨x, e, hx.le, hx.le1, hx.all, hx.world, hx.log, hx.got⟩

theorem lossy_append {σ : Type} (P : LossyProg σ) : ∀ (evs evs' : List LossyEv) (x : Lossy σ), P.run (evs ++ evs') x = (P.run evs x).bind (P.run evs')
  | [], _, _ => rfl
  | ev :: evs, evs', x => by
    simp only [List.cons_append, LossyProg.run]
    cases P.step ev x with
    | none => rfl
    | some y => exact lossy_append P evs evs' y

/-- C124, progress. Whatever happened before: if the client sends its request and this arrives, and the reply to it arrives, the client goes on to the next request. -/
theorem C124_progress {σ : Type} (P : LossyProg σ) (w : σ) (h : LossyOk P w) (evs : List LossyEv) (x : Lossy σ) (hx : P.run evs (lossyStart w) = some x)
    (hcur : x.cur < P.reqs.length) :
    ∃ y, P.run (evs ++ [.send, .toServer x.toServer.length, .toClient x.toClient.length]) (lossyStart w) = some y ∧ y.cur = x.cur + 1 := by
  obtain ⟨x', e, inv⟩ := lossy_run h evs (lossy_start (P := P) (w := w))
  rw [hx] at e
  cases e
  obtain ⟨r, hr⟩ : ∃ r, P.reqs[x.cur]? = some r := ⟨_, List.getElem?_eq_getElem hcur⟩
  obtain ⟨y, e1, i1, hy⟩ := send_step h inv
  have hy := hy r hr
  subst hy
  obtain ⟨z, e2, i2, hz⟩ := serve_step h i1 (k := x.cur) (Nat.le_refl _) hr rfl
  obtain ⟨z1, z2, z3⟩ := hz rfl
  simp only at z1 z2 z3
  obtain ⟨v, e3, -, hv⟩ := reply_step h i2 z2 hr rfl
  refine ⟨v, ?_, by rw [hv z1.symm, z1]⟩
  rw [lossy_append, hx, Option.bind_some]
  simp only [LossyProg.run, LossyProg.step, e1, Option.bind_some]
  rw [List.getElem?_append_right (Nat.le_refl _), Nat.sub_self, List.getElem?_cons_zero]
  simp only [e2, Option.bind_some, z3]
  rw [List.getElem?_append_right (Nat.le_refl _), Nat.sub_self, List.getElem?_cons_zero]
  simp only [e3, Option.bind_some]

/-! ## The hypotheses are met -/

/-- A function with a result (how often functions were called before) and one without. -/
def lossyEx : LossyProg (List (List Val)) :=
  let c := Checks.le Checks.grow (.fixed 1)
  ⟨20, c, 21, c, false, .scalar .int 1,
    [.bind (.num 1) [.scalar .int 2] (.value (.scalar .int 4) fun w a => (.num w.length, w ++ [a])), .bind (.num 2) [] (.void fun w a => w ++ [a])],
    [(0, [.num 5]), (1, []), (0, [.num 6])]⟩

/-- The first request is lost and sent again, arrives twice; its reply arrives twice, late; an old request arrives after newer ones. -/
example :
    (lossyEx.run [.send, .send, .toServer 0, .toServer 1, .toClient 1, .toClient 0, .send, .toServer 0, .toServer 2, .toServer 2, .toClient 3, .send, .toServer 3,
        .toServer 0, .toServer 1] (lossyStart [])).map (fun x => (x.cur, x.next, x.got, x.world)) =
      some (2, 3, [[.num 0], []], [[.num 5], [], [.num 6]]) ∧
    resultsOf (boundFns lossyEx.bindings) lossyEx.reqs [] = [[.num 0], [], [.num 2]] := by decide +kernel

/-- Without numbers a request that is repeated by the connection is executed again. -/
example :
    let c := Checks.le Checks.grow (.fixed 1)
    let once := serve 21 c false lossyEx.idTy lossyEx.bindings [] [1, 5, 0] 0 ⟨[], 0⟩
    (serve 21 c false lossyEx.idTy lossyEx.bindings once.w [1, 5, 0] 0 ⟨[], 0⟩).w = [[.num 5], [.num 5]] := by decide +kernel

theorem lossyEx_ok : LossyOk lossyEx [] := by
  have hsup : ∀ items, (∀ x ∈ items, Good (Checks.le Checks.grow (.fixed 1)) x.1 = true) → Supported (Checks.le Checks.grow (.fixed 1)) items :=
    fun items h => ⟨grow_ok, so_abi, fun _ => ⟨rfl, rfl⟩, h⟩
  have hread : ∀ items, (∀ x ∈ items, Good (Checks.le Checks.grow (.fixed 1)) x.1 = true ∧ Loadable (Checks.le Checks.grow (.fixed 1)) x.1 x.2) →
      Readable (Checks.le Checks.grow (.fixed 1)) items :=
    fun items h => ⟨so_abi, fun _ => ⟨rfl, rfl⟩, fun x hx => (h x hx).1, fun x hx => (h x hx).2⟩
  have hall : ∀ items : List (Ty × Val), (∀ x ∈ items, ∃ n y, 0 < n ∧ x = (.scalar .int n, .num y)) → (∃ b, wireItems (fmtOf (Checks.le Checks.grow (.fixed 1))) items = some b ∧
      b.length < 20) → ∀ d d', 2 ≤ d → 2 ≤ d' → Sendable d (Checks.le Checks.grow (.fixed 1)) d' (Checks.le Checks.grow (.fixed 1)) items ∧
        Receivable d (Checks.le Checks.grow (.fixed 1)) [items] := by
    intro items h ⟨b, hb, hbl⟩ d d' hd hd'
    have hg : ∀ x ∈ items, Good (Checks.le Checks.grow (.fixed 1)) x.1 = true := by
      intro x hx
      obtain ⟨n, y, hn, rfl⟩ := h x hx
      simp [Good, nodeOk, scalarOk, hn]
    have hlo : ∀ x ∈ items, Loadable (Checks.le Checks.grow (.fixed 1)) x.1 x.2 := by
      intro x hx
      obtain ⟨n, y, hn, rfl⟩ := h x hx
      simp [Loadable]
    have hst : ∀ d, 2 ≤ d → StackOk d items := by
      intro d hd x hx
      obtain ⟨n, y, hn, rfl⟩ := h x hx
      simp only [depth]; omega
    refine ⟨⟨hsup _ hg, hst d hd, hread _ fun x hx => ⟨hg x hx, hlo x hx⟩, hst d' hd', b, hb, by omega, ?_, ?_⟩, ⟨?_, ?_, fun _ => ⟨rfl, rfl⟩, ?_⟩⟩
    · exact limitRoom_le (m := 28) (by unfold LimitRoom; decide) (by omega)
    · exact memRoom_le (m := 28) (by unfold MemRoom; decide) (by omega)
    · intro m hm
      rw [List.mem_singleton.1 hm]
      exact hread _ fun x hx => ⟨hg x hx, hlo x hx⟩
    · intro m hm
      rw [List.mem_singleton.1 hm]
      exact hst d hd
    · intro m hm it hit
      rw [List.mem_singleton.1 hm] at hit
      obtain ⟨n, y, hn, rfl⟩ := h it hit
      exact ⟨by simp [widthsOk, hn], by simp [selfDelimiting]⟩
  refine ⟨by decide +kernel, ?_, rfl, rfl, rfl, by decide, by decide, hsup _ (by simp), hread _ (by simp), hread _ (by simp), by decide, ?_, ?_⟩
  · intro r hr
    simp only [lossyEx, List.mem_cons, List.not_mem_nil, or_false] at hr
    rcases hr with rfl | rfl | rfl <;> exact ⟨_, rfl, rfl⟩
  · intro r hr
    simp only [lossyEx, List.mem_cons, List.not_mem_nil, or_false] at hr
    rcases hr with rfl | rfl | rfl
    · exact ⟨(hall [(.scalar .int 1, .num 1), (.scalar .int 2, .num 5)] (by simp) ⟨_, rfl, by decide⟩ 20 21 (by decide) (by decide)).1,
        (hall [(.scalar .int 1, .num 1), (.scalar .int 2, .num 5)] (by simp) ⟨_, rfl, by decide⟩ 20 21 (by decide) (by decide)).2⟩
    · exact ⟨(hall [(.scalar .int 1, .num 2)] (by simp) ⟨_, rfl, by decide⟩ 20 21 (by decide) (by decide)).1,
        (hall [(.scalar .int 1, .num 2)] (by simp) ⟨_, rfl, by decide⟩ 20 21 (by decide) (by decide)).2⟩
    · exact ⟨(hall [(.scalar .int 1, .num 1), (.scalar .int 2, .num 6)] (by simp) ⟨_, rfl, by decide⟩ 20 21 (by decide) (by decide)).1,
        (hall [(.scalar .int 1, .num 1), (.scalar .int 2, .num 6)] (by simp) ⟨_, rfl, by decide⟩ 20 21 (by decide) (by decide)).2⟩
  · intro k r hk
    match k, hk with
    | 0, hk =>
      cases hk
      exact (hall [(.scalar .int 4, .num 0)] (by simp) ⟨_, rfl, by decide⟩ 21 20 (by decide) (by decide)).1
    | 1, hk =>
      cases hk
      exact (hall [] (by simp) ⟨_, rfl, by decide⟩ 21 20 (by decide) (by decide)).1
    | 2, hk =>
      cases hk
      exact (hall [(.scalar .int 4, .num 2)] (by simp) ⟨_, rfl, by decide⟩ 21 20 (by decide) (by decide)).1
    | k + 3, hk => simp [lossyEx] at hk

end Zpp.Props
