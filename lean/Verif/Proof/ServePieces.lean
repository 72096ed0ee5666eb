import Verif.Spec.ServePieces
import Verif.Proof.Rpc
import Verif.Props.Receive
/-! # A server that receives its requests in pieces -/

namespace Zpp
open Spec Props

/-- There is no id in an empty rest. -/
theorem no_id {d : Nat} {c : Cfg} {idTy : Ty} {v0 : Val} {b : List UInt8} (hr : Receivable d c [[(idTy, v0)]])
    (hw : wireItems (fmtOf c) [(idTy, v0)] = some b) (hb : b ≠ []) (hbl : b.length < 2 ^ 63) {pre : List UInt8} (hlen : pre.length < 2 ^ 63)
    (v : Val) : (decMany (d + 1) c pre [(idTy, v)] pre.length).s = .err .resultOutOfRange := by
  have h := C14_encoding_truncated (d + 1) c [(idTy, v0)] [(idTy, v)] pre b 0 (by rw [List.length_append]; omega) hw (hr.read _ (by simp)) hr.env
    (hr.types _ (by simp)) ((hr.stack _ (by simp)).of_le (Nat.le_succ _)) rfl (List.length_pos_iff.mpr hb)
  simpa using h

theorem serve_refused {σ : Type} {d : Nat} {c : Cfg} {noFit : Bool} {idTy : Ty} {bindings : List (Binding σ)} {w : σ} {data : List UInt8} {p : Nat}
    {o : OutSt} (h : (decMany d c data [(idTy, dflt c d idTy)] p).s = .err .resultOutOfRange) :
    ∃ p', serve d c noFit idTy bindings w data p o = ⟨.err .resultOutOfRange, w, p', o⟩ := by
  unfold serve
  generalize decMany d c data [(idTy, dflt c d idTy)] p = r at h
  obtain ⟨s, vs, p'⟩ := r
  simp only at h
  subst h
  exact ⟨p', rfl⟩

/-- The objects of a request. -/
abbrev askItems {σ : Type} (idTy : Ty) (fn : Fn σ) (args : List Val) : List (Ty × Val) := (idTy, fn.id) :: fn.params.zip args

theorem ask_split {d : Nat} {c : Cfg} {it : Ty × Val} {items : List (Ty × Val)} (hr : Receivable d c [it :: items]) :
    Receivable d c [[it]] ∧ Receivable d c [items] := by
  have h1 := hr.read _ List.mem_cons_self
  have h2 := hr.stack _ List.mem_cons_self
  have h3 := hr.types _ List.mem_cons_self
  constructor
  · refine ⟨?_, ?_, hr.env, ?_⟩ <;> intro m hm <;> simp only [List.mem_singleton] at hm <;> subst hm
    · refine ⟨h1.abi, h1.env, ?_, ?_⟩ <;> intro x hx <;> simp only [List.mem_singleton] at hx <;> subst hx
      · exact h1.types _ List.mem_cons_self
      · exact h1.load _ List.mem_cons_self
    · intro x hx
      simp only [List.mem_singleton] at hx
      subst hx
      exact h2 _ List.mem_cons_self
    · intro x hx
      simp only [List.mem_singleton] at hx
      subst hx
      exact h3 _ List.mem_cons_self
  · refine ⟨?_, ?_, hr.env, ?_⟩ <;> intro m hm <;> simp only [List.mem_singleton] at hm <;> subst hm
    · exact ⟨h1.abi, h1.env, fun x hx => h1.types x (List.mem_cons_of_mem _ hx), fun x hx => h1.load x (List.mem_cons_of_mem _ hx)⟩
    · exact fun x hx => h2 x (List.mem_cons_of_mem _ hx)
    · exact fun x hx => h3 x (List.mem_cons_of_mem _ hx)

theorem boundFns_nth {σ : Type} {bindings : List (Binding σ)} {i : Nat} {fn : Fn σ} (h : boundFns bindings i = some fn) :
    bindings[i]? = some (.bind fn.id fn.params fn.body) ∧ fn.opaq = false := by
  unfold boundFns at h
  split at h
  · rename_i he
    cases h
    exact ⟨he, rfl⟩
  · cases h

/-- A complete request is served. -/
theorem serve_complete {σ : Type} {d : Nat} {c : Cfg} {noFit : Bool} {idTy : Ty} {bindings : List (Binding σ)}
    (hn : nodup (bindings.map Binding.id) = true) {i : Nat} {fn : Fn σ} (hi : boundFns bindings i = some fn) {args : List Val}
    (hargs : args.length = fn.params.length) {b : List UInt8} (hr : Receivable d c [askItems idTy fn args])
    (hw : wireItems (fmtOf c) (askItems idTy fn args) = some b) {pre tail : List UInt8} (hlen : (pre ++ (b ++ tail)).length < 2 ^ 64) {w : σ} {o : OutSt} :
    serve (d + 1) c noFit idTy bindings w (pre ++ (b ++ tail)) pre.length o = replied (d + 1) c noFit fn.body w args (pre.length + b.length) o := by
  obtain ⟨hr1, hr2⟩ := ask_split hr
  obtain ⟨b1, b2, h1, h2, rfl⟩ := wireItems_append (xs := [(idTy, fn.id)]) (ys := fn.params.zip args) hw
  obtain ⟨hnth, hop⟩ := boundFns_nth hi
  have hid := C10_read_encoding (d + 1) c [(idTy, fn.id)] [(idTy, dflt c (d + 1) idTy)] pre b1 (b2 ++ tail)
    (by simp only [List.length_append] at hlen ⊢; omega) h1 (hr1.read _ (by simp)) ((hr1.stack _ (by simp)).of_le (Nat.le_succ _)) rfl
  have e : pre ++ (b1 ++ b2 ++ tail) = pre ++ b1 ++ (b2 ++ tail) := by simp
  rw [e] at hlen ⊢
  unfold serve
  rw [hid]
  simp only [List.map_cons, List.map_nil, List.headD_cons]
  rw [call_provided hn hnth (fn := fn) (by simp only [Provides, hop]) hlen hargs h2 (hr2.read _ (by simp)) (hr2.stack _ (by simp))
    (by simp only [List.length_append]; omega) (tail := tail) (by rw [← List.length_append, List.drop_left])]
  rw [List.length_append, Nat.add_assoc]

/-- A request that is not complete is refused, and no function is called. -/
theorem serve_incomplete {σ : Type} {d : Nat} {c : Cfg} {noFit : Bool} {idTy : Ty} {bindings : List (Binding σ)}
    (hn : nodup (bindings.map Binding.id) = true) {i : Nat} {fn : Fn σ} (hi : boundFns bindings i = some fn) {args : List Val}
    (hargs : args.length = fn.params.length) {b : List UInt8} (hr : Receivable d c [askItems idTy fn args])
    (hw : wireItems (fmtOf c) (askItems idTy fn args) = some b) {pre : List UInt8} {n : Nat} (hlen : (pre ++ b).length < 2 ^ 64) (hlt : n < b.length)
    {w : σ} {o : OutSt} :
    ∃ p', serve (d + 1) c noFit idTy bindings w (pre ++ b.take n) pre.length o = ⟨.err .resultOutOfRange, w, p', o⟩ := by
  obtain ⟨hr1, hr2⟩ := ask_split hr
  obtain ⟨b1, b2, h1, h2, rfl⟩ := wireItems_append (xs := [(idTy, fn.id)]) (ys := fn.params.zip args) hw
  obtain ⟨hnth, hop⟩ := boundFns_nth hi
  simp only [List.length_append] at hlen hlt
  by_cases hn1 : n < b1.length
  · have h := C14_encoding_truncated (d + 1) c [(idTy, fn.id)] [(idTy, dflt c (d + 1) idTy)] pre b1 n (by rw [List.length_append]; omega) h1
      (hr1.read _ (by simp)) hr1.env (hr1.types _ (by simp)) ((hr1.stack _ (by simp)).of_le (Nat.le_succ _)) rfl hn1
    rw [List.take_append_of_le_length (by omega)]
    exact serve_refused h
  · have e : pre ++ (b1 ++ b2).take n = pre ++ b1 ++ b2.take (n - b1.length) := by
      rw [List.take_append, List.take_of_length_le (by omega), List.append_assoc]
    have hid := C10_read_encoding (d + 1) c [(idTy, fn.id)] [(idTy, dflt c (d + 1) idTy)] pre b1 (b2.take (n - b1.length))
      (by simp only [List.length_append, List.length_take]; omega) h1 (hr1.read _ (by simp)) ((hr1.stack _ (by simp)).of_le (Nat.le_succ _)) rfl
    have hp : fn.params ≠ [] := by
      intro he
      rw [he] at h2
      cases h2
      simp at hlt
      omega
    have hfst : (fn.params.zip args).map Prod.fst = fn.params := List.map_fst_zip (by omega)
    have h := C14_encoding_truncated d c (fn.params.zip args) (fn.params.map fun t => (t, dflt c d t)) (pre ++ b1) b2 (n - b1.length)
      (by simp only [List.length_append]; omega) h2 (hr2.read _ (by simp)) hr2.env (hr2.types _ (by simp)) (hr2.stack _ (by simp))
      (by rw [hfst, List.map_map]; simp [Function.comp_def]) (by omega)
    rw [e]
    unfold serve
    rw [hid]
    simp only [List.map_cons, List.map_nil, List.headD_cons]
    rw [callBinding_nth hn hnth]
    unfold callBind
    rw [apply_eq hp, ← List.length_append]
    generalize decMany d c (pre ++ b1 ++ b2.take (n - b1.length)) (fn.params.map fun t => (t, dflt c d t)) (pre ++ b1).length = r at h
    obtain ⟨s, vs, p'⟩ := r
    simp only at h
    subst h
    refine ⟨p', ?_⟩
    cases fn.body <;> rfl

theorem callAll_append {σ : Type} {fns : Fns σ} : ∀ (xs ys : List (Nat × List Val)) (w : σ), Asks fns xs →
    callAll fns (xs ++ ys) w = ((callAll fns xs w).1 ++ (callAll fns ys (callAll fns xs w).2.1).1, (callAll fns ys (callAll fns xs w).2.1).2.1,
      (callAll fns xs w).2.2 ++ (callAll fns ys (callAll fns xs w).2.1).2.2)
  | [], ys, w, _ => by simp [callAll]
  | (i, args) :: xs, ys, w, h => by
    obtain ⟨fn, hf, -⟩ := h _ List.mem_cons_self
    have ih := callAll_append xs ys (calledOnce fn.body w args).2.1 (fun r hr => h r (List.mem_cons_of_mem _ hr))
    simp only at hf
    simp only [List.cons_append, callAll, hf, ih, List.append_assoc]

/-- The output archive is ready for the replies to the requests to come. -/
structure Ready {σ : Type} (d : Nat) (c : Cfg) (fns : Fns σ) (rpos : Nat) (sent : List (Ty × Val)) (reqs : List (Nat × List Val)) (w : σ) (o : OutSt) :
    Prop where
  holds : Holds (fmtOf c) sent ⟨o.data, o.pos, rpos⟩
  sup : Supported c (callAll fns reqs w).2.2
  stack : StackOk d (callAll fns reqs w).2.2
  bits : BitsOk (callAll fns reqs w).2.2 o
  room : ∃ br, wireItems (fmtOf c) (callAll fns reqs w).2.2 = some br ∧ br.length < 2 ^ 63 ∧ RoomFor c.g o.data.length (o.pos + br.length)
  codes : Status.err .resultOutOfRange ∉ (callAll fns reqs w).1

theorem Ready.step {σ : Type} {d : Nat} {c : Cfg} {fns : Fns σ} {noFit : Bool} {rpos : Nat} {sent : List (Ty × Val)} {i : Nat} {args : List Val}
    {reqs : List (Nat × List Val)} {w : σ} {o : OutSt} (h : Ready d c fns rpos sent ((i, args) :: reqs) w o) {fn : Fn σ} (hf : fns i = some fn) (p : Nat) :
    ∃ o', replied d c noFit fn.body w args p o = ⟨(calledOnce fn.body w args).1, (calledOnce fn.body w args).2.1, p, o'⟩ ∧
      Ready d c fns rpos (sent ++ (calledOnce fn.body w args).2.2) reqs (calledOnce fn.body w args).2.1 o' := by
  obtain ⟨h1, h2, h3, h4, ⟨br, h5, h6, h7⟩, h8⟩ := h
  simp only [callAll, hf] at h2 h3 h4 h5 h8
  cases hb : fn.body with
  | void f =>
    simp only [hb, calledOnce, List.nil_append, List.mem_cons, not_or] at h2 h3 h4 h5 h8
    exact ⟨o, rfl, by simpa [calledOnce] using h1, h2, h3, h4, ⟨br, h5, h6, h7⟩, h8.2⟩
  | errc f =>
    simp only [hb, calledOnce] at h2 h3 h4 h5 h8
    generalize hr : f w args = r at *
    obtain ⟨e, w'⟩ := r
    cases e <;> simp only [List.nil_append, List.mem_cons, not_or] at h2 h3 h4 h5 h8 <;> simp only [replied, calledOnce, hr, codeStatus]
    · exact ⟨o, rfl, by simpa using h1, h2, h3, h4, ⟨br, h5, h6, h7⟩, h8.2⟩
    · exact ⟨o, rfl, by simpa using h1, h2, h3, h4, ⟨br, h5, h6, h7⟩, h8.2⟩
  | value t f =>
    simp only [hb, calledOnce, List.mem_cons, not_or] at h2 h3 h4 h5 h8
    obtain ⟨b1, b2, e1, e2, rfl⟩ := wireItems_append h5
    simp only [List.length_append] at h6 h7
    obtain ⟨y, i1, i2, i3, i4, i5⟩ := h1.write (noFit := noFit) rfl (d := d) (c := c)
      ⟨h2.growth, h2.abi, h2.env, fun x hx => h2.types x (List.mem_append_left _ hx)⟩ (fun x hx => h3 x (List.mem_append_left _ hx))
      (h4.imp_left fun hz x hx => hz x (List.mem_append_left _ hx)) e1 (by omega) (h7.mono (by simp only; omega))
    simp only [Duplex.write, Prod.mk.injEq] at i1
    obtain ⟨j1, rfl⟩ := i1
    refine ⟨(outCall d c noFit [(t, (f w args).1)] o).2, ?_, i2, ⟨h2.growth, h2.abi, h2.env, fun x hx => h2.types x (List.mem_append_right _ hx)⟩,
      fun x hx => h3 x (List.mem_append_right _ hx), ?_, ⟨b2, e2, by omega, ?_⟩, h8.2⟩
    · simp only [replied, calledOnce]
      rw [show (outCall d c noFit [(t, (f w args).1)] o).1 = .ok from j1]
    · rcases h4 with hz | hz
      · exact .inl fun x hx => hz x (List.mem_append_right _ hx)
      · exact .inr fun x hx => (i5 x hx).elim id (hz x)
    · simp only at i3 i4
      rw [i3, Nat.add_assoc]
      exact h7.grow i4

/-- Serving what has arrived. -/
theorem serveLoop_spec {σ : Type} {d : Nat} {c : Cfg} {noFit : Bool} {idTy : Ty} {bindings : List (Binding σ)}
    (hn : nodup (bindings.map Binding.id) = true) {v0 : Val} {b0 : List UInt8} (hr0 : Receivable d c [[(idTy, v0)]])
    (hw0 : wireItems (fmtOf c) [(idTy, v0)] = some b0) (hb0 : b0 ≠ []) (hbl0 : b0.length < 2 ^ 63) {rpos : Nat} :
    ∀ (reqs : List (Nat × List Val)) (bss : List (List UInt8)) (n : Nat) (pre part : List UInt8) (w : σ) (o : OutSt) (log : List Status)
      (sent : List (Ty × Val)),
    Asks (boundFns bindings) reqs → Receivable d c (reqs.map fun r => msgItems (boundFns bindings) idTy (.req true r.1 r.2)) →
    (reqs.map fun r => wireItems (fmtOf c) (msgItems (boundFns bindings) idTy (.req true r.1 r.2))) = bss.map some →
    part <+: bss.flatten → pre.length + bss.flatten.length < 2 ^ 63 → part.length < n →
    Ready (d + 1) c (boundFns bindings) rpos sent reqs w o →
    ∃ o', serveLoop (d + 1) c noFit idTy bindings n ⟨pre ++ part, pre.length, w, o, log⟩ =
        some ⟨pre ++ part, pre.length + (bss.take (complete bss part.length)).flatten.length,
          (callAll (boundFns bindings) (reqs.take (complete bss part.length)) w).2.1, o',
          log ++ (callAll (boundFns bindings) (reqs.take (complete bss part.length)) w).1⟩ ∧
      Ready (d + 1) c (boundFns bindings) rpos (sent ++ (callAll (boundFns bindings) (reqs.take (complete bss part.length)) w).2.2)
        (reqs.drop (complete bss part.length)) (callAll (boundFns bindings) (reqs.take (complete bss part.length)) w).2.1 o'
  | [], bss, n, pre, part, w, o, log, sent, _, _, hw, hpart, hlen, hlt, hready => by
    have e1 : bss = [] := by cases bss with | nil => rfl | cons => simp at hw
    subst e1
    have e2 : part = [] := by simpa using hpart
    subst e2
    obtain ⟨n, rfl⟩ := Nat.exists_eq_succ_of_ne_zero (Nat.ne_of_gt hlt)
    obtain ⟨p', hs⟩ := serve_refused (σ := σ) (noFit := noFit) (bindings := bindings) (w := w) (o := o)
      (no_id hr0 hw0 hb0 hbl0 (pre := pre) (by omega) (dflt c (d + 1) idTy))
    refine ⟨o, ?_, by simpa [callAll, complete] using hready⟩
    simp only [serveLoop, List.append_nil, hs]
    simp [complete, callAll]
  | (i, args) :: reqs, bss, n, pre, part, w, o, log, sent, hasks, hr, hw, hpart, hlen, hlt, hready => by
    obtain ⟨b, bs, rfl⟩ : ∃ b bs, bss = b :: bs := by cases bss with | nil => simp at hw | cons b bs => exact ⟨b, bs, rfl⟩
    obtain ⟨n, rfl⟩ := Nat.exists_eq_succ_of_ne_zero (n := n) (by omega)
    obtain ⟨fn, hfn, hargs⟩ := hasks _ List.mem_cons_self
    simp only at hfn hargs
    have hm : msgItems (boundFns bindings) idTy (.req true i args) = askItems idTy fn args := by simp [msgItems, hfn, askItems]
    simp only [List.map_cons, List.cons.injEq, hm] at hw hr
    simp only [List.flatten_cons] at hpart hlen
    simp only [List.length_append] at hlen
    have hr1 : Receivable d c [askItems idTy fn args] :=
      ⟨fun m h => hr.read m (by simp only [List.mem_singleton] at h; subst h; exact List.mem_cons_self),
        fun m h => hr.stack m (by simp only [List.mem_singleton] at h; subst h; exact List.mem_cons_self), hr.env,
        fun m h => hr.types m (by simp only [List.mem_singleton] at h; subst h; exact List.mem_cons_self)⟩
    obtain ⟨u, hu⟩ := hpart
    by_cases hb : b.length ≤ part.length
    · obtain ⟨part', rfl⟩ : ∃ part', part = b ++ part' :=
        List.prefix_of_prefix_length_le ⟨_, rfl⟩ ⟨u, hu⟩ hb |>.imp fun _ h => h.symm
      have hu' : part' ++ u = bs.flatten := by
        rw [List.append_assoc] at hu
        exact List.append_cancel_left hu
      have e : complete (b :: bs) (b ++ part').length = complete bs part'.length + 1 := by
        simp only [complete, if_pos hb]
        rw [List.length_append, Nat.add_sub_cancel_left]
      have hl : part'.length + u.length = bs.flatten.length := by simpa using congrArg List.length hu'
      have hbpos : 0 < b.length := by
        refine Nat.pos_of_ne_zero fun h0 => ?_
        have hbe : b = [] := List.eq_nil_of_length_eq_zero h0
        obtain ⟨b1, b2, h1, h2, h3⟩ := wireItems_append (xs := [(idTy, fn.id)]) (ys := fn.params.zip args) hw.1
        have hb1 : b1 = [] := by
          rw [hbe] at h3
          exact (List.append_eq_nil_iff.mp h3.symm).1
        have hid := C10_read_encoding (d + 1) c [(idTy, fn.id)] [(idTy, fn.id)] [] b1 [] (by simp [hb1]) h1
          ((ask_split hr1).1.read _ (by simp)) (((ask_split hr1).1.stack _ (by simp)).of_le (Nat.le_succ _)) rfl
        have hno := no_id hr0 hw0 hb0 hbl0 (pre := []) (by simp) fn.id
        rw [hb1] at hid
        simp only [List.nil_append] at hid
        rw [hid] at hno
        cases hno
      have hs := serve_complete (noFit := noFit) hn hfn hargs hr1 hw.1 (pre := pre) (tail := part')
        (by simp only [List.length_append]; omega) (w := w) (o := o)
      obtain ⟨o1, j1, j2⟩ := hready.step (noFit := noFit) hfn (pre.length + b.length)
      rw [j1] at hs
      obtain ⟨o', h1, h2⟩ := serveLoop_spec hn hr0 hw0 hb0 hbl0 reqs bs n (pre ++ b) part' (calledOnce fn.body w args).2.1 o1
        (log ++ [(calledOnce fn.body w args).1]) _ (fun r h => hasks r (List.mem_cons_of_mem _ h)) (hr.drop 1) hw.2 ⟨u, hu'⟩
        (by simp only [List.length_append]; omega) (by simp only [List.length_append] at hlt; omega) j2
      rw [List.append_assoc, List.length_append] at h1
      have hne : Status.err .resultOutOfRange ≠ (calledOnce fn.body w args).1 := by
        intro h
        have := hready.codes
        simp only [callAll, hfn] at this
        exact this (h ▸ List.mem_cons_self)
      have hkind : (calledOnce fn.body w args).1 = .ok ∨ ∃ e, (calledOnce fn.body w args).1 = .err e := by
        cases hbd : fn.body with
        | void f => exact .inl rfl
        | errc f =>
          simp only [calledOnce]
          generalize f w args = r
          obtain ⟨e, w'⟩ := r
          cases e
          · exact .inl rfl
          · exact .inr ⟨_, rfl⟩
        | value t f => exact .inl rfl
      refine ⟨o', ?_, ?_⟩
      · rw [e]
        have hstep : serveLoop (d + 1) c noFit idTy bindings (n + 1) ⟨pre ++ (b ++ part'), pre.length, w, o, log⟩ =
            serveLoop (d + 1) c noFit idTy bindings n ⟨pre ++ (b ++ part'), pre.length + b.length, (calledOnce fn.body w args).2.1, o1,
              log ++ [(calledOnce fn.body w args).1]⟩ := by
          rw [serveLoop]
          simp only [hs]
          rcases hkind with hk | ⟨e, hk⟩ <;> rw [hk]
          rw [hk] at hne
          cases e <;> first | rfl | exact absurd rfl hne
        rw [hstep, h1]
        simp only [List.take_succ_cons, List.flatten_cons, List.length_append, Nat.add_assoc, callAll, hfn, List.append_assoc, List.singleton_append]
      · rw [e]
        simpa only [List.take_succ_cons, List.drop_succ_cons, callAll, hfn, List.append_assoc] using h2
    · have e : complete (b :: bs) part.length = 0 := by simp only [complete, hb, if_false]
      have hp : part = b.take part.length := by
        have h1 := congrArg (List.take part.length) hu
        rw [List.take_left' rfl, List.take_append_of_le_length (by omega)] at h1
        exact h1
      obtain ⟨p', hs⟩ := serve_incomplete (noFit := noFit) hn hfn hargs hr1 hw.1 (pre := pre) (n := part.length)
        (by simp only [List.length_append]; omega) (by omega) (w := w) (o := o)
      rw [← hp] at hs
      refine ⟨o, ?_, by rw [e]; simpa [callAll] using hready⟩
      rw [e]
      simp only [serveLoop, hs]
      simp [callAll]

theorem Spec.Asks.drop {σ : Type} {fns : Fns σ} {reqs : List (Nat × List Val)} (h : Asks fns reqs) (k : Nat) : Asks fns (reqs.drop k) :=
  fun r hr => h r (List.mem_of_mem_drop hr)

theorem Spec.Asks.take {σ : Type} {fns : Fns σ} {reqs : List (Nat × List Val)} (h : Asks fns reqs) (k : Nat) : Asks fns (reqs.take k) :=
  fun r hr => h r (List.mem_of_mem_take hr)

theorem servePieces_spec {σ : Type} {d : Nat} {c : Cfg} {noFit : Bool} {idTy : Ty} {bindings : List (Binding σ)}
    (hn : nodup (bindings.map Binding.id) = true) {v0 : Val} {b0 : List UInt8} (hr0 : Receivable d c [[(idTy, v0)]])
    (hw0 : wireItems (fmtOf c) [(idTy, v0)] = some b0) (hb0 : b0 ≠ []) (hbl0 : b0.length < 2 ^ 63) {rpos : Nat} :
    ∀ (pieces : List (Bool × List UInt8)) (reqs : List (Nat × List Val)) (bss : List (List UInt8)) (x : PieceServer σ) (sent : List (Ty × Val)),
    Asks (boundFns bindings) reqs → Receivable d c (reqs.map fun r => msgItems (boundFns bindings) idTy (.req true r.1 r.2)) →
    (reqs.map fun r => wireItems (fmtOf c) (msgItems (boundFns bindings) idTy (.req true r.1 r.2))) = bss.map some →
    x.pos ≤ x.data.length → x.data.drop x.pos ++ (pieces.map Prod.snd).flatten <+: bss.flatten → x.pos + bss.flatten.length < 2 ^ 63 →
    (pieces = [] → complete bss (x.data.length - x.pos) = 0) → Ready (d + 1) c (boundFns bindings) rpos sent reqs x.world x.out →
    ∃ x', servePieces (d + 1) c noFit idTy bindings pieces x = some x' ∧
      (let all := x.data.drop x.pos ++ (pieces.map Prod.snd).flatten
       let k := complete bss all.length
       let r := callAll (boundFns bindings) (reqs.take k) x.world
       x'.log = x.log ++ r.1 ∧ x'.world = r.2.1 ∧ x'.data.drop x'.pos = all.drop (bss.take k).flatten.length ∧
       Ready (d + 1) c (boundFns bindings) rpos (sent ++ r.2.2) (reqs.drop k) r.2.1 x'.out)
  | [], reqs, bss, x, sent, _, _, _, hpos, _, _, h0, hready => by
    have e : complete bss (x.data.drop x.pos ++ (([] : List (Bool × List UInt8)).map Prod.snd).flatten).length = 0 := by
      simpa using h0 rfl
    refine ⟨x, rfl, ?_⟩
    simp only [e]
    simpa [callAll] using hready
  | (discard, piece) :: rest, reqs, bss, x, sent, hasks, hr, hw, hpos, hpre, hlen, _, hready => by
    simp only [List.map_cons, List.flatten_cons] at hpre
    obtain ⟨pre, hd1, hd2⟩ : ∃ pre, (if discard then { x with data := x.data.drop x.pos, pos := 0 } else x : PieceServer σ) =
        ⟨pre ++ x.data.drop x.pos, pre.length, x.world, x.out, x.log⟩ ∧ pre.length ≤ x.pos := by
      cases discard
      · refine ⟨x.data.take x.pos, ?_, by simp; omega⟩
        simp only [Bool.false_eq_true, if_false, List.take_append_drop, List.length_take, Nat.min_eq_left hpos]
      · exact ⟨[], by simp, by simp⟩
    have hp1 : x.data.drop x.pos ++ piece <+: bss.flatten := by
      refine List.IsPrefix.trans ?_ hpre
      rw [← List.append_assoc]
      exact ⟨_, rfl⟩
    obtain ⟨o1, h1, h2⟩ := serveLoop_spec (noFit := noFit) hn hr0 hw0 hb0 hbl0 reqs bss
      ((pre ++ (x.data.drop x.pos ++ piece)).length + 1) pre (x.data.drop x.pos ++ piece) x.world x.out x.log sent hasks hr hw hp1 (by omega)
      (by simp only [List.length_append]; omega) hready
    have hk := complete_le bss (x.data.drop x.pos ++ piece).length
    have hrest := complete_rest bss (x.data.drop x.pos ++ piece).length
    have hadd := complete_add bss (x.data.drop x.pos ++ piece).length (rest.map Prod.snd).flatten.length
    generalize hkk : complete bss (x.data.drop x.pos ++ piece).length = k at *
    have hsplit : bss.flatten = (bss.take k).flatten ++ (bss.drop k).flatten := by rw [← List.flatten_append, List.take_append_drop]
    obtain ⟨u, hu⟩ := hpre
    have hdrop : ∀ y : List UInt8, (x.data.drop x.pos ++ piece ++ y).drop (bss.take k).flatten.length =
        (x.data.drop x.pos ++ piece).drop (bss.take k).flatten.length ++ y := fun y => List.drop_append_of_le_length hk.1
    have hpd : (pre ++ (x.data.drop x.pos ++ piece)).drop (pre.length + (bss.take k).flatten.length) =
        (x.data.drop x.pos ++ piece).drop (bss.take k).flatten.length := by
      rw [← List.drop_drop, List.drop_left]
    obtain ⟨x', hx', i1, i2, i3, i4⟩ := servePieces_spec (noFit := noFit) hn hr0 hw0 hb0 hbl0 rest (reqs.drop k) (bss.drop k)
      ⟨pre ++ (x.data.drop x.pos ++ piece), pre.length + (bss.take k).flatten.length, (callAll (boundFns bindings) (reqs.take k) x.world).2.1, o1,
        x.log ++ (callAll (boundFns bindings) (reqs.take k) x.world).1⟩ _ (hasks.drop k) (by rw [List.map_drop]; exact hr.drop k)
      (by rw [List.map_drop, hw, List.map_drop])
      (by simp only [List.length_append] at hk ⊢; omega)
      (by
        simp only [hpd]
        rw [← hdrop]
        refine ⟨u, ?_⟩
        have := congrArg (List.drop (bss.take k).flatten.length) hu
        rw [hsplit, List.drop_left, ← List.append_assoc, List.drop_append_of_le_length (by simp only [List.length_append] at hk ⊢; omega)] at this
        exact this)
      (by
        have := congrArg List.length hsplit
        simp only [List.length_append] at this hlen ⊢
        omega)
      (fun _ => by
        simp only [List.length_append] at hrest ⊢
        rw [← hrest]
        congr 1
        omega) h2
    refine ⟨x', ?_, ?_⟩
    · simp only [servePieces, PieceServer.arrive, hd1, List.append_assoc, h1, Option.bind_some]
      exact hx'
    · simp only [hpd] at i1 i2 i3 i4
      have hall : (x.data.drop x.pos ++ (((discard, piece) :: rest).map Prod.snd).flatten) =
          x.data.drop x.pos ++ piece ++ (rest.map Prod.snd).flatten := by simp
      simp only [hall]
      have hlen1 : (x.data.drop x.pos ++ piece ++ (rest.map Prod.snd).flatten).length =
          (x.data.drop x.pos ++ piece).length + (rest.map Prod.snd).flatten.length := List.length_append
      have hlen2 : ((x.data.drop x.pos ++ piece).drop (bss.take k).flatten.length ++ (rest.map Prod.snd).flatten).length =
          (x.data.drop x.pos ++ piece).length - (bss.take k).flatten.length + (rest.map Prod.snd).flatten.length := by
        rw [List.length_append, List.length_drop]
      rw [hlen2] at i1 i2 i3 i4
      rw [hlen1, hadd]
      generalize complete (bss.drop k) ((x.data.drop x.pos ++ piece).length - (bss.take k).flatten.length +
        (rest.map Prod.snd).flatten.length) = j at *
      have happ := callAll_append (fns := boundFns bindings) (reqs.take k) ((reqs.drop k).take j) x.world (hasks.take k)
      rw [← List.take_add] at happ
      rw [happ]
      refine ⟨?_, i2, ?_, ?_⟩
      · rw [i1, List.append_assoc]
      · rw [i3, ← hdrop, List.drop_drop, List.take_add, List.flatten_append, List.length_append (as := (bss.take k).flatten)]
      · rw [List.append_assoc, List.drop_drop] at i4
        exact i4

end Zpp
