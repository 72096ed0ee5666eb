import Verif.Spec.Receive
import Verif.Props.RoundTrip2
import Verif.Proof.InSeq
import Verif.Proof.Duplex
/-!
# Properties: messages can be received in pieces (C96)
-/

namespace Zpp.Props
open Zpp Zpp.Spec

theorem complete_le : ∀ (bss : List (List UInt8)) (n : Nat), (bss.take (complete bss n)).flatten.length ≤ n ∧ complete bss n ≤ bss.length
  | [], _ => ⟨Nat.zero_le _, Nat.le_refl _⟩
  | b :: bs, n => by
    unfold complete
    split
    · have h := complete_le bs (n - b.length)
      simp only [List.take_succ_cons, List.flatten_cons, List.length_append, List.length_cons]
      omega
    · exact ⟨by simp, Nat.zero_le _⟩

theorem complete_rest : ∀ (bss : List (List UInt8)) (n : Nat),
    complete (bss.drop (complete bss n)) (n - (bss.take (complete bss n)).flatten.length) = 0
  | [], _ => rfl
  | b :: bs, n => by
    by_cases h : b.length ≤ n
    · have e : complete (b :: bs) n = complete bs (n - b.length) + 1 := by simp only [complete, h, if_true]
      rw [e]
      simp only [List.take_succ_cons, List.flatten_cons, List.length_append, List.drop_succ_cons]
      rw [← Nat.sub_sub]
      exact complete_rest bs (n - b.length)
    · have e : complete (b :: bs) n = 0 := by simp only [complete, h, if_false]
      rw [e]
      simp only [List.take_zero, List.drop_zero, List.flatten_nil, List.length_nil, Nat.sub_zero, e]

theorem complete_add : ∀ (bss : List (List UInt8)) (n m : Nat),
    complete bss (n + m) = complete bss n + complete (bss.drop (complete bss n)) (n - (bss.take (complete bss n)).flatten.length + m)
  | [], _, _ => rfl
  | b :: bs, n, m => by
    by_cases h : b.length ≤ n
    · have e : complete (b :: bs) n = complete bs (n - b.length) + 1 := by simp only [complete, h, if_true]
      have e' : complete (b :: bs) (n + m) = complete bs (n - b.length + m) + 1 := by
        simp only [complete, show b.length ≤ n + m by omega, if_true]
        rw [Nat.sub_add_comm h]
      rw [e, e', complete_add bs (n - b.length) m]
      simp only [List.take_succ_cons, List.flatten_cons, List.length_append, List.drop_succ_cons]
      rw [← Nat.sub_sub]
      omega
    · have e : complete (b :: bs) n = 0 := by simp only [complete, h, if_false]
      rw [e]
      simp only [List.take_zero, List.drop_zero, List.flatten_nil, List.length_nil, Nat.sub_zero, Nat.zero_add]

/-- What the theorems assume of a list of messages and the archive that reads them: the archive can hold them (C10), and their types
carry their own extent (C14). -/
structure Receivable (d : Nat) (c : Cfg) (msgs : List (List (Ty × Val))) : Prop where
  read : ∀ m ∈ msgs, Readable c m
  stack : ∀ m ∈ msgs, StackOk d m
  env : ∀ i, widthsOk (c.env i) = true ∧ selfDelimiting c.dsz (c.env i) = true
  types : ∀ m ∈ msgs, ∀ it ∈ m, widthsOk it.1 = true ∧ selfDelimiting c.dsz it.1 = true

theorem Receivable.drop {d : Nat} {c : Cfg} {msgs : List (List (Ty × Val))} (h : Receivable d c msgs) (k : Nat) :
    Receivable d c (msgs.drop k) :=
  ⟨fun m hm => h.read m (List.mem_of_mem_drop hm), fun m hm => h.stack m (List.mem_of_mem_drop hm), h.env,
    fun m hm => h.types m (List.mem_of_mem_drop hm)⟩

theorem leftIn_types {dests : List (Ty × Val)} {vs : List Val} (h : vs.length = dests.length) :
    (leftIn dests vs).map Prod.fst = dests.map Prod.fst := by
  simp [leftIn, List.map_fst_zip, h]

theorem drain_spec {d : Nat} {c : Cfg} : ∀ (msgs wanted : List (List (Ty × Val))) (bss : List (List UInt8)) (pre part more : List UInt8),
    Receivable d c msgs → msgs.map (wireItems (fmtOf c)) = bss.map some →
    wanted.map (List.map Prod.fst) = msgs.map (List.map Prod.fst) → part <+: bss.flatten ++ more →
    pre.length + (bss.flatten ++ more).length < 2 ^ 64 →
    ∃ w, drain d c (pre ++ part) wanted pre.length =
        some ⟨pre ++ part, pre.length + (bss.take (complete bss part.length)).flatten.length, w,
          (msgs.take (complete bss part.length)).map (List.map Prod.snd)⟩ ∧
      w.map (List.map Prod.fst) = (msgs.drop (complete bss part.length)).map (List.map Prod.fst)
  | [], wanted, bss, pre, part, more, _, hw, hd, _, _ => by
    have e1 : bss = [] := by cases bss with | nil => rfl | cons => simp at hw
    have e2 : wanted = [] := by cases wanted with | nil => rfl | cons => simp at hd
    subst e1; subst e2
    exact ⟨[], by simp [drain, complete], rfl⟩
  | m :: msgs, wanted, bss, pre, part, more, hr, hw, hd, hpre, hlen => by
    obtain ⟨b, bs, rfl⟩ : ∃ b bs, bss = b :: bs := by cases bss with | nil => simp at hw | cons b bs => exact ⟨b, bs, rfl⟩
    obtain ⟨ds, ws, rfl⟩ : ∃ ds ws, wanted = ds :: ws := by cases wanted with | nil => simp at hd | cons b bs => exact ⟨b, bs, rfl⟩
    simp only [List.map_cons, List.cons.injEq] at hw hd
    simp only [List.flatten_cons, List.append_assoc] at hpre hlen
    simp only [List.length_append] at hlen
    obtain ⟨u, hu⟩ := hpre
    by_cases hb : b.length ≤ part.length
    · obtain ⟨part', rfl⟩ : ∃ part', part = b ++ part' :=
        List.prefix_of_prefix_length_le ⟨_, rfl⟩ ⟨u, hu⟩ hb |>.imp fun _ h => h.symm
      have hu' : part' ++ u = bs.flatten ++ more := by
        rw [List.append_assoc] at hu
        exact List.append_cancel_left hu
      have e : complete (b :: bs) (b ++ part').length = complete bs part'.length + 1 := by
        simp only [complete, if_pos hb]
        rw [List.length_append, Nat.add_sub_cancel_left]
      have hl : part'.length + u.length = bs.flatten.length + more.length := by simpa using congrArg List.length hu'
      have h := C10_read_encoding d c m ds pre b part' (by simp only [List.length_append]; omega) hw.1 (hr.read m (by simp))
        (hr.stack m (by simp)) hd.1
      rw [List.append_assoc] at h
      obtain ⟨w, h1, h2⟩ := drain_spec msgs ws bs (pre ++ b) part' more (hr.drop 1) hw.2 hd.2 ⟨u, hu'⟩
        (by simp only [List.length_append]; omega)
      refine ⟨w, ?_, by rw [e]; exact h2⟩
      rw [List.append_assoc, List.length_append] at h1
      rw [e]
      simp only [drain, h, h1, Option.map_some, List.take_succ_cons, List.map_cons, List.flatten_cons, List.length_append, Nat.add_assoc]
    · have e : complete (b :: bs) part.length = 0 := by simp only [complete, hb, if_false]
      have hp : part = b.take part.length := by
        have h1 := congrArg (List.take part.length) hu
        rw [List.take_left' rfl, List.take_append_of_le_length (by omega)] at h1
        exact h1
      have h := C14_encoding_truncated d c m ds pre b part.length (by simp only [List.length_append]; omega) hw.1 (hr.read m (by simp)) hr.env
        (hr.types m (by simp)) (hr.stack m (by simp)) hd.1 (by omega)
      rw [← hp] at h
      have hvl := decMany_length (d := d) (c := c) (data := pre ++ part) ds pre.length
      rw [e]
      generalize hx : decMany d c (pre ++ part) ds pre.length = r at h hvl
      obtain ⟨s, vs, p'⟩ := r
      simp only at h
      subst h
      refine ⟨leftIn ds vs :: ws, ?_, ?_⟩
      · simp only [drain, hx, List.take_zero, List.flatten_nil, List.length_nil, Nat.add_zero, List.map_nil]
      · simp only [List.map_cons, List.drop_zero, leftIn_types hvl, hd.1, hd.2]

theorem receive_spec {d : Nat} {c : Cfg} : ∀ (pieces : List (Bool × List UInt8)) (msgs : List (List (Ty × Val))) (bss : List (List UInt8))
    (more : List UInt8) (r : Receiver), Receivable d c msgs → msgs.map (wireItems (fmtOf c)) = bss.map some →
    r.wanted.map (List.map Prod.fst) = msgs.map (List.map Prod.fst) → r.pos ≤ r.data.length →
    r.data.drop r.pos ++ (pieces.map Prod.snd).flatten <+: bss.flatten ++ more →
    r.pos + (bss.flatten ++ more).length < 2 ^ 64 → (pieces = [] → complete bss (r.data.length - r.pos) = 0) →
    ∃ r', receive d c pieces r = some r' ∧
      (let all := r.data.drop r.pos ++ (pieces.map Prod.snd).flatten
       r'.got = r.got ++ (msgs.take (complete bss all.length)).map (List.map Prod.snd) ∧
       r'.data.drop r'.pos = all.drop (bss.take (complete bss all.length)).flatten.length ∧ r'.pos ≤ r'.data.length ∧
       r'.wanted.map (List.map Prod.fst) = (msgs.drop (complete bss all.length)).map (List.map Prod.fst))
  | [], msgs, bss, more, r, _, _, hwant, hpos, _, _, h0 => by
    refine ⟨r, rfl, ?_⟩
    simp only [List.map_nil, List.flatten_nil, List.append_nil, List.length_drop, h0 rfl, List.take_zero, List.length_nil, List.drop_zero, hwant, hpos,
      and_self]
  | (discard, piece) :: rest, msgs, bss, more, r, hr, hw, hwant, hpos, hpre, hlen, h0 => by
    simp only [List.map_cons, List.flatten_cons] at hpre
    -- the state in which the piece is looked at
    obtain ⟨pre, hd1, hd2, hd3⟩ : ∃ pre, (if discard then { r with data := r.data.drop r.pos, pos := 0 } else r : Receiver) =
        ⟨pre ++ r.data.drop r.pos, pre.length, r.wanted, r.got⟩ ∧ pre.length ≤ r.pos ∧ True := by
      cases discard
      · refine ⟨r.data.take r.pos, ?_, by simp; omega, trivial⟩
        simp only [Bool.false_eq_true, if_false, List.take_append_drop, List.length_take, Nat.min_eq_left hpos]
      · exact ⟨[], by simp, by simp, trivial⟩
    have hp1 : r.data.drop r.pos ++ piece <+: bss.flatten ++ more := by
      refine List.IsPrefix.trans ?_ hpre
      rw [← List.append_assoc]
      exact ⟨_, rfl⟩
    obtain ⟨w, h1, h2⟩ := drain_spec msgs r.wanted bss pre (r.data.drop r.pos ++ piece) more hr hw hwant hp1 (by omega)
    have hk := complete_le bss (r.data.drop r.pos ++ piece).length
    have hrest := complete_rest bss (r.data.drop r.pos ++ piece).length
    have hadd := complete_add bss (r.data.drop r.pos ++ piece).length (rest.map Prod.snd).flatten.length
    generalize hkk : complete bss (r.data.drop r.pos ++ piece).length = k at *
    have hsplit : bss.flatten = (bss.take k).flatten ++ (bss.drop k).flatten := by rw [← List.flatten_append, List.take_append_drop]
    obtain ⟨u, hu⟩ := hpre
    have hdrop : ∀ x : List UInt8, (r.data.drop r.pos ++ piece ++ x).drop (bss.take k).flatten.length =
        (r.data.drop r.pos ++ piece).drop (bss.take k).flatten.length ++ x := fun x => List.drop_append_of_le_length hk.1
    have hpd : (pre ++ (r.data.drop r.pos ++ piece)).drop (pre.length + (bss.take k).flatten.length) =
        (r.data.drop r.pos ++ piece).drop (bss.take k).flatten.length := by
      rw [← List.drop_drop, List.drop_left]
    obtain ⟨r', hr', i1, i2, i3, i4⟩ := receive_spec rest (msgs.drop k) (bss.drop k) more
      ⟨pre ++ (r.data.drop r.pos ++ piece), pre.length + (bss.take k).flatten.length, w,
        r.got ++ (msgs.take k).map (List.map Prod.snd)⟩ (hr.drop k) (by rw [List.map_drop, hw, List.map_drop]) h2
      (by simp only [List.length_append] at hk ⊢; omega)
      (by
        simp only [hpd]
        rw [← hdrop]
        refine ⟨u, ?_⟩
        have := congrArg (List.drop (bss.take k).flatten.length) hu
        rw [hsplit, List.append_assoc (List.take k bss).flatten, List.drop_left, ← List.append_assoc,
          List.drop_append_of_le_length (by simp only [List.length_append] at hk ⊢; omega)] at this
        exact this)
      (by
        have := congrArg List.length hsplit
        simp only [List.length_append] at this hlen ⊢
        omega)
      (fun _ => by
        simp only [List.length_append] at hrest ⊢
        rw [← hrest]
        congr 1
        omega)
    refine ⟨r', ?_, ?_⟩
    · simp only [receive, Receiver.arrive, hd1, List.append_assoc, h1, Option.map_some, Option.bind_some]
      exact hr'
    · simp only [hpd] at i1 i2 i4
      have hall : (r.data.drop r.pos ++ (((discard, piece) :: rest).map Prod.snd).flatten) =
          r.data.drop r.pos ++ piece ++ (rest.map Prod.snd).flatten := by simp
      simp only [hall]
      have hlen1 : (r.data.drop r.pos ++ piece ++ (rest.map Prod.snd).flatten).length =
          (r.data.drop r.pos ++ piece).length + (rest.map Prod.snd).flatten.length := List.length_append
      have hlen2 : ((r.data.drop r.pos ++ piece).drop (bss.take k).flatten.length ++ (rest.map Prod.snd).flatten).length =
          (r.data.drop r.pos ++ piece).length - (bss.take k).flatten.length + (rest.map Prod.snd).flatten.length := by
        rw [List.length_append, List.length_drop]
      rw [hlen2] at i1 i2 i4
      rw [hlen1, hadd]
      generalize complete (bss.drop k) ((r.data.drop r.pos ++ piece).length - (bss.take k).flatten.length +
        (rest.map Prod.snd).flatten.length) = j at *
      refine ⟨?_, ?_, i3, ?_⟩
      · rw [i1, List.append_assoc, ← List.map_append, ← List.take_add]
      · rw [i2, ← hdrop, List.drop_drop, List.take_add, List.flatten_append, List.length_append (as := (bss.take k).flatten)]
      · rw [i4, List.drop_drop]

/-- C96. Messages `msgs` with the encodings `bss` arrive in pieces, cut in any way; `more` is whatever follows them. The receiving
program, which looks for complete messages after every piece, has at any moment exactly the messages that are complete by then:
no message late, none early, none wrong, although earlier attempts may have left anything in the destinations. It holds exactly
the bytes behind the last complete message, and no attempt fails with anything but `result_out_of_range`. -/
theorem C96_pieces (d : Nat) (c : Cfg) (msgs wanted : List (List (Ty × Val))) (bss : List (List UInt8)) (more : List UInt8)
    (pieces : List (Bool × List UInt8)) (hpieces : pieces ≠ []) (hr : Receivable d c msgs)
    (hw : msgs.map (wireItems (fmtOf c)) = bss.map some)
    (hdest : wanted.map (List.map Prod.fst) = msgs.map (List.map Prod.fst))
    (harrived : (pieces.map Prod.snd).flatten <+: bss.flatten ++ more) (hlen : (bss.flatten ++ more).length < 2 ^ 64) :
    let arrived := (pieces.map Prod.snd).flatten
    let k := complete bss arrived.length
    ∃ r, receive d c pieces ⟨[], 0, wanted, []⟩ = some r ∧ r.got = (msgs.take k).map (List.map Prod.snd) ∧
      r.data.drop r.pos = arrived.drop (bss.take k).flatten.length := by
  obtain ⟨r, h1, h2, h3, -, -⟩ := receive_spec pieces msgs bss more ⟨[], 0, wanted, []⟩ hr hw hdest (Nat.zero_le _) (by simpa using harrived)
    (by simpa using hlen) (fun h => absurd h hpieces)
  exact ⟨r, h1, by simpa using h2, by simpa using h3⟩

/-- All encodings are complete when all their bytes have arrived. -/
theorem complete_all : ∀ bss : List (List UInt8), complete bss bss.flatten.length = bss.length
  | [] => rfl
  | b :: bs => by
    simp only [complete, List.flatten_cons, List.length_append, Nat.le_add_right, if_true, Nat.add_sub_cancel_left, List.length_cons,
      complete_all bs]

theorem wireItems_calls {f : Fmt} : ∀ {msgs : List (List (Ty × Val))} {bss : List (List UInt8)},
    msgs.map (wireItems f) = bss.map some → wireItems f msgs.flatten = some bss.flatten
  | [], bss, h => by
    have : bss = [] := by cases bss with | nil => rfl | cons => simp at h
    subst this; rfl
  | m :: msgs, bss, h => by
    obtain ⟨b, bs, rfl⟩ : ∃ b bs, bss = b :: bs := by cases bss with | nil => simp at h | cons b bs => exact ⟨b, bs, rfl⟩
    simp only [List.map_cons, List.cons.injEq] at h
    rw [List.flatten_cons, List.flatten_cons, wireItems_append' h.1 (wireItems_calls h.2)]

/-- C96, from end to end. A sender writes messages with one output call each; the bytes written are carried over in pieces, cut in
any way. In the end the receiver has exactly the messages sent, in order, and no bytes left. -/
theorem C96_sent (d d' : Nat) (co ci : Cfg) (noFit : Bool) (msgs wanted : List (List (Ty × Val))) (bss : List (List UInt8))
    (st st' : OutSt) (pieces : List (Bool × List UInt8)) (hf : fmtOf ci = fmtOf co)
    (hpos : st.pos ≤ st.data.length) (hlen : st.data.length < 2 ^ 63)
    (hs : Supported co msgs.flatten) (hd : StackOk d msgs.flatten) (hb : BitsOk msgs.flatten st)
    (hw : msgs.map (wireItems (fmtOf co)) = bss.map some) (hl : bss.flatten.length < 2 ^ 63)
    (hok : outCalls d co noFit msgs st = (.ok, st')) (hr : Receivable d' ci msgs)
    (hdest : wanted.map (List.map Prod.fst) = msgs.map (List.map Prod.fst)) (hpieces : pieces ≠ [])
    (hcarried : (pieces.map Prod.snd).flatten = (st'.data.take st'.pos).drop st.pos) :
    ∃ r, receive d' ci pieces ⟨[], 0, wanted, []⟩ = some r ∧ r.got = msgs.map (List.map Prod.snd) ∧ r.data.drop r.pos = [] := by
  have h := (C12_streams d d' co ci noFit msgs msgs st st' bss.flatten hf hpos hlen hs hd hb (wireItems_calls hw) hl hok).1
  rw [h] at hcarried
  obtain ⟨r, h1, h2, h3⟩ := C96_pieces d' ci msgs wanted bss [] pieces hpieces hr (by rw [hf]; exact hw) hdest
    ⟨[], by rw [hcarried]⟩ (by rw [List.append_nil]; omega)
  have hml : msgs.length = bss.length := by simpa using congrArg List.length hw
  rw [hcarried, complete_all, ← hml, List.take_length] at h2
  rw [hcarried, complete_all, List.take_length, List.drop_length] at h3
  exact ⟨r, h1, h2, h3⟩

/-! ## The hypotheses are met -/

/-- Two messages, a string and a number each, in four pieces; the second piece ends inside the size of the second string, and the
bytes read are discarded before the third. The strings of incomplete messages are left in the destinations. -/
example :
    let c := Checks.le Checks.grow (.fixed 2)
    let t : List Ty := [.seq .vector none Checks.chr, .scalar .int 1]
    let msg (s : List Nat) (n : Nat) : List (Ty × Val) := t.zip [.list (s.map .num), .num n]
    let b1 : List UInt8 := [2, 0, 65, 66, 7]
    let b2 : List UInt8 := [3, 0, 67, 68, 69, 8]
    [msg [65, 66] 7, msg [67, 68, 69] 8].map (wireItems (fmtOf c)) = [some b1, some b2] ∧
    complete [b1, b2] 6 = 1 ∧
    (receive 9 c [(false, [2, 0, 65]), (false, [66, 7, 3])] ⟨[], 0, [msg [] 0, msg [] 0], []⟩).map (·.got) =
      some [[.list [.num 65, .num 66], .num 7]] ∧
    (receive 9 c [(false, [2, 0, 65]), (false, [66, 7, 3]), (true, [0, 67]), (false, [68, 69, 8])] ⟨[], 0, [msg [] 0, msg [] 0], []⟩).map
      (fun r => (r.got, r.data, r.pos)) =
      some ([[.list [.num 65, .num 66], .num 7], [.list [.num 67, .num 68, .num 69], .num 8]], b2, 6) := by decide +kernel

/-- Protobuf messages have to be excluded: the length in front of a message is cut to the bytes that are there. A message of two
numbers that has arrived up to the end of the first number is taken for complete, without its second number. -/
theorem C96_message_early :
    let c := Checks.le Checks.grow .varint
    let t : Ty := .msg none false [] [none, none] [.varint 4 false, .varint 4 false]
    wireItems (fmtOf c) [(t, .list [.num 1, .num 2])] = some [4, 8, 1, 16, 2] ∧
    (receive 9 c [(false, [4, 8, 1])] ⟨[], 0, [[(t, .list [.num 0, .num 0])]], []⟩).map (·.got) =
      some [[.list [.num 1, .num 0]]] := by decide +kernel

end Zpp.Props
