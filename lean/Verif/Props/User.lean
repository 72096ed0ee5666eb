import Verif.Proof.User
import Verif.Props.RoundTrip
/-!
# Properties of classes with a user-written `serialize` function

A `Script` is what the user's function does: it hands members to the archive one by one, may decide on the values it
has handed over, and succeeds or returns an error of its own.
-/

namespace Zpp.Props
open Zpp Zpp.Spec

/-- C62, output. Writing an object is writing the members its function hands over, in order: the call does the same as
`out(member, member, ...)`, so everything said of such calls (C01 to C08) holds for it. If the function returns an error
of its own after handing over these members, they are written, and the call returns this error. -/
theorem C62_members (d : Nat) (c : Cfg) (noFit : Bool) (s : Script) (self : Obj) (st : OutSt) :
    scriptCall d c noFit s self st =
      match ending self s, outCall d c noFit (handed self s) st with
      | some e, (.ok, st') => (.err e, st')
      | _, r => r := by
  unfold scriptCall outCall
  rw [scriptOut_eq]
  cases ending self s with
  | none => rw [andThen_skip]
  | some e =>
    rw [fitCall_fail]
    generalize fitCall c noFit (encMany d c (handed self s)) st = r
    obtain ⟨s, st'⟩ := r
    cases s <;> rfl

/-- C62, bytes. When writing succeeds, exactly the encodings of the members handed over were appended. -/
theorem C62_wire (d : Nat) (c : Cfg) (noFit : Bool) (s : Script) (self : Obj) (st st' : OutSt) (bs : List UInt8)
    (hpos : st.pos ≤ st.data.length) (hlen : st.data.length < 2 ^ 63) (hs : Supported c (handed self s))
    (hd : StackOk d (handed self s)) (hb : BitsOk (handed self s) st)
    (hw : wireItems (fmtOf c) (handed self s) = some bs) (hl : bs.length < 2 ^ 63)
    (hok : scriptCall d c noFit s self st = (.ok, st')) :
    ending self s = none ∧ st'.pos = st.pos + bs.length ∧ (st'.data.take st'.pos).drop st.pos = bs := by
  rw [C62_members] at hok
  cases he : ending self s with
  | none =>
    rw [he] at hok
    exact ⟨rfl, (C04_growing_appends d c noFit _ st st' bs hpos hlen hs hd hb hw hl hok).1,
      C03_wire_format d c noFit _ st st' bs hpos hlen hs hd hb hw hl hok⟩
  | some e =>
    rw [he] at hok
    generalize outCall d c noFit (handed self s) st = r at hok
    obtain ⟨x, y⟩ := r
    cases x <;> simp at hok

/-- C62, round trip. Reading with the same function what was written: the reader takes the same decisions, every
member handed over gets its value back, every other member of the destination keeps the value it had. -/
theorem C62_round_trip (d d' : Nat) (co ci : Cfg) (noFit : Bool) (s : Script) (self dest : Obj) (st st' : OutSt)
    (bs : List UInt8) (hf : fmtOf ci = fmtOf co) (hpos : st.pos ≤ st.data.length) (hlen : st.data.length < 2 ^ 63)
    (hs : Supported co (handed self s)) (hd : StackOk d (handed self s)) (hb : BitsOk (handed self s) st)
    (hw : wireItems (fmtOf co) (handed self s) = some bs) (hl : bs.length < 2 ^ 63)
    (hok : scriptCall d co noFit s self st = (.ok, st'))
    (hr : Readable ci (handed self s)) (hd' : StackOk d' (handed self s)) :
    let r := scriptIn d' ci st'.data s dest st.pos
    r.s = .ok ∧ r.p = st'.pos ∧
      ∀ m, r.obj m = if m ∈ (visits self s).map Prod.fst then self m else dest m := by
  have he := (C62_wire d co noFit s self st st' bs hpos hlen hs hd hb hw hl hok).1
  have hok' : outCall d co noFit (handed self s) st = (.ok, st') := by
    rw [C62_members, he] at hok; exact hok
  obtain ⟨h1, k, h2⟩ := C04_growing_appends d co noFit _ st st' bs hpos hlen hs hd hb hw hl hok'
  have hv := (outCall_safe d co hs.growth noFit (handed self s) st ⟨hpos, hlen⟩).valid hs.growth ⟨hpos, hlen⟩
  rw [hok'] at hv
  have := hv.len_lt
  simp only at this
  have hlog := scriptLog_rd hr.abi hr.env (d := d') (data := st'.data) (by omega) self s dest bs (by rw [hf]; exact hw)
    he hr.types hr.load hd' st.pos (st.data.drop (st.pos + bs.length) ++ List.replicate k 0)
    (by rw [h2]; simp; omega) (by
      rw [h2, List.append_assoc, List.append_assoc, List.drop_append_of_le_length (by simp; omega)]
      rw [List.drop_eq_nil_of_le (by simp; omega)]
      simp)
  intro r
  simp only [r]
  rw [scriptIn_log, hlog]
  refine ⟨rfl, h1.symm, fun m => ?_⟩
  dsimp only
  rw [assign_get self _ _ _ (by
    intro x hx
    obtain ⟨y, _, rfl⟩ := List.mem_map.mp hx
    rfl)]
  have hm : ((visits self s).map fun x => (x.1, self x.1)).map Prod.fst = (visits self s).map Prod.fst := by
    rw [List.map_map]; rfl
  by_cases h : m ∈ (visits self s).map Prod.fst
  · rw [if_pos h, if_pos (by rw [hm]; exact h)]
  · rw [if_neg h, if_neg (by rw [hm]; exact h)]

/-- C62, arbitrary bytes. Whatever the function does with what it reads, reading from any bytes ends with one of the
documented outcomes of the archive or an error the function itself returns, and the position stays inside the input. -/
theorem C62_safe (d : Nat) (c : Cfg) (data : List UInt8) (s : Script) (E : Errc → Prop) (dest : Obj) (p : Nat)
    (henv : ∀ i, widthsOk (c.env i) = true) (hw : Always (widthsOk · = true) s) (hE : Fails E s) (hp : p ≤ data.length) :
    let r := scriptIn d c data s dest p
    (InOutcome r.s ∨ ∃ e, E e ∧ r.s = .err e) ∧ p ≤ r.p ∧ r.p ≤ data.length :=
  scriptIn_safe henv s dest p hw hE hp

/-- C62, locality. What was read successfully is read again from the bytes consumed alone, whatever follows them and
whatever the destination holds: the same decisions are taken and the same members get the same values. Cut short by at
least one byte the input is refused with `result_out_of_range`. -/
theorem C62_local (d : Nat) (c : Cfg) (data : List UInt8) (s : Script) (dest dest' : Obj) (p : Nat)
    (habi : AbiOk c.sizeof) (henv : ∀ i, widthsOk (c.env i) = true ∧ selfDelimiting c.dsz (c.env i) = true)
    (hty : Always (fun t => widthsOk t = true ∧ selfDelimiting c.dsz t = true) s) (hp : p ≤ data.length)
    (hok : (scriptIn d c data s dest p).s = .ok) :
    let r := scriptIn d c data s dest p
    (∀ tail, let r' := scriptIn d c (data.take r.p ++ tail) s dest' p
      r'.s = .ok ∧ r'.p = r.p ∧ ∀ m, r'.obj m = r.obj m ∨ r'.obj m = dest' m ∧ r.obj m = dest m) ∧
    (∀ n, p ≤ n → n < r.p → (scriptIn d c (data.take n) s dest' p).s = .err .resultOutOfRange) := by
  have hl := scriptLog_loc (d := d) habi.pos henv s hty
  rw [scriptIn_log] at hok ⊢
  generalize hr : scriptLog d c data s dest p = r at *
  obtain ⟨s1, l, p1⟩ := r
  dsimp only at hok
  subst hok
  obtain ⟨w, rest, h1, h2, h3⟩ := hl dest data p l p1 hp hr
  have hlen : p + w.length ≤ data.length := by
    have := congrArg List.length h1
    simp at this; omega
  have hcut : ∀ n, p ≤ n → n ≤ p + w.length → (data.take n).drop p = w.take (n - p) := by
    intro n _ _
    rw [List.drop_take, h1, List.take_append_of_le_length (by omega)]
  refine ⟨fun tail => ?_, fun n hn hn2 => ?_⟩
  · simp only
    have hfull : scriptLog d c (data.take p1 ++ tail) s dest' p = (.ok, l, p + w.length) :=
      (h3 dest').full (data.take p1 ++ tail) p tail (by simp; omega) (by
        rw [List.drop_append_of_le_length (by simp; omega), hcut p1 (by omega) (by omega),
          List.take_of_length_le (by omega)])
    rw [scriptIn_log, hfull]
    refine ⟨rfl, h2.symm, fun m => ?_⟩
    simp only
    have : ∀ (l : List (Nat × Val)) (a b : Obj), assign a l m = assign b l m ∨ assign a l m = a m ∧ assign b l m = b m := by
      intro l
      induction l with
      | nil => intro a b; exact .inr ⟨rfl, rfl⟩
      | cons x l ih =>
        intro a b
        rcases ih (a.set x.1 x.2) (b.set x.1 x.2) with h | ⟨h, h'⟩
        · exact .inl h
        · simp only [assign, h, h', Obj.set]
          split
          · exact .inl rfl
          · exact .inr ⟨rfl, rfl⟩
    exact this l dest' dest
  · dsimp only at hn2
    rw [scriptIn_log]
    refine (h3 dest').cut (data.take n) p (w.drop (n - p)) (by simp; omega) ?_ ?_
    · rw [hcut n hn (by omega), List.take_append_drop]
    · intro h
      have := congrArg List.length h
      simp at this; omega

theorem listed_out (d : Nat) (c : Cfg) : ∀ (fs : List Ty) (all vs : List Val) (k : Nat), vs.length = fs.length →
    (∀ m, all[k + m]? = vs[m]?) → scriptOut d c (objOf all) (listed k fs) = encFields (encode d c) fs vs := by
  intro fs
  induction fs with
  | nil => intro all vs k h _; cases vs <;> simp_all [listed, scriptOut, encFields]
  | cons t ts ih =>
    intro all vs k h hall
    cases vs with
    | nil => simp at h
    | cons v vs =>
      have h0 := hall 0
      simp only [Nat.add_zero, List.getElem?_cons_zero] at h0
      simp only [listed, scriptOut, encFields]
      rw [ih all vs (k + 1) (by simpa using h) (fun m => by
        have := hall (m + 1)
        rw [show k + 1 + m = k + (m + 1) by omega, this, List.getElem?_cons_succ])]
      simp [objOf, h0]

theorem listed_in (d : Nat) (c : Cfg) (data : List UInt8) : ∀ (fs : List Ty) (o : Obj) (os : List Val) (k p : Nat),
    os.length = fs.length → (∀ m, m < os.length → o (k + m) = os[m]?.getD .unit) →
    let r := scriptIn d c data (listed k fs) o p
    let r' := decFields (fun t v p => decode d c t v data p) fs os p
    r.s = r'.s ∧ r.p = r'.p ∧ r'.vs.length = fs.length ∧ (∀ m, m < fs.length → r.obj (k + m) = r'.vs[m]?.getD .unit) ∧
      ∀ m, m < k ∨ k + fs.length ≤ m → r.obj m = o m := by
  intro fs
  induction fs with
  | nil => intro o os k p h ho; simp [listed, scriptIn, decFields]
  | cons t ts ih =>
    intro o os k p h ho
    cases os with
    | nil => simp at h
    | cons v os =>
      have h0 := ho 0 (by simp)
      simp only [Nat.add_zero, List.getElem?_cons_zero, Option.getD_some] at h0
      simp only [List.length_cons] at h
      simp only [listed, scriptIn, decFields, List.headD_cons, List.tail_cons, h0]
      generalize hr : decode d c t v data p = r
      obtain ⟨s, v', p'⟩ := r
      have fin : ∀ s : Status, (⟨s, o.set k v', p'⟩ : ResU).s = (⟨s, v' :: os, p'⟩ : ResL).s ∧ p' = p' ∧
          (v' :: os).length = (t :: ts).length ∧
          (∀ m, m < (t :: ts).length → (o.set k v') (k + m) = (v' :: os)[m]?.getD .unit) ∧
          ∀ m, m < k ∨ k + (t :: ts).length ≤ m → (o.set k v') m = o m := by
        intro s
        refine ⟨rfl, rfl, by simp only [List.length_cons]; omega, fun m hm => ?_, fun m hm => ?_⟩
        · cases m with
          | zero => simp [Obj.set]
          | succ m =>
            have := ho (m + 1) (by simp only [List.length_cons] at hm ⊢; omega)
            simp only [Obj.set, List.getElem?_cons_succ] at this ⊢
            rw [if_neg (by omega), this]
        · simp only [Obj.set]
          rw [if_neg (by simp only [List.length_cons] at hm; omega)]
      cases s with
      | ok =>
        obtain ⟨i1, i2, i3, i4, i5⟩ := ih (o.set k v') os (k + 1) p' (by omega) (fun m hm => by
          have := ho (m + 1) (by simp only [List.length_cons]; omega)
          simp only [Obj.set, List.getElem?_cons_succ] at this ⊢
          rw [if_neg (by omega), show k + 1 + m = k + (m + 1) by omega, this])
        refine ⟨i1, i2, by simp only [List.length_cons, i3], fun m hm => ?_, fun m hm => ?_⟩
        · cases m with
          | zero =>
            have := i5 k (by omega)
            simp only [Nat.add_zero, this, Obj.set, if_true, List.getElem?_cons_zero, Option.getD_some]
          | succ m =>
            have := i4 m (by simp only [List.length_cons] at hm; omega)
            simp only [List.getElem?_cons_succ]
            rw [show k + (m + 1) = k + 1 + m by omega, this]
        · simp only [List.length_cons] at hm
          have := i5 m (by omega)
          simp only [this, Obj.set]
          rw [if_neg (by omega)]
      | _ => exact fin _

/-- C62, plain functions. A class whose function hands over all its members in order, `return archive(self.a, self.b, ...)`,
is written and read as a class with these members and without function (one that is not trivially copyable, so that no
bytes are copied). So every theorem about types containing `.struct false members` anywhere, in containers, optionals,
pointers, variants, also holds for classes with such functions. -/
theorem C62_listed (d : Nat) (c : Cfg) (fs : List Ty) (vs : List Val) (h : vs.length = fs.length) :
    scriptOut d c (objOf vs) (listed 0 fs) = encode (d + 1) c (.struct false fs) (.list vs) ∧
    ∀ (data : List UInt8) (p : Nat),
      let r := scriptIn d c data (listed 0 fs) (objOf vs) p
      let r' := decode (d + 1) c (.struct false fs) (.list vs) data p
      r.s = r'.s ∧ r.p = r'.p ∧ ∀ m, m < fs.length → r.obj m = r'.v.elems[m]?.getD .unit := by
  have hb : asBytes c (.struct false fs) = false := by simp [asBytes, Ty.endianIndep, Ty.byteSer]
  refine ⟨?_, fun data p => ?_⟩
  · rw [listed_out d c fs vs vs 0 h (fun m => by rw [Nat.zero_add])]
    simp only [encode, hb, Bool.false_eq_true, if_false]
  · obtain ⟨i1, i2, i3, i4, -⟩ := listed_in d c data fs (objOf vs) vs 0 p h (fun m _ => by rw [Nat.zero_add]; rfl)
    simp only [decode, hb, Bool.false_eq_true, if_false, ResL.toRes, Val.elems]
    refine ⟨i1, i2, fun m hm => ?_⟩
    have := i4 m hm
    rwa [Nat.zero_add] at this

/-- A class with an `int` and a string. -/
example : scriptCall 9 (Checks.le Checks.grow (.fixed 1)) false (listed 0 [Checks.i32, Checks.str])
    (objOf [.num 7, Checks.strV [65]]) ⟨[], 0⟩ = (.ok, ⟨[7, 0, 0, 0, 1, 65], 6⟩) := by decide +kernel

/-- A tagged object: member 0 is a byte; 1 selects an `int`, 2 a string and another object of the same kind further on,
anything else is refused. -/
def tagged : Nat → Script
  | 0 => .done
  | n + 1 => .archive (3 * n) Checks.chr fun v =>
    if v = .num 1 then .archive (3 * n + 1) Checks.i32 fun _ => .done
    else if v = .num 2 then .archive (3 * n + 2) Checks.str fun _ => tagged n
    else .fail .protocolError

/-- An object whose first tag is 2 and whose second one is 1. -/
def taggedObj : Obj
  | 3 => .num 2
  | 5 => Checks.strV [65, 66]
  | 0 => .num 1
  | 1 => .num 7
  | _ => .num 9

-- Writing: the members selected by the tags, and nothing else.
example : scriptCall 9 (Checks.le Checks.grow (.fixed 1)) false (tagged 2) taggedObj ⟨[], 0⟩ =
    (.ok, ⟨[2, 2, 65, 66, 1, 7, 0, 0, 0], 9⟩) := by decide +kernel
-- Reading it back over other contents; members 2 and 4 are not touched.
example :
    let r := scriptIn 9 (Checks.le Checks.grow (.fixed 1)) [2, 2, 65, 66, 1, 7, 0, 0, 0] (tagged 2) (fun _ => .num 5) 0
    r.s = .ok ∧ r.p = 9 ∧ [0, 1, 2, 3, 4, 5].map r.obj =
      [.num 1, .num 7, .num 5, .num 2, .num 5, Checks.strV [65, 66]] := by decide +kernel
-- A tag nobody wrote; a string longer than the input.
example : (scriptIn 9 (Checks.le Checks.grow (.fixed 1)) [2, 1, 65, 3] (tagged 2) (fun _ => .num 5) 0).s =
    .err .protocolError := by decide +kernel
example : (scriptIn 9 (Checks.le Checks.grow (.fixed 1)) [2, 3, 65, 3] (tagged 2) (fun _ => .num 5) 0).s =
    .err .resultOutOfRange := by decide +kernel
-- The hypotheses of the theorems.
example : ending taggedObj (tagged 2) = none ∧ (visits taggedObj (tagged 2)).map Prod.fst = [3, 5, 0, 1] ∧
    wireItems (fmtOf (Checks.le Checks.grow (.fixed 1))) (handed taggedObj (tagged 2)) =
      some [2, 2, 65, 66, 1, 7, 0, 0, 0] := by decide +kernel
example :
    let c := Checks.le Checks.grow (.fixed 1)
    Supported c (handed taggedObj (tagged 2)) ∧ Readable c (handed taggedObj (tagged 2)) ∧
    StackOk 9 (handed taggedObj (tagged 2)) ∧ BitsOk (handed taggedObj (tagged 2)) ⟨[], 0⟩ := by
  have hh : handed taggedObj (tagged 2) =
    [(Checks.chr, .num 2), (Checks.str, Checks.strV [65, 66]), (Checks.chr, .num 1), (Checks.i32, .num 7)] := rfl
  intro c
  rw [hh]
  refine ⟨⟨grow_ok, so_abi, fun _ => ⟨rfl, rfl⟩, ?_⟩, ⟨so_abi, fun _ => ⟨rfl, rfl⟩, ?_, ?_⟩, ?_, Or.inl ?_⟩
  all_goals intro x hx; simp only [List.mem_cons, List.not_mem_nil, or_false] at hx
  all_goals rcases hx with rfl | rfl | rfl | rfl
  all_goals first
    | rfl
    | trivial
    | decide
    | simp [c, Checks.str, Checks.strV, Loadable, LoadableL, Fits, Checks.le, Checks.grow, Checks.so, Checks.chr]
theorem tagged_always {P : Ty → Prop} (h1 : P Checks.chr) (h2 : P Checks.i32) (h3 : P Checks.str) :
    ∀ n, Always P (tagged n) := by
  intro n
  induction n with
  | zero => exact .done
  | succ n ih =>
    refine .archive h1 fun v => ?_
    split
    · exact .archive h2 fun _ => .done
    · split
      · exact .archive h3 fun _ => ih
      · exact .fail _
example : Always (widthsOk · = true) (tagged 2) :=
  tagged_always (P := (widthsOk · = true)) rfl rfl rfl 2
example : Always (fun t => widthsOk t = true ∧ selfDelimiting (.fixed 1) t = true) (tagged 2) :=
  tagged_always ⟨rfl, rfl⟩ ⟨rfl, rfl⟩ ⟨rfl, rfl⟩ 2
theorem tagged_fails : ∀ n, Fails (· = .protocolError) (tagged n) := by
  intro n
  induction n with
  | zero => exact .done
  | succ n ih =>
    refine .archive fun v => ?_
    split
    · exact .archive fun _ => .done
    · split
      · exact .archive fun _ => ih
      · exact .fail rfl

end Zpp.Props
