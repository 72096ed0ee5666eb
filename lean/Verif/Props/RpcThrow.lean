import Verif.Proof.RpcThrow
/-!
# Servers of functions that return `zpp::throwing`

C87: such a server reads and calls like an ordinary one and throws what an ordinary one returns; an error thrown by a function
comes out of `serve()`, with two exceptions that the code gets wrong.
-/

namespace Zpp.Props
open Zpp Zpp.Spec

/-- C87. The id cannot be read: its error is thrown, no function is called and nothing is written. -/
theorem C87_no_id {σ : Type} (d : Nat) (c : Cfg) (noFit : Bool) (idTy : Ty) (bs : List (TBinding σ)) (w : σ) (data : List UInt8)
    (p : Nat) (o : OutSt) (s : Status) (vs : List Val) (p' : Nat)
    (h : decMany d c data (fresh c d [idTy]) p = ⟨s, vs, p'⟩) (hs : s ≠ .ok) :
    serveT d c noFit idTy bs w data p o = ⟨asThrown s, w, p', o⟩ := by
  simp only [fresh, List.map_cons, List.map_nil] at h
  simp only [serveT, h]
  cases s <;> first | exact absurd rfl hs | rfl

/-- C87. No function is bound to the id read: `not_supported` is thrown, no function is called and nothing is written. -/
theorem C87_unknown_id {σ : Type} (d : Nat) (c : Cfg) (noFit : Bool) (idTy : Ty) (bs : List (TBinding σ)) (w : σ)
    (data : List UInt8) (p : Nat) (o : OutSt) (id : Val) (p' : Nat)
    (hid : decMany d c data (fresh c d [idTy]) p = ⟨.ok, [id], p'⟩) (h : ∀ b ∈ bs, b.id ≠ id) :
    serveT d c noFit idTy bs w data p o = ⟨.thrown (.code (some .notSupported)), w, p', o⟩ := by
  simp only [fresh, List.map_cons, List.map_nil] at hid
  simp only [serveT, hid, List.headD_cons]
  exact callBindingT_unknown h

/-- C87. The arguments cannot be read: their error is thrown, the function is not called and nothing is written. -/
theorem C87_bad_arguments {σ : Type} (d : Nat) (c : Cfg) (noFit : Bool) (idTy : Ty) (bs : List (TBinding σ)) (w : σ)
    (data : List UInt8) (p : Nat) (o : OutSt) (id : Val) (p' i : Nat) (params : List Ty) (body : TBody σ)
    (s : Status) (vs : List Val) (p'' : Nat)
    (hn : nodup (bs.map TBinding.id) = true)
    (hid : decMany (d + 1) c data (fresh c (d + 1) [idTy]) p = ⟨.ok, [id], p'⟩) (hi : bs[i]? = some (.bind id params body))
    (hargs : decMany d c data (fresh c d params) p' = ⟨s, vs, p''⟩) (hs : s ≠ .ok) :
    serveT (d + 1) c noFit idTy bs w data p o = ⟨asThrown s, w, p'', o⟩ := by
  rw [serveT_bound hn hid hi, callBindT_refused hargs hs, asThrown_eq]

/-- C87. The id and the arguments are read and the function is called with them, once: what it throws, or the code it returns,
is thrown by `serve()`; an object it gives is written, and is all that is written. Not proved, because it is false, for functions
with parameters that return `errc` and succeed, or return `zpp::throwing<void>` and throw: `C87_errc_thrown`,
`C87_void_lost`. -/
theorem C87_called_partial {σ : Type} (d : Nat) (c : Cfg) (noFit : Bool) (idTy : Ty) (bs : List (TBinding σ)) (w : σ)
    (data : List UInt8) (p : Nat) (o : OutSt) (id : Val) (p' i : Nat) (params : List Ty) (body : TBody σ)
    (args : List Val) (p'' : Nat)
    (hn : nodup (bs.map TBinding.id) = true)
    (hid : decMany (d + 1) c data (fresh c (d + 1) [idTy]) p = ⟨.ok, [id], p'⟩) (hi : bs[i]? = some (.bind id params body))
    (hargs : decMany d c data (fresh c d params) p' = ⟨.ok, args, p''⟩) (hm : ¬ Misreported params body w args) :
    serveT (d + 1) c noFit idTy bs w data p o =
      ⟨(replyT (d + 1) c noFit o (outcome body w args).1).1, (outcome body w args).2, p'',
        (replyT (d + 1) c noFit o (outcome body w args).1).2⟩ := by
  rw [serveT_bound hn hid hi, callBindT_called hargs hm]

/-- C87, the first exception: a function with parameters that returns `zpp::throwing<void>` throws, and `serve()` returns
normally. -/
theorem C87_void_lost {σ : Type} (d : Nat) (c : Cfg) (noFit : Bool) (idTy : Ty) (bs : List (TBinding σ)) (w : σ)
    (data : List UInt8) (p : Nat) (o : OutSt) (id : Val) (p' i : Nat) (params : List Ty) (f : σ → List Val → Option Thrown × σ)
    (args : List Val) (p'' : Nat) (e : Thrown)
    (hn : nodup (bs.map TBinding.id) = true)
    (hid : decMany (d + 1) c data (fresh c (d + 1) [idTy]) p = ⟨.ok, [id], p'⟩)
    (hi : bs[i]? = some (.bind id params (.throwsVoid f))) (hp : params ≠ [])
    (hargs : decMany d c data (fresh c d params) p' = ⟨.ok, args, p''⟩) (_he : (f w args).1 = some e) :
    serveT (d + 1) c noFit idTy bs w data p o = ⟨.done, (f w args).2, p'', o⟩ := by
  rw [serveT_bound hn hid hi]
  simp only [callBindT, applyT, readParams_eq hargs]
  cases params with
  | nil => exact absurd rfl hp
  | cons t ts => rfl

/-- C87, the second exception: a function with parameters that returns `errc` succeeds, and `serve()` throws the code 0, which
means success. -/
theorem C87_errc_thrown {σ : Type} (d : Nat) (c : Cfg) (noFit : Bool) (idTy : Ty) (bs : List (TBinding σ)) (w : σ)
    (data : List UInt8) (p : Nat) (o : OutSt) (id : Val) (p' i : Nat) (params : List Ty) (f : σ → List Val → Option Errc × σ)
    (args : List Val) (p'' : Nat)
    (hn : nodup (bs.map TBinding.id) = true)
    (hid : decMany (d + 1) c data (fresh c (d + 1) [idTy]) p = ⟨.ok, [id], p'⟩)
    (hi : bs[i]? = some (.bind id params (.plain (.errc f)))) (hp : params ≠ [])
    (hargs : decMany d c data (fresh c d params) p' = ⟨.ok, args, p''⟩) (he : (f w args).1 = none) :
    serveT (d + 1) c noFit idTy bs w data p o = ⟨.thrown (.code none), (f w args).2, p'', o⟩ := by
  rw [serveT_bound hn hid hi]
  simp only [callBindT, applyT, C38_called d c params _ data p' w args p'' hp hargs, he]
  rfl

/-- C87. The id read is bound opaquely to a function of the archives: it is called, once, with the archives right behind the id;
what it throws is thrown, an object it gives is written behind what it wrote. -/
theorem C87_archives {σ : Type} (d : Nat) (c : Cfg) (noFit : Bool) (idTy : Ty) (bs : List (TBinding σ)) (w w' : σ)
    (data : List UInt8) (p : Nat) (o o' : OutSt) (id : Val) (p' p'' i : Nat)
    (f : σ → List UInt8 → Nat → OutSt → TOpaqueRet × σ × Nat × OutSt) (ret : TOpaqueRet)
    (hn : nodup (bs.map TBinding.id) = true)
    (hid : decMany d c data (fresh c d [idTy]) p = ⟨.ok, [id], p'⟩)
    (hi : bs[i]? = some (.opaque id (.archives f)))
    (hf : f w data p' o = (ret, w', p'', o')) :
    serveT d c noFit idTy bs w data p o =
      ⟨(replyT d c noFit o' (opaqueOutcome ret)).1, w', p'', (replyT d c noFit o' (opaqueOutcome ret)).2⟩ := by
  have hc := callBindingT_nth (d := d) (c := c) (noFit := noFit) (w := w) (data := data) (p := p') (o := o) hn hi
  simp only [TBinding.id, callT] at hc
  simp only [fresh, List.map_cons, List.map_nil] at hid
  simp only [serveT, hid, List.headD_cons, hc, callOpaqueT, hf]
  exact opaqueReply_eq ret

/-- C87. The id read is bound opaquely to a function of the remaining bytes: it is called, once, with exactly the bytes behind the
id, and the input position moves on by the size of the span it left. -/
theorem C87_bytes {σ : Type} (d : Nat) (c : Cfg) (noFit : Bool) (idTy : Ty) (bs : List (TBinding σ)) (w w' : σ)
    (data : List UInt8) (p : Nat) (o : OutSt) (id : Val) (p' i k : Nat)
    (f : σ → List UInt8 → TOpaqueRet × σ × Nat) (ret : TOpaqueRet) (hn : nodup (bs.map TBinding.id) = true)
    (hwid : widthsOk idTy = true) (henv : ∀ i, widthsOk (c.env i) = true) (hp : p ≤ data.length)
    (hid : decMany d c data (fresh c d [idTy]) p = ⟨.ok, [id], p'⟩)
    (hi : bs[i]? = some (.opaque id (.bytes f)))
    (hf : f w (data.drop p') = (ret, w', k)) :
    serveT d c noFit idTy bs w data p o =
      ⟨(replyT d c noFit o (opaqueOutcome ret)).1, w', p' + k, (replyT d c noFit o (opaqueOutcome ret)).2⟩ := by
  have hsafe := (decMany_safe (d := d) (c := c) (data := data) henv (fresh c d [idTy]) p
    (by simp [fresh, hwid]) hp).inb
  rw [hid] at hsafe
  simp only at hsafe
  have hc := callBindingT_nth (d := d) (c := c) (noFit := noFit) (w := w) (data := data) (p := p') (o := o) hn hi
  simp only [TBinding.id, callT] at hc
  simp only [fresh, List.map_cons, List.map_nil] at hid
  simp only [serveT, hid, List.headD_cons, hc, callOpaqueT, hf, if_neg (Nat.not_lt.2 hsafe)]
  exact opaqueReply_eq ret

/-- C87. If no function throws, and none that has parameters returns `errc`, such a server does, to its inputs, its outputs and
the world, what the server of the corresponding ordinary functions does on the same request, whatever the bytes of the request
are, and throws the error code that one returns: what is proved of clients and ordinary servers (C36, C85) holds with it. -/
theorem C87_like_ordinary {σ : Type} (d : Nat) (c : Cfg) (noFit : Bool) (idTy : Ty) (bs : List (TBinding σ))
    (bs' : List (Binding σ)) (w : σ) (data : List UInt8) (p : Nat) (o : OutSt)
    (hl : bs'.length = bs.length)
    (hb : ∀ (i : Nat) (b : TBinding σ), bs[i]? = some b → ∃ b', bs'[i]? = some b' ∧ PlainBinding b b')
    (hf : ∀ id params body, .bind id params body ∈ bs → NeverThrows body ∧ (params = [] ∨ ¬ ReturnsErrc body)) :
    let r := serve (d + 1) c noFit idTy bs' w data p o
    serveT (d + 1) c noFit idTy bs w data p o = ⟨asThrown r.s, r.w, r.p, r.o⟩ := by
  intro r
  rcases hd : decMany (d + 1) c data [(idTy, dflt c (d + 1) idTy)] p with ⟨s, vs, p'⟩
  cases s
  case ok =>
    simp only [r, serve, serveT, hd]
    exact callBindingT_like bs bs' hl hb hf
  all_goals simp only [r, serve, serveT, hd]; rfl

/-! ## Examples -/

/-- The bound functions of the examples: of one byte, which is its argument unless it is 0; of nothing, which always throws; of one
byte, which throws if it is 0, but nobody notices; one that returns `errc`; two opaque ones. -/
def exThrows : List (TBinding (List Nat)) := [
  .bind (.num 1) [.scalar .int 1] (.throws (.scalar .int 2) fun w a =>
    match a with
    | [.num 0] => (.error (.other 5), w)
    | [.num n] => (.ok (.num (n + 1)), w ++ [n])
    | _ => (.error (.other 6), w)),
  .bind (.num 2) [] (.throwsVoid fun w _ => (some (.other 7), w ++ [2])),
  .bind (.num 3) [.scalar .int 1] (.throwsVoid fun w a => (if a = [.num 0] then some (.other 8) else none, w ++ [3])),
  .bind (.num 4) [.scalar .int 1] (.plain (.errc fun w a => (if a = [.num 0] then none else some .badMessage, w ++ [4]))),
  .opaque (.num 5) (.bytes fun w bs => (.await (.scalar .int 1) (if bs.length = 2 then .error (.code none) else .ok (.num 9)),
    w ++ [bs.length], 1)),
  .opaque (.num 6) (.archives fun w _ p o => (.awaitVoid (some (.code (some .badMessage))), w ++ [p], p + 1,
    ⟨o.data ++ [1], o.pos + 1⟩))]

/-- Requests that meet the hypotheses of each of the theorems above. -/
example :
    let c := Checks.le Checks.grow (.fixed 1)
    let id := Ty.scalar .int 1
    let sv := fun data => let r := serveT 21 c false id exThrows [] data 0 ⟨[9], 1⟩; (r.s, r.w, r.p, r.o)
    nodup (exThrows.map TBinding.id) = true ∧ widthsOk id = true ∧
    decMany 21 c [1, 7] (fresh c 21 [id]) 0 = ⟨.ok, [.num 1], 1⟩ ∧
    decMany 20 c [1, 7] (fresh c 20 [id]) 1 = ⟨.ok, [.num 7], 2⟩ ∧
    [[1, 7], [1, 0], [2], [3, 1], [3, 0], [4, 1], [4, 0], [5, 1, 1, 1], [5, 1, 1], [6, 1], [7], [1], []].map sv = [
      (.done, [7], 2, ⟨[9, 8, 0], 3⟩),
      (.thrown (.other 5), [], 2, ⟨[9], 1⟩),
      (.thrown (.other 7), [2], 1, ⟨[9], 1⟩),
      (.done, [3], 2, ⟨[9], 1⟩),
      (.done, [3], 2, ⟨[9], 1⟩),
      (.thrown (.code (some .badMessage)), [4], 2, ⟨[9], 1⟩),
      (.thrown (.code none), [4], 2, ⟨[9], 1⟩),
      (.done, [3], 2, ⟨[9, 9], 2⟩),
      (.thrown (.code none), [2], 2, ⟨[9], 1⟩),
      (.thrown (.code (some .badMessage)), [1], 2, ⟨[9, 1], 2⟩),
      (.thrown (.code (some .notSupported)), [], 1, ⟨[9], 1⟩),
      (.thrown (.code (some .resultOutOfRange)), [], 1, ⟨[9], 1⟩),
      (.thrown (.code (some .resultOutOfRange)), [], 0, ⟨[9], 1⟩)] := by
  decide +kernel

/-- The ones of `C87_called_partial` are not the exceptions; the others are. -/
example (w : List Nat) :
    ¬ Misreported (σ := List Nat) [.scalar .int 1] (.plain (.errc fun w a => (if a = [.num 0] then none else some .badMessage, w ++ [4])))
      w [.num 1] ∧
    Misreported (σ := List Nat) [.scalar .int 1] (.plain (.errc fun w a => (if a = [.num 0] then none else some .badMessage, w ++ [4])))
      w [.num 0] ∧
    ¬ Misreported (σ := List Nat) [] (.throwsVoid fun w _ => (some (.other 7), w ++ [2])) w [] := by
  refine ⟨?_, ⟨by simp, Or.inl ⟨_, rfl, by simp⟩⟩, ?_⟩
  · rintro ⟨_, ⟨f, h, hf⟩ | ⟨f, e, h, _⟩⟩
    · cases h
      simp at hf
    · cases h
  · rintro ⟨h, _⟩
    exact h rfl

/-- Functions that do not throw, and the ordinary ones. -/
def exCalm : List (TBinding (List Nat)) := [
  .bind (.num 1) [.scalar .int 1] (.throws (.scalar .int 2) fun w a => (.ok (.num a.length), w ++ [a.length])),
  .bind (.num 2) [] (.plain (.errc fun w _ => (some .badMessage, w ++ [2]))),
  .bind (.num 3) [.bool] (.throwsVoid fun w _ => (none, w ++ [3])),
  .opaque (.num 4) (.bytes fun w bs => (.plain (.value (.scalar .int 1) (.num 9)), w ++ [bs.length], 1))]

/-- They meet the hypotheses of `C87_like_ordinary`. -/
example :
    let bs' : List (Binding (List Nat)) := [
      .bind (.num 1) [.scalar .int 1] (.value (.scalar .int 2) fun w a => (.num a.length, w ++ [a.length])),
      .bind (.num 2) [] (.errc fun w _ => (some .badMessage, w ++ [2])),
      .bind (.num 3) [.bool] (.void fun w _ => w ++ [3]),
      .opaque (.num 4) (.value (.scalar .int 1))
        (.bytes fun w bs => (.value (.scalar .int 1) (.num 9), w ++ [bs.length], 1))]
    bs'.length = exCalm.length ∧
    (∀ (i : Nat) (b : TBinding (List Nat)), exCalm[i]? = some b → ∃ b', bs'[i]? = some b' ∧ PlainBinding b b') ∧
    (∀ id params body, .bind id params body ∈ exCalm → NeverThrows body ∧ (params = [] ∨ ¬ ReturnsErrc body)) := by
  refine ⟨rfl, ?_, ?_⟩
  · intro i b h
    rcases i with _ | _ | _ | _ | i
    · cases h; exact ⟨_, rfl, rfl⟩
    · cases h; exact ⟨_, rfl, rfl⟩
    · cases h; exact ⟨_, rfl, rfl⟩
    · cases h; exact ⟨_, rfl, _, _, rfl, fun _ _ => rfl⟩
    · cases h
  · intro id params body h
    simp only [exCalm, List.mem_cons, List.not_mem_nil, or_false, TBinding.bind.injEq, reduceCtorEq] at h
    rcases h with ⟨_, _, rfl⟩ | ⟨_, rfl, rfl⟩ | ⟨_, _, rfl⟩
    · exact ⟨fun _ _ => ⟨_, rfl⟩, .inr fun h => h⟩
    · exact ⟨trivial, .inl rfl⟩
    · exact ⟨fun _ _ => rfl, .inr fun h => h⟩

end Zpp.Props
