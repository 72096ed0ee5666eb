import Verif.Spec.Search
import Verif.Props.Layout
import Verif.Checks
/-!
# C126 Searching a table of records without reading it
-/

namespace Zpp
open Spec

/-- The loop, when record `i` can be read at its place. -/
theorem searchLoop_spec {d : Nat} {c : Cfg} {file : List UInt8} {t : Ty} {base w : Nat} {before : Val → Bool} {vs : List Val}
    (hread : ∀ (i : Nat) (v old : Val), vs[i]? = some v → ∃ p, decMany d c file [(t, old)] (base + i * w) = ⟨.ok, [v], p⟩)
    (hsort : ∀ (i j : Nat) (u v : Val), i ≤ j → vs[i]? = some u → vs[j]? = some v → before v = true → before u = true) :
    ∀ (fuel lo hi : Nat) (r : Val) (reads : Nat), lo ≤ hi → hi ≤ vs.length → hi - lo ≤ fuel →
      (∀ (i : Nat) (v : Val), i < lo → vs[i]? = some v → before v = true) → (∀ (i : Nat) (v : Val), hi ≤ i → vs[i]? = some v → before v = false) →
      ∃ f, searchLoop d c file t base w before fuel lo hi r reads = f ∧ f.s = .ok ∧ f.at_ ≤ vs.length ∧
        (∀ (i : Nat) (v : Val), i < f.at_ → vs[i]? = some v → before v = true) ∧ (∀ (i : Nat) (v : Val), f.at_ ≤ i → vs[i]? = some v → before v = false) ∧
        ∃ k, f.reads = reads + k ∧ (hi - lo = 0 → k = 0) ∧ (0 < hi - lo → 2 ^ k ≤ 2 * (hi - lo)) := by
  intro fuel
  induction fuel with
  | zero =>
    intro lo hi r reads h1 h2 h3 hlo hhi
    have : lo = hi := by omega
    subst this
    exact ⟨_, rfl, rfl, h2, hlo, hhi, 0, rfl, fun _ => rfl, fun h => by omega⟩
  | succ fuel ih =>
    intro lo hi r reads h1 h2 h3 hlo hhi
    rw [searchLoop]
    by_cases hlt : lo < hi
    · rw [if_pos hlt]
      have hmid : lo + (hi - lo) / 2 < hi := by omega
      generalize hm : lo + (hi - lo) / 2 = mid at *
      have hget : vs[mid]? = some vs[mid] := List.getElem?_eq_getElem (by omega)
      obtain ⟨p, hp⟩ := hread mid _ r hget
      simp only [hp, firstOf]
      by_cases hb : before vs[mid] = true
      · rw [if_pos hb]
        obtain ⟨f, e, f1, f2, f3, f4, k, f5, f6, f7⟩ := ih (mid + 1) hi vs[mid] (reads + 1) (by omega) h2 (by omega)
          (fun i v hi' hv => hsort i mid v _ (by omega) hv hget hb) hhi
        refine ⟨f, e, f1, f2, f3, f4, k + 1, by omega, fun h => by omega, fun _ => ?_⟩
        by_cases hz : hi - (mid + 1) = 0
        · rw [f6 hz]; simp; omega
        · have := f7 (by omega)
          rw [Nat.pow_succ]; omega
      · rw [if_neg hb]
        have hb' : before vs[mid] = false := by simpa using hb
        obtain ⟨f, e, f1, f2, f3, f4, k, f5, f6, f7⟩ := ih lo mid vs[mid] (reads + 1) (by omega) (by omega) (by omega) hlo
          (fun i v hi' hv => by
            cases hx : before v with
            | false => rfl
            | true => exact absurd (hsort mid i _ v hi' hget hv hx) (by simp [hb']))
        refine ⟨f, e, f1, f2, f3, f4, k + 1, by omega, fun h => by omega, fun _ => ?_⟩
        by_cases hz : mid - lo = 0
        · rw [f6 hz]; simp; omega
        · have := f7 (by omega)
          rw [Nat.pow_succ]; omega
    · rw [if_neg hlt]
      have : lo = hi := by omega
      subst this
      exact ⟨_, rfl, rfl, h2, hlo, hhi, 0, rfl, fun _ => rfl, fun h => by omega⟩

/-- The loop over any bytes. -/
theorem searchLoop_any {d : Nat} {c : Cfg} {file : List UInt8} {t : Ty} {base w : Nat} {before : Val → Bool} {n : Nat} (hn : base + n * w ≤ file.length)
    (henv : ∀ i, widthsOk (c.env i) = true) (ht : widthsOk t = true) :
    ∀ (fuel lo hi : Nat) (r : Val) (reads : Nat), lo ≤ hi → hi ≤ n →
      ∃ f, searchLoop d c file t base w before fuel lo hi r reads = f ∧ InOutcome f.s ∧ f.at_ ≤ n ∧
        ∃ k, f.reads = reads + k ∧ (hi - lo = 0 → k = 0) ∧ (0 < hi - lo → 2 ^ k ≤ 2 * (hi - lo)) := by
  intro fuel
  induction fuel with
  | zero =>
    intro lo hi r reads h1 h2
    exact ⟨_, rfl, trivial, Nat.le_trans h1 h2, 0, rfl, fun _ => rfl, fun h => by simp; omega⟩
  | succ fuel ih =>
    intro lo hi r reads h1 h2
    rw [searchLoop]
    by_cases hlt : lo < hi
    · rw [if_pos hlt]
      have hmid : lo + (hi - lo) / 2 < hi := by omega
      generalize hm : lo + (hi - lo) / 2 = mid at *
      have hp : base + mid * w ≤ file.length := by
        have := Nat.mul_le_mul_right w (show mid ≤ n by omega)
        omega
      have hs := (Props.C13_safe d c file [(t, r)] (base + mid * w) henv (by simp [ht]) hp).1
      simp only
      generalize decMany d c file [(t, r)] (base + mid * w) = x at hs ⊢
      obtain ⟨s, xs, p⟩ := x
      have hfail : ∀ s, InOutcome s → ∃ f : SearchEnd, (⟨s, lo, reads + 1⟩ : SearchEnd) = f ∧ InOutcome f.s ∧ f.at_ ≤ n ∧
          ∃ k, f.reads = reads + k ∧ (hi - lo = 0 → k = 0) ∧ (0 < hi - lo → 2 ^ k ≤ 2 * (hi - lo)) :=
        fun s h => ⟨_, rfl, h, by simp only; omega, 1, rfl, fun h => by omega, fun h => by simp only [Nat.pow_one]; omega⟩
      cases s <;> simp only <;> try exact hfail _ hs
      by_cases hb : before (firstOf xs) = true
      · rw [if_pos hb]
        obtain ⟨f, e, f1, f2, k, f5, f6, f7⟩ := ih (mid + 1) hi (firstOf xs) (reads + 1) (by omega) h2
        refine ⟨f, e, f1, f2, k + 1, by omega, fun h => by omega, fun _ => ?_⟩
        by_cases hz : hi - (mid + 1) = 0
        · rw [f6 hz]; simp; omega
        · have := f7 (by omega)
          rw [Nat.pow_succ]; omega
      · rw [if_neg hb]
        obtain ⟨f, e, f1, f2, k, f5, f6, f7⟩ := ih lo mid (firstOf xs) (reads + 1) (by omega) (by omega)
        refine ⟨f, e, f1, f2, k + 1, by omega, fun h => by omega, fun _ => ?_⟩
        by_cases hz : mid - lo = 0
        · rw [f6 hz]; simp; omega
        · have := f7 (by omega)
          rw [Nat.pow_succ]; omega
    · rw [if_neg hlt]
      exact ⟨_, rfl, trivial, Nat.le_trans h1 h2, 0, rfl, fun _ => rfl, fun h => by omega⟩

end Zpp

namespace Zpp.Props
open Spec

/-- C126: a vector of records of a type of static size, written by an output archive with any size prefix of `k` bytes. The search in the buffer, with any input
archive of the same format, finds the number of records that come before what is looked for: all records in front of that place come before it and none behind. It
reads at most `log2 n + 1` records; no call fails. -/
theorem C126_search (d d' : Nat) (c ci : Cfg) (noFit : Bool) (t : Ty) (k w : Nat) (vs : List Val) (before : Val → Bool) (r : Val) (st st' : OutSt) (bs : List UInt8)
    (hf : fmtOf ci = fmtOf c) (hlay : layout t = some w) (hpos : st.pos ≤ st.data.length) (hlen : st.data.length < 2 ^ 63)
    (hs : Supported c [(.seq .vector (some (.fixed k)) t, .list vs)]) (hd : StackOk d [(.seq .vector (some (.fixed k)) t, .list vs)])
    (hb : BitsOk [(.seq .vector (some (.fixed k)) t, .list vs)] st) (hw : wire (fmtOf c) (.seq .vector (some (.fixed k)) t) (.list vs) = some bs)
    (hl : bs.length < 2 ^ 63) (hok : outCall d c noFit [(.seq .vector (some (.fixed k)) t, .list vs)] st = (.ok, st'))
    (hlen' : st'.data.length < 2 ^ 64) (hr : ∀ v ∈ vs, Readable ci [(t, v)] ∧ StackOk d' [(t, v)])
    (hsort : ∀ (i j : Nat) (u v : Val), i ≤ j → vs[i]? = some u → vs[j]? = some v → before v = true → before u = true) :
    let f := search d' ci st'.data t (st.pos + k) w vs.length before r
    f.s = .ok ∧ f.at_ ≤ vs.length ∧
    (∀ (i : Nat) (v : Val), i < f.at_ → vs[i]? = some v → before v = true) ∧ (∀ (i : Nat) (v : Val), f.at_ ≤ i → vs[i]? = some v → before v = false) ∧
    (vs = [] → f.reads = 0) ∧ (vs ≠ [] → 2 ^ f.reads ≤ 2 * vs.length) := by
  obtain ⟨h1, n, h2⟩ := C04_growing_appends d c noFit _ st st' bs hpos hlen hs hd hb (wireItems_one hw) hl hok
  have hread : ∀ (i : Nat) (v old : Val), vs[i]? = some v → ∃ p, decMany d' ci st'.data [(t, old)] (st.pos + k + i * w) = ⟨.ok, [v], p⟩ := by
    intro i v old hv
    simp only [wire, Option.getD_some, cat_eq_some] at hw
    obtain ⟨hd1, body, hh, hbody, rfl⟩ := hw
    obtain ⟨x, b, y, rfl, hx, hbv, -⟩ := wireAll_at i hbody hv
    have hxl : x.length = i * w := by
      rw [wireAll_length (fun v bs h => wire_layout _ t w hlay v bs h) _ _ hx]
      have := lt_of_get hv
      simp only [List.length_take, Nat.min_eq_left (Nat.le_of_lt this)]
    have hhl : hd1.length = k := by
      simp only [sizePrefix] at hh
      split at hh
      · cases hh; simp
      · cases hh
    obtain ⟨hrv, hdv⟩ := hr v (List.mem_of_getElem? hv)
    have hpl : (st.data.take st.pos).length = st.pos := by simp; omega
    generalize hpre : st.data.take st.pos = pre at *
    obtain ⟨tail, ht⟩ : ∃ tail, st'.data = (pre ++ hd1 ++ x) ++ b ++ (y ++ tail) := ⟨_, by rw [h2]; simp only [List.append_assoc]; rfl⟩
    have hat : st.pos + k + i * w = (pre ++ hd1 ++ x).length := by simp; omega
    refine ⟨(pre ++ hd1 ++ x).length + b.length, ?_⟩
    rw [ht, hat]
    exact C10_read_encoding d' ci [(t, v)] [(t, old)] (pre ++ hd1 ++ x) b (y ++ tail) (by rw [← ht]; exact hlen') (wireItems_one (hf ▸ hbv)) hrv hdv rfl
  have := searchLoop_spec hread hsort vs.length 0 vs.length r 0 (by omega) (by omega) (by omega) (fun i v h => by omega)
    (fun i v h hv => absurd (lt_of_get hv) (by omega))
  obtain ⟨f, e, f1, f2, f3, f4, k', f5, f6, f7⟩ := this
  refine ⟨by simpa only [search, e] using f1, by simpa only [search, e] using f2, by simpa only [search, e] using f3, by simpa only [search, e] using f4,
    fun h => ?_, fun h => ?_⟩
  · simp only [search, e]; rw [f5, f6 (by simp [h])]
  · simp only [search, e]; rw [f5, Nat.zero_add]
    exact f7 (by have := List.length_pos_iff.mpr h; omega)

/-- C126: whatever bytes a table of `n` records is made of, the search ends after at most `log2 n + 1` records, with success or an error the archive reported, at a
place not behind the table. -/
theorem C126_damaged (d : Nat) (c : Cfg) (file : List UInt8) (t : Ty) (base w n : Nat) (before : Val → Bool) (r : Val) (hn : base + n * w ≤ file.length)
    (henv : ∀ i, widthsOk (c.env i) = true) (ht : widthsOk t = true) :
    let f := search d c file t base w n before r
    InOutcome f.s ∧ f.at_ ≤ n ∧ (n = 0 → f.reads = 0) ∧ (0 < n → 2 ^ f.reads ≤ 2 * n) := by
  obtain ⟨f, e, f1, f2, k, f3, f4, f5⟩ := searchLoop_any (d := d) (before := before) hn henv ht n 0 n r 0 (by omega) (by omega)
  simp only [search, e]
  refine ⟨f1, f2, fun h => by rw [f3, f4 (by omega)], fun h => ?_⟩
  rw [f3, Nat.zero_add]
  exact f5 (by omega)

/-- A record with a key and a value. -/
abbrev searchTy : Ty := .struct false [.scalar .int 2, .scalar .int 1]

/-- Comes in front of the key `x`. -/
def keyBelow (x : Nat) : Val → Bool
  | .list (.num k :: _) => k < x
  | _ => false

/-- Five records; the search for the key 300 reads two of them and finds record 2. -/
example :
    let c := Checks.le Checks.grow (.fixed 4)
    let vs : List Val := [.list [.num 5, .num 1], .list [.num 258, .num 2], .list [.num 300, .num 3], .list [.num 301, .num 4], .list [.num 9000, .num 5]]
    let bs : List UInt8 := [5, 5, 0, 1, 2, 1, 2, 44, 1, 3, 45, 1, 4, 40, 35, 5]
    layout searchTy = some 3 ∧ wire (fmtOf c) (.seq .vector (some (.fixed 1)) searchTy) (.list vs) = some bs ∧
    outCall 20 c false [(.seq .vector (some (.fixed 1)) searchTy, .list vs)] ⟨[9, 9], 2⟩ = (.ok, ⟨[9, 9] ++ bs, 18⟩) ∧
    search 20 c ([9, 9] ++ bs) searchTy 3 3 5 (keyBelow 300) .unit = ⟨.ok, 2, 2⟩ ∧
    search 20 c ([9, 9] ++ bs) searchTy 3 3 5 (keyBelow 10000) .unit = ⟨.ok, 5, 2⟩ ∧
    StackOk 20 [(.seq .vector (some (.fixed 1)) searchTy, .list vs)] ∧ BitsOk [(.seq .vector (some (.fixed 1)) searchTy, .list vs)] ⟨[9, 9], 2⟩ := by
  refine ⟨by decide +kernel, by decide +kernel, by decide +kernel, by decide +kernel, by decide +kernel, by unfold StackOk; decide +kernel, .inr (by simp)⟩

/-- The other hypotheses for these records. -/
example :
    let c := Checks.le Checks.grow (.fixed 4)
    let vs : List Val := [.list [.num 5, .num 1], .list [.num 258, .num 2], .list [.num 300, .num 3], .list [.num 301, .num 4], .list [.num 9000, .num 5]]
    Supported c [(.seq .vector (some (.fixed 1)) searchTy, .list vs)] ∧ (∀ v ∈ vs, Readable c [(searchTy, v)] ∧ StackOk 20 [(searchTy, v)]) ∧
    ∀ (i j : Nat) (u v : Val), i ≤ j → vs[i]? = some u → vs[j]? = some v → keyBelow 300 v = true → keyBelow 300 u = true := by
  intro c vs
  have henv : EnvGood c := fun _ => ⟨rfl, rfl⟩
  refine ⟨⟨grow_ok, so_abi, henv, by decide +kernel⟩, fun v hv => ⟨⟨so_abi, henv, ?_, ?_⟩, ?_⟩, fun i j u v hij hu hv hb => ?_⟩
  · intro x hx; simp only [List.mem_singleton] at hx; subst hx; exact (by decide +kernel : Good (Checks.le Checks.grow (.fixed 4)) searchTy = true)
  · intro x hx; simp only [List.mem_singleton] at hx; subst hx
    simp only [vs, List.mem_cons, List.not_mem_nil, or_false] at hv
    rcases hv with rfl | rfl | rfl | rfl | rfl <;> simp [Loadable, LoadableF]
  · intro x hx; simp only [List.mem_singleton] at hx; subst hx
    simp only [vs, List.mem_cons, List.not_mem_nil, or_false] at hv
    rcases hv with rfl | rfl | rfl | rfl | rfl <;> decide
  · match i, j, hu, hv with
    | 0, _, hu, _ => cases hu; rfl
    | 1, _, hu, _ => cases hu; rfl
    | _, 2, _, hv => cases hv; simp [keyBelow] at hb
    | _, 3, _, hv => cases hv; simp [keyBelow] at hb
    | _, 4, _, hv => cases hv; simp [keyBelow] at hb
    | _, j + 5, _, hv => cases hv
    | i + 2, 0, _, _ => omega
    | i + 2, 1, _, _ => omega

end Zpp.Props
