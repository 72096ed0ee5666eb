import Verif.Proof.InViews
import Verif.Props.Input2
/-!
# Views anywhere inside objects that were read
-/

namespace Zpp.Props
open Zpp Zpp.Spec

/-- C46, anywhere. After `in(items...)`, with any outcome, every view anywhere in the objects shows bytes of the input that
this call has consumed, or, if the call has failed, was there before. -/
theorem C46_everywhere (d : Nat) (c : Cfg) (data : List UInt8) (items : List (Ty × Val)) (p : Nat)
    (habi : AbiOk c.sizeof) (henv : ∀ i, widthsOk (c.env i) = true) (hw : ∀ it ∈ items, widthsOk it.1 = true)
    (hp : p ≤ data.length) (i : Nat) (t : Ty) (old v : Val) (bs : List UInt8) (hi : items[i]? = some (t, old))
    (hv : (decMany d c data items p).vs[i]? = some v) (h : HasView c.env t v bs) :
    Window data p (decMany d c data items p).p bs ∨ ((decMany d c data items p).s ≠ .ok ∧ HasView c.env t old bs) := by
  induction items generalizing p i with
  | nil => simp at hi
  | cons it rest ih =>
    obtain ⟨t0, o0⟩ := it
    have h0 := decode_safe d c t0 o0 data p henv (hw (t0, o0) (by simp)) hp
    have hwin := decode_win d c t0 o0 data p habi henv (hw (t0, o0) (by simp)) hp
    simp only [decMany] at hv ⊢
    generalize decode d c t0 o0 data p = r at h0 hwin hv ⊢
    obtain ⟨s, w, p'⟩ := r
    dsimp only at h0
    cases s
    case ok =>
      have hrest := decMany_safe (d := d) (c := c) (data := data) henv rest p' (fun it h => hw it (by simp [h])) h0.inb
      dsimp only at hv ⊢
      cases i with
      | zero =>
        simp only [List.getElem?_cons_zero, Option.some.injEq, Prod.mk.injEq] at hi hv
        obtain ⟨rfl, rfl⟩ := hi
        subst hv
        rcases hwin bs h with h | ⟨h1, _⟩
        · exact Or.inl (window_mono h (Nat.le_refl _) hrest.mono)
        · exact absurd rfl h1
      | succ i =>
        simp only [List.getElem?_cons_succ] at hi hv
        rcases ih p' (fun it h => hw it (by simp [h])) h0.inb i hi hv with h | h
        · exact Or.inl (window_mono h h0.mono (Nat.le_refl _))
        · exact Or.inr h
    all_goals
      cases i with
      | zero =>
        simp only [List.getElem?_cons_zero, Option.some.injEq, Prod.mk.injEq] at hi hv
        obtain ⟨rfl, rfl⟩ := hi
        subst hv
        exact hwin bs h
      | succ i =>
        simp only [List.getElem?_cons_succ] at hi
        simp only [List.getElem?_cons_succ, List.getElem?_map, hi, Option.map_some, Option.some.injEq] at hv
        subst hv
        exact Or.inr ⟨by simp, h⟩

/-- C46, success: no view is left from earlier inputs. All views of all objects show input this call has consumed. -/
theorem C46_success (d : Nat) (c : Cfg) (data : List UInt8) (items : List (Ty × Val)) (p p' : Nat) (vs : List Val)
    (habi : AbiOk c.sizeof) (henv : ∀ i, widthsOk (c.env i) = true) (hw : ∀ it ∈ items, widthsOk it.1 = true)
    (hp : p ≤ data.length) (hok : decMany d c data items p = ⟨.ok, vs, p'⟩)
    (i : Nat) (t : Ty) (old v : Val) (bs : List UInt8) (hi : items[i]? = some (t, old)) (hv : vs[i]? = some v)
    (h : HasView c.env t v bs) : Window data p p' bs := by
  have := C46_everywhere d c data items p habi henv hw hp i t old v bs hi (by rw [hok]; exact hv) h
  rw [hok] at this
  rcases this with h | ⟨h, _⟩
  · exact h
  · exact absurd rfl h

/-- A class with a `string_view`, a vector of optional views, and a map from views to bytes; the destination holds a view of an
earlier input. -/
example : decMany 9 (Checks.le Checks.grow (.fixed 1)) [1, 65, 2, 1, 1, 66, 0, 1, 1, 67, 7]
      [(.struct false [.seq .view none Checks.chr, .seq .vector none (.optional true (.seq .view none Checks.chr)),
          .assoc false false none (.seq .view none Checks.chr) (some (.scalar .byte 1))],
        .list [.list [.num 99], .list [], .list []])] 0 =
      ⟨.ok, [.list [viewOf [65], .list [.some (viewOf [66]), .none], .list [.list [viewOf [67], .num 7]]]], 11⟩ ∧
    Window [1, 65, 2, 1, 1, 66, 0, 1, 1, 67, 7] 0 11 [67] ∧ ¬ Window [1, 65, 2, 1, 1, 66, 0, 1, 1, 67, 7] 0 11 [99] := by
  refine ⟨by decide +kernel, ⟨9, by decide +kernel⟩, ?_⟩
  rintro ⟨q, _, h2, _, h4⟩
  have hq : q < 11 := by simp at h2; omega
  have hall : ∀ q, q < 11 → ¬ (([1, 65, 2, 1, 1, 66, 0, 1, 1, 67, 7] : List UInt8).drop q).take 1 = [99] := by decide +kernel
  exact hall q hq h4

example : HasView (fun _ => .empty) (.struct false [.seq .view none Checks.chr, .seq .vector none (.optional true (.seq .view none Checks.chr))])
    (.list [viewOf [65], .list [.some (viewOf [66]), .none]]) [66] :=
  .member 1 rfl rfl (.elem (v := .some (viewOf [66])) (by simp) (by simp) (.optional (.here (Or.inr rfl))))

/-- A failed read keeps the view of an earlier input in the members behind the failure. -/
example : decMany 9 (Checks.le Checks.grow (.fixed 1)) [1, 65, 5]
      [(.seq .view none Checks.chr, viewOf [98]), (.seq .view none Checks.chr, viewOf [99])] 0 =
    ⟨.err .resultOutOfRange, [viewOf [65], viewOf [99]], 3⟩ := by decide +kernel

end Zpp.Props
