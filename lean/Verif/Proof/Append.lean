import Verif.Spec.Append
import Verif.Proof.Versions
/-! # Classes that get new members at the end -/

namespace Zpp
open Spec

theorem standaloneAll_mem {ts : List Ty} (h : standaloneAll ts = true) : ∀ t ∈ ts, standalone t = true := by
  induction ts with
  | nil => simp
  | cons t ts ih =>
    simp only [standaloneAll, Bool.and_eq_true] at h
    intro u hu
    rcases List.mem_cons.mp hu with rfl | hu
    · exact h.1
    · exact ih h.2 u hu

theorem fields_fmtW {f : Fmt} {W : Nat → Ty} : ∀ {ts : List Ty} {vs : List Val},
    (∀ t v, t ∈ ts → v ∈ vs → wire (fmtW f W) t v = wire f t v) → wireFields (fmtW f W) ts vs = wireFields f ts vs
  | [], [], _ => rfl
  | [], _ :: _, _ => rfl
  | _ :: _, [], _ => rfl
  | t :: ts, v :: vs, h => by
    simp only [wireFields]
    rw [h t v (by simp) (by simp), fields_fmtW (fun t v ht hv => h t v (by simp [ht]) (by simp [hv]))]

theorem all_fmtW {f : Fmt} {W : Nat → Ty} {t : Ty} : ∀ {vs : List Val},
    (∀ v, v ∈ vs → wire (fmtW f W) t v = wire f t v) → wireAll (fmtW f W) t vs = wireAll f t vs
  | [], _ => rfl
  | v :: vs, h => by
    simp only [wireAll]
    rw [h v (by simp), all_fmtW (fun v hv => h v (by simp [hv]))]

/-- Encodings of types that name no class do not depend on the definitions of the classes. -/
theorem standalone_wire {f : Fmt} {W : Nat → Ty} : ∀ (n : Nat) (t : Ty) (v : Val), depth v ≤ n → standalone t = true →
    wire (fmtW f W) t v = wire f t v := by
  intro n
  induction n with
  | zero => intro t v hn; have := depth_pos v; omega
  | succ n ih =>
    intro t v hn h
    have sub : ∀ vs, v = .list vs → ∀ t w, standalone t = true → w ∈ vs → wire (fmtW f W) t w = wire f t w := by
      rintro vs rfl t w ht hm
      have := depth_mem hm
      simp only [depth] at hn
      exact ih t w (by omega) ht
    cases t with
    | struct ok ts =>
      cases v <;> simp only [wire, wireNum]
      exact fields_fmtW (fun t w ht hw => sub _ rfl t w (standaloneAll_mem h t ht) hw)
    | array m t =>
      cases v <;> simp only [wire, wireNum]
      rw [all_fmtW (fun w hw => sub _ rfl t w h hw)]
    | seq k sz t =>
      cases v <;> simp only [wire, wireNum]
      rw [all_fmtW (fun w hw => sub _ rfl t w h hw)]
      rfl
    | assoc mu ha sz k m =>
      cases m with
      | none =>
        cases v <;> simp only [wire, wireNum]
        rw [all_fmtW (fun w hw => sub _ rfl k w h hw)]
        rfl
      | some m =>
        simp only [standalone, Bool.and_eq_true] at h
        cases v <;> simp only [wire, wireNum]
        rw [all_fmtW (fun w hw => sub _ rfl (.struct false [k, m]) w (by simp [standalone, standaloneAll, h]) hw)]
        rfl
    | optional dc t =>
      cases v <;> simp only [wire, wireNum]
      rw [ih t _ (by simp only [depth] at hn; omega) h]
    | optPtr t =>
      cases v <;> simp only [wire, wireNum]
      rw [ih t _ (by simp only [depth] at hn; omega) h]
    | uptr t =>
      cases v <;> simp only [wire, wireNum]
      rw [ih t _ (by simp only [depth] at hn; omega) h]
    | variant idTy ids dcs alts =>
      cases v <;> simp only [wire, wireNum]
      rename_i i w
      cases ids[i]? with
      | none => rfl
      | some id =>
        cases ht : alts[i]? with
        | none => rfl
        | some t =>
          simp only [wireId_fmtW]
          rw [ih t w (by simp only [depth] at hn; omega) (standaloneAll_mem h t (List.mem_of_getElem? ht))]
    | ref i => cases h
    | msg sz ok maps nums fs => cases h
    | scalar k m => cases v <;> simp only [wire, wireNum_fmtW]
    | bool => cases v <;> simp only [wire, wireNum_fmtW]
    | varint m zz => cases v <;> simp only [wire, wireNum_fmtW]
    | empty => cases v <;> simp only [wire, wireNum_fmtW]
    | bitset m => cases v <;> simp only [wire, wireNum_fmtW]

theorem fields_split {f : Fmt} : ∀ {ts us : List Ty} {vs ws : List Val} {bs : List UInt8}, vs.length = ts.length →
    wireFields f (ts ++ us) (vs ++ ws) = some bs → ∃ a b, wireFields f ts vs = some a ∧ wireFields f us ws = some b ∧ bs = a ++ b
  | [], us, [], ws, bs, _, h => ⟨[], bs, rfl, h, rfl⟩
  | [], _, _ :: _, _, _, h, _ => by simp at h
  | _ :: _, _, [], _, _, h, _ => by simp at h
  | t :: ts, us, v :: vs, ws, bs, hl, h => by
    simp only [List.cons_append, wireFields, cat_eq_some] at h
    obtain ⟨x, y, hx, hy, rfl⟩ := h
    obtain ⟨a, b, h1, h2, rfl⟩ := fields_split (by simpa using hl) hy
    exact ⟨x ++ a, b, by simp only [wireFields, cat_eq_some]; exact ⟨x, a, hx, h1, rfl⟩, h2, by simp⟩

theorem fields_join {f : Fmt} : ∀ {ts us : List Ty} {vs ws : List Val} {a b : List UInt8},
    wireFields f ts vs = some a → wireFields f us ws = some b → wireFields f (ts ++ us) (vs ++ ws) = some (a ++ b)
  | [], us, [], ws, a, b, h1, h2 => by
    simp only [wireFields, Option.some.injEq] at h1
    subst h1
    simpa using h2
  | [], _, _ :: _, _, _, _, h, _ => by simp [wireFields] at h
  | _ :: _, _, [], _, _, _, h, _ => by simp [wireFields] at h
  | t :: ts, us, v :: vs, ws, a, b, h1, h2 => by
    simp only [List.cons_append, wireFields, cat_eq_some] at h1 ⊢
    obtain ⟨x, y, hx, hy, rfl⟩ := h1
    exact ⟨x, y ++ b, hx, fields_join hy h2, by simp⟩

theorem fields_env {f : Fmt} {W : Nat → Ty} {ts : List Ty} (vs : List Val) (h : f.env = W ∨ standaloneAll ts = true) :
    wireFields (fmtW f W) ts vs = wireFields f ts vs := by
  rcases h with rfl | h
  · rfl
  · exact fields_fmtW (fun t w ht _ => standalone_wire _ t w (Nat.le_refl _) (standaloneAll_mem h t ht))

/-- The encoding of the grown object starts with that of the old one. -/
theorem grown_wire {f : Fmt} {W : Nat → Ty} {t t' : Ty} {v v' : Val} (h : Grown f.env W t v t' v') : ∀ bs,
    wire (fmtW f W) t' v' = some bs → ∃ a b, wire f t v = some a ∧ bs = a ++ b := by
  induction h with
  | same t v he => subst he; exact fun bs h => ⟨bs, [], h, by simp⟩
  | standalone t v hs =>
    intro bs h
    rw [standalone_wire _ t v (Nat.le_refl _) hs] at h
    exact ⟨bs, [], h, by simp⟩
  | added ok ok' hl he =>
    intro bs h
    simp only [wire] at h
    obtain ⟨a, b, h1, _, rfl⟩ := fields_split hl h
    rw [fields_env _ he] at h1
    exact ⟨a, b, by simpa only [wire] using h1, rfl⟩
  | last ok ok' hl he hg ih =>
    intro bs h
    simp only [wire] at h
    obtain ⟨a, b, h1, h2, rfl⟩ := fields_split hl h
    rw [fields_env _ he] at h1
    simp only [wireFields, cat_eq_some] at h2
    obtain ⟨x, y, hx, hy, rfl⟩ := h2
    obtain ⟨x1, x2, h3, rfl⟩ := ih x hx
    refine ⟨a ++ x1, x2 ++ y, ?_, by simp⟩
    simp only [wire]
    exact fields_join h1 (by simp only [wireFields, cat_eq_some]; exact ⟨x1, [], h3, rfl, by simp⟩)
  | optional dc dc' hg ih =>
    intro bs h
    simp only [wire, cat_eq_some] at h ⊢
    obtain ⟨x, y, hx, hy, rfl⟩ := h
    obtain ⟨a, b, h1, rfl⟩ := ih y hy
    exact ⟨x ++ a, b, ⟨x, a, hx, h1, rfl⟩, by simp⟩
  | noOptional dc dc' => exact fun bs h => ⟨bs, [], by simpa only [wire] using h, by simp⟩
  | optPtr hg ih =>
    intro bs h
    simp only [wire, cat_eq_some] at h ⊢
    obtain ⟨x, y, hx, hy, rfl⟩ := h
    obtain ⟨a, b, h1, rfl⟩ := ih y hy
    exact ⟨x ++ a, b, ⟨x, a, hx, h1, rfl⟩, by simp⟩
  | noOptPtr => exact fun bs h => ⟨bs, [], by simpa only [wire] using h, by simp⟩
  | uptr hg ih =>
    intro bs h
    simp only [wire] at h ⊢
    exact ih bs h
  | variant idTy dcs dcs' i hid ha ha' hg ih =>
    intro bs h
    simp only [wire, ← hid, ha, ha'] at h ⊢
    split at h
    · next id t hi ht =>
      cases ht
      simp only [hi]
      rw [cat_eq_some] at h
      obtain ⟨x, y, hx, hy, rfl⟩ := h
      obtain ⟨a, b, h1, rfl⟩ := ih y hy
      rw [wireId_fmtW] at hx
      exact ⟨x ++ a, b, by rw [cat_eq_some]; exact ⟨x, a, hx, h1, rfl⟩, by simp⟩
    · cases h
  | @ref i ok ok' ts ts' v v' h1 h2 hg ih =>
    intro bs h
    have e : (fmtW f W).env i = W i := rfl
    cases v' <;> simp only [wire, wireNum, e, h2] at h <;> first | cases h | skip
    obtain ⟨a, b, h3, h4⟩ := ih bs (by simpa only [wire] using h)
    refine ⟨a, b, ?_, h4⟩
    cases v <;> simp only [wire, wireNum] at h3 <;> first | cases h3 | skip
    simpa only [wire, h1] using h3

end Zpp
