import Verif.Spec.Layout
import Verif.Proof.Bits
import Verif.Props.RoundTrip2
/-!
# Properties: parts of objects can be read and replaced in place (C97)
-/

namespace Zpp.Props
open Zpp Zpp.Spec

theorem wireAll_layout {f : Fmt} {t : Ty} {s : Nat} (h : ∀ v bs, wire f t v = some bs → bs.length = s) :
    ∀ {vs : List Val} {bs : List UInt8}, wireAll f t vs = some bs → bs.length = vs.length * s
  | [], _, hw => by
    simp only [wireAll] at hw
    cases hw
    simp
  | v :: vs, bs, hw => by
    simp only [wireAll, cat_eq_some] at hw
    obtain ⟨a, b, ha, hb, rfl⟩ := hw
    rw [List.length_append, h v a ha, wireAll_layout h hb, List.length_cons, Nat.add_mul]
    omega

mutual
theorem wire_layout (f : Fmt) : (t : Ty) → (n : Nat) → layout t = some n → ∀ v bs, wire f t v = some bs → bs.length = n
  | .scalar k m, n, hl, v, bs, hw => by
    simp only [layout, Option.some.injEq] at hl
    subst hl
    cases v <;> simp only [wire, reduceCtorEq] at hw
    simp only [wireNum] at hw
    split at hw
    · cases hw; simp
    · cases hw
  | .bool, n, hl, v, bs, hw => by
    simp only [layout, Option.some.injEq] at hl
    subst hl
    cases v <;> simp only [wire, reduceCtorEq] at hw
    simp only [wireNum] at hw
    split at hw
    · cases hw; rfl
    · cases hw
  | .empty, n, hl, v, bs, hw => by
    simp only [layout, Option.some.injEq] at hl
    subst hl
    cases v <;> simp only [wire, wireNum, reduceCtorEq] at hw
    cases hw; rfl
  | .bitset m, n, hl, v, bs, hw => by
    simp only [layout, Option.some.injEq] at hl
    subst hl
    cases v <;> simp only [wire, wireNum, reduceCtorEq] at hw
    split at hw
    · cases hw; simp
    · cases hw
  | .struct ok fs, n, hl, v, bs, hw => by
    simp only [layout] at hl
    cases v <;> simp only [wire, wireNum, reduceCtorEq] at hw
    exact wireFields_layout f fs n hl _ bs hw
  | .array m t, n, hl, v, bs, hw => by
    simp only [layout, Option.map_eq_some_iff] at hl
    obtain ⟨s, hs, rfl⟩ := hl
    cases v <;> simp only [wire, wireNum, reduceCtorEq] at hw
    split at hw
    · next h => rw [wireAll_layout (wire_layout f t s hs) hw, h]
    · cases hw
  | .uptr t, n, hl, v, bs, hw => by
    simp only [layout] at hl
    cases v <;> simp only [wire, wireNum, reduceCtorEq] at hw
    exact wire_layout f t n hl _ bs hw
  | .varint _ _, _, hl, _, _, _ => by simp [layout] at hl
  | .seq _ _ _, _, hl, _, _, _ => by simp [layout] at hl
  | .assoc _ _ _ _ _, _, hl, _, _, _ => by simp [layout] at hl
  | .optional _ _, _, hl, _, _, _ => by simp [layout] at hl
  | .optPtr _, _, hl, _, _, _ => by simp [layout] at hl
  | .variant _ _ _ _, _, hl, _, _, _ => by simp [layout] at hl
  | .msg _ _ _ _ _, _, hl, _, _, _ => by simp [layout] at hl
  | .ref _, _, hl, _, _, _ => by simp [layout] at hl
theorem wireFields_layout (f : Fmt) : (fs : List Ty) → (n : Nat) → layouts fs = some n → ∀ vs bs, wireFields f fs vs = some bs → bs.length = n
  | [], n, hl, vs, bs, hw => by
    simp only [layouts, Option.some.injEq] at hl
    subst hl
    cases vs <;> simp only [wireFields, reduceCtorEq] at hw
    cases hw; rfl
  | t :: ts, n, hl, vs, bs, hw => by
    simp only [layouts] at hl
    split at hl
    · next a b ha hb =>
      cases hl
      cases vs <;> simp only [wireFields, reduceCtorEq, cat_eq_some] at hw
      obtain ⟨x, y, hx, hy, rfl⟩ := hw
      rw [List.length_append, wire_layout f t a ha _ x hx, wireFields_layout f ts b hb _ y hy]
    · cases hl
end

theorem wireFields_at {f : Fmt} : ∀ {fs : List Ty} {vs : List Val} {bs : List UInt8} (i : Nat) {t : Ty} {v : Val},
    wireFields f fs vs = some bs → fs[i]? = some t → vs[i]? = some v →
    ∃ x b y, bs = x ++ b ++ y ∧ wireFields f (fs.take i) (vs.take i) = some x ∧ wire f t v = some b ∧
      ∀ v' b', wire f t v' = some b' → wireFields f fs (vs.set i v') = some (x ++ b' ++ y)
  | [], _, _, _, _, _, _, ht, _ => by simp at ht
  | _ :: _, [], _, _, _, _, _, _, hv => by simp at hv
  | u :: us, w :: ws, bs, 0, t, v, hw, ht, hv => by
    simp only [List.getElem?_cons_zero, Option.some.injEq] at ht hv
    subst ht; subst hv
    simp only [wireFields, cat_eq_some] at hw
    obtain ⟨a, b, ha, hb, rfl⟩ := hw
    exact ⟨[], a, b, rfl, by simp [wireFields], ha, fun v' b' h' => by simp [wireFields, h', hb, cat]⟩
  | u :: us, w :: ws, bs, i + 1, t, v, hw, ht, hv => by
    simp only [List.getElem?_cons_succ] at ht hv
    simp only [wireFields, cat_eq_some] at hw
    obtain ⟨a, b, ha, hb, rfl⟩ := hw
    obtain ⟨x, m, y, rfl, hx, hm, hall⟩ := wireFields_at i hb ht hv
    refine ⟨a ++ x, m, y, by simp, by simp [wireFields, ha, hx, cat], hm, fun v' b' h' => ?_⟩
    simp [wireFields, ha, hall v' b' h', cat]

theorem wireAll_at {f : Fmt} {t : Ty} : ∀ {vs : List Val} {bs : List UInt8} (i : Nat) {v : Val},
    wireAll f t vs = some bs → vs[i]? = some v →
    ∃ x b y, bs = x ++ b ++ y ∧ wireAll f t (vs.take i) = some x ∧ wire f t v = some b ∧
      ∀ v' b', wire f t v' = some b' → wireAll f t (vs.set i v') = some (x ++ b' ++ y)
  | [], _, _, _, _, hv => by simp at hv
  | w :: ws, bs, 0, v, hw, hv => by
    simp only [List.getElem?_cons_zero, Option.some.injEq] at hv
    subst hv
    simp only [wireAll, cat_eq_some] at hw
    obtain ⟨a, b, ha, hb, rfl⟩ := hw
    exact ⟨[], a, b, rfl, by simp [wireAll], ha, fun v' b' h' => by simp [wireAll, h', hb, cat]⟩
  | w :: ws, bs, i + 1, v, hw, hv => by
    simp only [List.getElem?_cons_succ] at hv
    simp only [wireAll, cat_eq_some] at hw
    obtain ⟨a, b, ha, hb, rfl⟩ := hw
    obtain ⟨x, m, y, rfl, hx, hm, hall⟩ := wireAll_at i hb hv
    refine ⟨a ++ x, m, y, by simp, by simp [wireAll, ha, hx, cat], hm, fun v' b' h' => ?_⟩
    simp [wireAll, ha, hall v' b' h', cat]

theorem lt_of_get {α : Type} {l : List α} {i : Nat} {a : α} (h : l[i]? = some a) : i < l.length := (List.getElem?_eq_some_iff.mp h).1

/-- The encoding of a part stands in the encoding of the whole, at the offset of the part; with another encoding in its place the
whole is the encoding of the object with the part replaced. -/
theorem place_split {f : Fmt} : ∀ (path : List Nat) {t t' : Ty} {v w : Val} {bs : List UInt8} {o : Nat},
    wire f t v = some bs → place f path t = some (o, t') → partAt path v = some w →
    ∃ x b y, bs = x ++ b ++ y ∧ x.length = o ∧ wire f t' w = some b ∧
      ∀ w' b', wire f t' w' = some b' → wire f t (withPart w' path v) = some (x ++ b' ++ y)
  | [], t, t', v, w, bs, o, hw, hp, ha => by
    simp only [place, Option.some.injEq, Prod.mk.injEq] at hp
    simp only [partAt, Option.some.injEq] at ha
    obtain ⟨rfl, rfl⟩ := hp
    subst ha
    exact ⟨[], bs, [], by simp, rfl, hw, fun w' b' h' => by simp [withPart, h']⟩
  | i :: path, .struct ok fs, t', v, w, bs, o, hw, hp, ha => by
    simp only [place] at hp
    split at hp
    · next o1 t1 ho1 ht1 =>
      obtain ⟨⟨o2, t2⟩, hp2, he⟩ := Option.map_eq_some_iff.mp hp
      simp only [Prod.mk.injEq] at he
      obtain ⟨rfl, rfl⟩ := he
      cases v <;> simp only [wire, wireNum, reduceCtorEq] at hw
      next vs =>
      simp only [partAt] at ha
      split at ha
      · next v1 hv1 =>
        obtain ⟨x, b, y, rfl, hx, hb, hall⟩ := wireFields_at i hw ht1 hv1
        obtain ⟨x', b', y', rfl, hx', hb', hall'⟩ := place_split path hb hp2 ha
        refine ⟨x ++ x', b', y' ++ y, by simp, by rw [List.length_append, hx', wireFields_layout f _ _ ho1 _ _ hx], hb', fun w' c' h' => ?_⟩
        simp only [withPart, hv1, wire]
        rw [hall _ _ (hall' w' c' h')]
        simp
      · cases ha
    · cases hp
  | i :: path, .array n t, t', v, w, bs, o, hw, hp, ha => by
    simp only [place] at hp
    split at hp
    · next s hs =>
      obtain ⟨⟨o2, t2⟩, hp2, he⟩ := Option.map_eq_some_iff.mp hp
      simp only [Prod.mk.injEq] at he
      obtain ⟨rfl, rfl⟩ := he
      cases v <;> simp only [wire, wireNum, reduceCtorEq] at hw
      next vs =>
      split at hw
      · next hn =>
        simp only [partAt] at ha
        split at ha
        · next v1 hv1 =>
          obtain ⟨x, b, y, rfl, hx, hb, hall⟩ := wireAll_at i hw hv1
          obtain ⟨x', b', y', rfl, hx', hb', hall'⟩ := place_split path hb hp2 ha
          have hi := lt_of_get hv1
          refine ⟨x ++ x', b', y' ++ y, by simp, ?_, hb', fun w' c' h' => ?_⟩
          · rw [List.length_append, hx', wireAll_layout (wire_layout f t s hs) hx, List.length_take, Nat.min_eq_left (by omega)]
          · simp only [withPart, hv1, wire, List.length_set, hn, if_true]
            rw [hall _ _ (hall' w' c' h')]
            simp
        · cases ha
      · cases hw
    · cases hp
  | i :: path, .seq k sz t, t', v, w, bs, o, hw, hp, ha => by
    cases v <;> simp only [wire, wireNum, reduceCtorEq, cat_eq_some] at hw
    next vs =>
    obtain ⟨h, body, hh, hbody, rfl⟩ := hw
    simp only [partAt] at ha
    split at ha
    · next v1 hv1 =>
      obtain ⟨x, b, y, rfl, hx, hb, hall⟩ := wireAll_at i hbody hv1
      have hi := lt_of_get hv1
      have key : ∀ s o2, layout t = some s → place f path t = some (o2, t') → o = h.length + i * s + o2 →
          ∃ x1 b1 y1, h ++ (x ++ b ++ y) = x1 ++ b1 ++ y1 ∧ x1.length = o ∧ wire f t' w = some b1 ∧
          ∀ w' b', wire f t' w' = some b' → wire f (.seq k sz t) (withPart w' (i :: path) (.list vs)) = some (x1 ++ b' ++ y1) := by
        intro s o2 hs hp2 ho
        obtain ⟨x', b', y', rfl, hx', hb', hall'⟩ := place_split path hb hp2 ha
        refine ⟨h ++ x ++ x', b', y' ++ y, by simp, ?_, hb', fun w' c' h' => ?_⟩
        · rw [List.length_append, List.length_append, hx', wireAll_layout (wire_layout f t s hs) hx, List.length_take,
            Nat.min_eq_left (by omega), ho]
        · simp only [withPart, hv1, wire, List.length_set, hh, hall _ _ (hall' w' c' h'), cat]
          simp
      simp only [place] at hp
      split at hp
      · next kk s hsz hs =>
        obtain ⟨⟨o2, t2⟩, hp2, he⟩ := Option.map_eq_some_iff.mp hp
        simp only [Prod.mk.injEq] at he
        obtain ⟨rfl, rfl⟩ := he
        refine key s o2 hs hp2 ?_
        rw [hsz] at hh
        simp only [sizePrefix] at hh
        split at hh
        · cases hh; simp
        · cases hh
      · next s hsz hs =>
        obtain ⟨⟨o2, t2⟩, hp2, he⟩ := Option.map_eq_some_iff.mp hp
        simp only [Prod.mk.injEq] at he
        obtain ⟨rfl, rfl⟩ := he
        refine key s o2 hs hp2 ?_
        rw [hsz] at hh
        simp only [sizePrefix, Option.some.injEq] at hh
        subst hh
        simp
      · cases hp
    · cases ha
  | i :: path, .optional dc t, t', v, w, bs, o, hw, hp, ha => by
    cases i with
    | succ i => simp [place] at hp
    | zero =>
      simp only [place] at hp
      obtain ⟨⟨o2, t2⟩, hp2, he⟩ := Option.map_eq_some_iff.mp hp
      simp only [Prod.mk.injEq] at he
      obtain ⟨rfl, rfl⟩ := he
      cases v <;> simp only [partAt, List.getElem?_nil, reduceCtorEq] at ha
      · simp [wire] at hw
      next v1 =>
      simp only [wire, cat_eq_some, Option.some.injEq] at hw
      obtain ⟨_, b, rfl, hb, rfl⟩ := hw
      obtain ⟨x', b', y', rfl, hx', hb', hall'⟩ := place_split path hb hp2 ha
      refine ⟨[1] ++ x', b', y', by simp, by simp [hx']; omega, hb', fun w' c' h' => ?_⟩
      simp only [withPart, wire, hall' w' c' h', cat]
      simp
  | i :: path, .optPtr t, t', v, w, bs, o, hw, hp, ha => by
    cases i with
    | succ i => simp [place] at hp
    | zero =>
      simp only [place] at hp
      obtain ⟨⟨o2, t2⟩, hp2, he⟩ := Option.map_eq_some_iff.mp hp
      simp only [Prod.mk.injEq] at he
      obtain ⟨rfl, rfl⟩ := he
      cases v <;> simp only [partAt, List.getElem?_nil, reduceCtorEq] at ha
      · simp [wire] at hw
      next v1 =>
      simp only [wire, cat_eq_some, Option.some.injEq] at hw
      obtain ⟨_, b, rfl, hb, rfl⟩ := hw
      obtain ⟨x', b', y', rfl, hx', hb', hall'⟩ := place_split path hb hp2 ha
      refine ⟨[1] ++ x', b', y', by simp, by simp [hx']; omega, hb', fun w' c' h' => ?_⟩
      simp only [withPart, wire, hall' w' c' h', cat]
      simp
  | i :: path, .uptr t, t', v, w, bs, o, hw, hp, ha => by
    cases i with
    | succ i => simp [place] at hp
    | zero =>
      simp only [place] at hp
      cases v <;> simp only [partAt, List.getElem?_nil, reduceCtorEq] at ha
      · simp [wire] at hw
      next v1 =>
      simp only [wire] at hw
      obtain ⟨x', b', y', rfl, hx', hb', hall'⟩ := place_split path hw hp ha
      exact ⟨x', b', y', rfl, hx', hb', fun w' c' h' => by simp only [withPart, wire, hall' w' c' h']⟩
  | _ :: _, .scalar _ _, _, _, _, _, _, _, hp, _ => by simp [place] at hp
  | _ :: _, .bool, _, _, _, _, _, _, hp, _ => by simp [place] at hp
  | _ :: _, .varint _ _, _, _, _, _, _, _, hp, _ => by simp [place] at hp
  | _ :: _, .empty, _, _, _, _, _, _, hp, _ => by simp [place] at hp
  | _ :: _, .assoc _ _ _ _ _, _, _, _, _, _, _, hp, _ => by simp [place] at hp
  | _ :: _, .variant _ _ _ _, _, _, _, _, _, _, hp, _ => by simp [place] at hp
  | _ :: _, .bitset _, _, _, _, _, _, _, hp, _ => by simp [place] at hp
  | _ :: _, .msg _ _ _ _ _, _, _, _, _, _, _, hp, _ => by simp [place] at hp
  | _ :: _, .ref _, _, _, _, _, _, _, hp, _ => by simp [place] at hp

theorem wireItems_one {f : Fmt} {t : Ty} {v : Val} {bs : List UInt8} (h : wire f t v = some bs) : wireItems f [(t, v)] = some bs := by
  simp [wireItems, h, cat]

/-- C97, lengths. A call that writes an object of a type with a fixed layout of `n` bytes moves the position by `n`, whatever the
object. -/
theorem C97_length (d : Nat) (c : Cfg) (noFit : Bool) (t : Ty) (v : Val) (n : Nat) (st st' : OutSt) (hlay : layout t = some n)
    (hpos : st.pos ≤ st.data.length) (hlen : st.data.length < 2 ^ 63) (hs : Supported c [(t, v)]) (hd : StackOk d [(t, v)])
    (hb : BitsOk [(t, v)] st) (hw : (wire (fmtOf c) t v).isSome) (hn : n < 2 ^ 63) (hok : outCall d c noFit [(t, v)] st = (.ok, st')) :
    st'.pos = st.pos + n := by
  obtain ⟨bs, hw⟩ := Option.isSome_iff_exists.mp hw
  have hl := wire_layout _ t n hlay v bs hw
  rw [← hl]
  exact (C04_growing_appends d c noFit [(t, v)] st st' bs hpos hlen hs hd hb (wireItems_one hw) (by omega) hok).1

/-- C97, reading. The encoding of an object stands anywhere in an input. A part of the object is read by setting the position to
the offset of the part. -/
theorem C97_read (d : Nat) (c : Cfg) (path : List Nat) (t t' : Ty) (v w old : Val) (o : Nat) (pre bs rest : List UInt8)
    (hlen : (pre ++ bs ++ rest).length < 2 ^ 64) (hw : wire (fmtOf c) t v = some bs) (hplace : place (fmtOf c) path t = some (o, t'))
    (hpart : partAt path v = some w) (hr : Readable c [(t', w)]) (hd : StackOk d [(t', w)]) :
    ∃ b, wire (fmtOf c) t' w = some b ∧
      decMany d c (pre ++ bs ++ rest) [(t', old)] (pre.length + o) = ⟨.ok, [w], pre.length + o + b.length⟩ := by
  obtain ⟨x, b, y, rfl, rfl, hb, -⟩ := place_split path hw hplace hpart
  refine ⟨b, hb, ?_⟩
  have h := C10_read_encoding d c [(t', w)] [(t', old)] (pre ++ x) b (y ++ rest) (by simpa [Nat.add_assoc] using hlen) (wireItems_one hb) hr
    hd rfl
  rw [List.length_append] at h
  rw [← List.append_assoc] at h
  simpa [List.append_assoc] using h

/-- C97, replacing. The encoding of an object stands anywhere in the buffer of an output archive. Setting the position to the offset
of a part and writing another object that takes the same number of bytes turns it into the encoding of the object with this part
replaced, and changes nothing else. -/
theorem C97_replace (d : Nat) (c : Cfg) (noFit : Bool) (path : List Nat) (t t' : Ty) (v w w' : Val) (o : Nat)
    (pre bs b' rest : List UInt8) (st st' : OutSt) (hdata : st.data = pre ++ bs ++ rest) (hlen : st.data.length < 2 ^ 63)
    (hw : wire (fmtOf c) t v = some bs) (hplace : place (fmtOf c) path t = some (o, t')) (hpart : partAt path v = some w)
    (hs : Supported c [(t', w')]) (hd : StackOk d [(t', w')]) (hbits : noBits w' = true) (hw' : wire (fmtOf c) t' w' = some b')
    (hsame : (wire (fmtOf c) t' w).map List.length = some b'.length)
    (hok : outCall d c noFit [(t', w')] { st with pos := pre.length + o } = (.ok, st')) :
    ∃ bs', wire (fmtOf c) t (withPart w' path v) = some bs' ∧ bs'.length = bs.length ∧
      st'.data.take st.data.length = pre ++ bs' ++ rest ∧ st'.pos = pre.length + o + b'.length := by
  obtain ⟨x, b, y, rfl, rfl, hb, hall⟩ := place_split path hw hplace hpart
  rw [hb] at hsame
  simp only [Option.map_some, Option.some.injEq] at hsame
  have hl : st.data.length = pre.length + (x.length + b.length + y.length + rest.length) := by rw [hdata]; simp; omega
  have h := C45_patch_local d c noFit [(t', w')] st st' (pre.length + x.length) b' (by omega) hlen hs hd
    (by intro z hz; simp only [List.mem_singleton] at hz; subst hz; exact hbits) (wireItems_one hw') hok
  refine ⟨x ++ b' ++ y, hall w' b' hw', by simp [hsame], ?_, h.1⟩
  have h1 : st.data.take (pre.length + x.length) = pre ++ x := by
    rw [hdata, show pre ++ (x ++ b ++ y) ++ rest = (pre ++ x) ++ (b ++ y ++ rest) by simp, ← List.length_append]
    exact List.take_left' rfl
  have h2 : st.data.drop (pre.length + x.length + b'.length) = y ++ rest := by
    rw [hdata, show pre ++ (x ++ b ++ y) ++ rest = (pre ++ x ++ b) ++ (y ++ rest) by simp, ← hsame, ← List.length_append, ← List.length_append]
    exact List.drop_left' rfl
  rw [h.2.1, h1, h2]
  simp

/-- C97, replacing in an array, span or other buffer that cannot grow: this always succeeds. -/
theorem C97_replace_fixed (d : Nat) (c : Cfg) (noFit : Bool) (path : List Nat) (t t' : Ty) (v w w' : Val) (o : Nat)
    (pre bs b' rest : List UInt8) (st : OutSt) (hdata : st.data = pre ++ bs ++ rest) (hlen : st.data.length < 2 ^ 63)
    (hfix : c.g.resizable = false) (hw : wire (fmtOf c) t v = some bs) (hplace : place (fmtOf c) path t = some (o, t'))
    (hpart : partAt path v = some w) (hs : Supported c [(t', w')]) (hd : StackOk d [(t', w')]) (hbits : noBits w' = true)
    (hw' : wire (fmtOf c) t' w' = some b') (hsame : (wire (fmtOf c) t' w).map List.length = some b'.length) :
    ∃ bs', wire (fmtOf c) t (withPart w' path v) = some bs' ∧
      outCall d c noFit [(t', w')] { st with pos := pre.length + o } = (.ok, ⟨pre ++ bs' ++ rest, pre.length + o + b'.length⟩) := by
  have hin : pre.length + o + b'.length ≤ st.data.length := by
    obtain ⟨x, b, y, rfl, rfl, hb, -⟩ := place_split path hw hplace hpart
    rw [hb] at hsame
    simp only [Option.map_some, Option.some.injEq] at hsame
    rw [hdata]; simp; omega
  have h := (C02_fixed_exact d c noFit [(t', w')] { st with pos := pre.length + o } b' hfix (by simp only; omega) hlen hs hd
    (by exact .inl (by intro z hz; simp only [List.mem_singleton] at hz; subst hz; exact hbits)) (wireItems_one hw') (by omega)).1 hin
  obtain ⟨bs', h1, h2, h3, -⟩ := C97_replace d c noFit path t t' v w w' o pre bs b' rest st _ hdata hlen hw hplace hpart hs hd hbits hw' hsame h
  refine ⟨bs', h1, ?_⟩
  rw [h]
  rw [List.take_of_length_le (by simp; omega)] at h3
  simp only at h3 ⊢
  rw [h3]

/-- C97: types with a fixed layout always take the same number of bytes, so their objects can always replace each other. -/
theorem C97_same (f : Fmt) (t : Ty) (w w' : Val) (b' : List UInt8) (n : Nat) (hlay : layout t = some n) (hw : (wire f t w).isSome)
    (hw' : wire f t w' = some b') : (wire f t w).map List.length = some b'.length := by
  obtain ⟨b, hb⟩ := Option.isSome_iff_exists.mp hw
  rw [hb, wire_layout f t n hlay w' b' hw', Option.map_some, wire_layout f t n hlay w b hb]

/-- C97, reading back: the object with the part replaced. -/
theorem C97_read_back (d d' : Nat) (c ci : Cfg) (noFit : Bool) (path : List Nat) (t t' : Ty) (v w w' old : Val) (o : Nat)
    (pre bs b' rest : List UInt8) (st st' : OutSt) (hf : fmtOf ci = fmtOf c) (hdata : st.data = pre ++ bs ++ rest)
    (hlen : st.data.length < 2 ^ 63) (hw : wire (fmtOf c) t v = some bs) (hplace : place (fmtOf c) path t = some (o, t'))
    (hpart : partAt path v = some w) (hs : Supported c [(t', w')]) (hd : StackOk d [(t', w')]) (hbits : noBits w' = true)
    (hw' : wire (fmtOf c) t' w' = some b') (hsame : (wire (fmtOf c) t' w).map List.length = some b'.length)
    (hok : outCall d c noFit [(t', w')] { st with pos := pre.length + o } = (.ok, st'))
    (hr : Readable ci [(t, withPart w' path v)]) (hd' : StackOk d' [(t, withPart w' path v)]) :
    decMany d' ci (st'.data.take st.data.length) [(t, old)] pre.length = ⟨.ok, [withPart w' path v], pre.length + bs.length⟩ := by
  obtain ⟨bs', h1, h2, h3, -⟩ := C97_replace d c noFit path t t' v w w' o pre bs b' rest st st' hdata hlen hw hplace hpart hs hd hbits hw'
    hsame hok
  rw [h3, ← h2]
  refine C10_read_encoding d' ci [(t, withPart w' path v)] [(t, old)] pre bs' rest ?_ (wireItems_one (by rw [hf]; exact h1)) hr hd' rfl
  rw [← h3, List.length_take]
  omega

/-! ## The hypotheses are met -/

/-- A table of records (a 2 byte number, an array of three bytes, a string): member 1 of the header; the second field of the third record
of a vector of records is read and replaced. -/
example :
    let c := Checks.le Checks.fixed (.fixed 1)
    let rec' : Ty := .struct false [.scalar .int 2, .array 3 (.scalar .int 1)]
    let t : Ty := .struct false [.scalar .int 4, .seq .vector none rec', .seq .vector none Checks.chr]
    let r (a b : Nat) : Val := .list [.num a, .list [.num b, .num (b + 1), .num (b + 2)]]
    let v : Val := .list [.num 9, .list [r 1 10, r 2 20, r 3 30], .list [.num 65]]
    layout rec' = some 5 ∧ (place (fmtOf c) [1, 2, 1, 1] t).map Prod.fst = some (4 + 1 + 2 * 5 + 2 + 1) ∧ partAt [1, 2, 1, 1] v = some (.num 31) ∧
    wire (fmtOf c) t v = some [9, 0, 0, 0, 3, 1, 0, 10, 11, 12, 2, 0, 20, 21, 22, 3, 0, 30, 31, 32, 1, 65] ∧
    outCall 9 c false [(.scalar .int 1, .num 99)] ⟨[9, 0, 0, 0, 3, 1, 0, 10, 11, 12, 2, 0, 20, 21, 22, 3, 0, 30, 31, 32, 1, 65], 18⟩ =
      (.ok, ⟨[9, 0, 0, 0, 3, 1, 0, 10, 11, 12, 2, 0, 20, 21, 22, 3, 0, 30, 99, 32, 1, 65], 19⟩) ∧
    decMany 9 c [9, 0, 0, 0, 3, 1, 0, 10, 11, 12, 2, 0, 20, 21, 22, 3, 0, 30, 31, 32, 1, 65] [(.scalar .int 1, .num 0)] 18 = ⟨.ok, [.num 31], 19⟩ ∧
    place (fmtOf c) [2] t = none := by
  refine ⟨by decide +kernel, by decide +kernel, by decide +kernel, by decide +kernel, by decide +kernel, by decide +kernel, rfl⟩

end Zpp.Props
