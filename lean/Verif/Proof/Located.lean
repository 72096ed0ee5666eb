import Verif.Spec.Located
import Verif.Proof.InSeq
import Verif.Proof.InSafe
/-!
# Lemmas on views with places
-/

namespace Zpp
open Zpp.Spec

def LRes.look (m : Memory) (r : LRes) : Res := ⟨r.s, r.v.look m, r.p⟩

theorem lookAll_map (m : Memory) : ∀ vs : List LVal, LVal.lookAll m vs = vs.map (LVal.look m)
  | [] => rfl
  | v :: vs => by simp [LVal.lookAll, lookAll_map m vs]

mutual
theorem look_owned (m : Memory) : ∀ v : Val, v.owned.look m = v
  | .num _ => rfl
  | .unit => rfl
  | .list vs => by simp only [Val.owned, LVal.look, lookAll_owned m vs]
  | .none => rfl
  | .some v => by simp only [Val.owned, LVal.look, look_owned m v]
  | .alt _ v => by simp only [Val.owned, LVal.look, look_owned m v]
  | .valueless => rfl
  | .bits _ => rfl
theorem lookAll_owned (m : Memory) : ∀ vs : List Val, LVal.lookAll m (Val.ownedAll vs) = vs
  | [] => rfl
  | v :: vs => by simp only [Val.ownedAll, LVal.lookAll, look_owned m v, lookAll_owned m vs]
end

theorem res_owned_look (m : Memory) (r : Res) : r.owned.look m = r := by
  simp [Res.owned, LRes.look, look_owned]

theorem look_elems (m : Memory) (v : LVal) : (v.elems m).map (LVal.look m) = (v.look m).elems := by
  cases v with
  | list vs => simp [LVal.elems, LVal.look, Val.elems, lookAll_map]
  | view pl => simp [LVal.elems, LVal.look, Val.elems, Function.comp_def]
  | _ => rfl

theorem look_resize (m : Memory) (vs : List LVal) (n : Nat) (dv : LVal) :
    (resizeL vs n dv).map (LVal.look m) = resizeVals (vs.map (LVal.look m)) n (dv.look m) := by
  simp [resizeL, resizeVals, List.map_take]

theorem look_toRes (m : Memory) (r : LResL) : r.toRes.look m = (looks m r).toRes := by
  simp [LResL.toRes, ResL.toRes, LRes.look, looks, LVal.look, lookAll_map]

theorem look_all {m : Memory} {rec : LVal → Nat → LRes} {rec' : Val → Nat → Res}
    (h : ∀ v p, (rec v p).look m = rec' (v.look m) p) : ∀ (os : List LVal) (p : Nat),
    looks m (decAllL rec os p) = decAll rec' (os.map (LVal.look m)) p
  | [], p => rfl
  | o :: os, p => by
    have h1 := h o p
    simp only [decAllL, List.map_cons, decAll]
    rw [← h1]
    generalize rec o p = r
    obtain ⟨s, v, p'⟩ := r
    have ih := look_all h os p'
    cases s
    case ok =>
      simp only [LRes.look]
      rw [← ih]
      simp [looks]
    all_goals simp [LRes.look, looks]

theorem look_fields {m : Memory} {rec : Ty → LVal → Nat → LRes} {rec' : Ty → Val → Nat → Res}
    (h : ∀ t v p, (rec t v p).look m = rec' t (v.look m) p) : ∀ (ts : List Ty) (os : List LVal) (p : Nat),
    looks m (decFieldsL rec ts os p) = decFields rec' ts (os.map (LVal.look m)) p
  | [], os, p => rfl
  | t :: ts, os, p => by
    have h1 := h t (os.headD .unit) p
    have h2 : (os.headD .unit).look m = (os.map (LVal.look m)).headD .unit := by cases os <;> rfl
    rw [h2] at h1
    simp only [decFieldsL, decFields]
    rw [← h1]
    generalize rec t (os.headD .unit) p = r
    obtain ⟨s, v, p'⟩ := r
    have ih := look_fields h ts os.tail p'
    rw [List.map_tail] at ih
    cases s
    case ok =>
      simp only [LRes.look]
      rw [← ih]
      simp [looks]
    all_goals simp [LRes.look, looks, List.map_tail]

theorem look_insertSorted (m : Memory) (lt : Val → Val → Bool) (isMap : Bool) (e : LVal) : ∀ vs : List LVal,
    (insertSortedL lt (fun e => assocKey isMap (e.look m)) e vs).map (LVal.look m) =
      insertSorted lt isMap (e.look m) (vs.map (LVal.look m))
  | [] => rfl
  | v :: vs => by
    simp only [insertSortedL, List.map_cons, insertSorted]
    split
    · rfl
    · simp [look_insertSorted m lt isMap e vs]

theorem look_insert (m : Memory) (lt : Val → Val → Bool) (multi hashed isMap : Bool) (e : LVal) (vs : List LVal) :
    (assocInsertL lt multi hashed (fun e => assocKey isMap (e.look m)) e vs).map (LVal.look m) =
      assocInsert lt multi hashed isMap (e.look m) (vs.map (LVal.look m)) := by
  unfold assocInsertL assocInsert
  simp only [List.all_map, Function.comp_def]
  split
  · split
    · simp
    · rfl
  · split
    · exact look_insertSorted m lt isMap e vs
    · rfl

theorem look_assoc {m : Memory} {elem : Nat → LRes} {elem' : Nat → Res} {ins : LVal → List LVal → List LVal}
    {ins' : Val → List Val → List Val} (h : ∀ p, (elem p).look m = elem' p)
    (hi : ∀ e vs, (ins e vs).map (LVal.look m) = ins' (e.look m) (vs.map (LVal.look m))) : ∀ (n : Nat) (vs : List LVal) (p : Nat),
    looks m (decAssocL elem ins n vs p) = decAssoc elem' ins' n (vs.map (LVal.look m)) p
  | 0, vs, p => rfl
  | n + 1, vs, p => by
    have h1 := h p
    simp only [decAssocL, decAssoc]
    rw [← h1]
    generalize elem p = r
    obtain ⟨s, v, p'⟩ := r
    have ih := look_assoc h hi n (ins v vs) p'
    cases s
    case ok =>
      simp only [LRes.look]
      rw [ih, hi]
    all_goals simp [LRes.look, looks]

theorem look_alt {m : Memory} {rec : LVal → Nat → LRes} {rec' : Val → Nat → Res} {dv : LVal} {dv' : Val}
    (h : ∀ v p, (rec v p).look m = rec' (v.look m) p) (hd : dv.look m = dv') (dc : Bool) (i : Nat) (old : LVal) (p : Nat) :
    (decAltL rec dc i dv old p).look m = decAlt rec' dc i dv' (old.look m) p := by
  unfold decAltL decAlt
  subst hd
  split
  · cases old with
    | alt j v =>
      by_cases hj : j = i
      · simp only [hj, LVal.look, if_true]
        rw [← h]
        rfl
      · simp only [hj, LVal.look, if_false]
        rw [← h]
        rfl
    | _ =>
      simp only [LVal.look]
      rw [← h]
      rfl
  · rw [← h]
    generalize rec dv p = r
    obtain ⟨s, v, p'⟩ := r
    cases s
    all_goals simp [LRes.look, LVal.look]

theorem look_new (m : Memory) (old : LVal) (r : LRes) :
    (decNewL old r).look m = (match r.look m with | ⟨.ok, v, p⟩ => ⟨.ok, .some v, p⟩ | ⟨s, _, p⟩ => ⟨s, old.look m, p⟩) := by
  obtain ⟨s, v, p⟩ := r
  cases s
  all_goals simp [decNewL, LRes.look, LVal.look]

theorem look_seqBody {c : Cfg} {m : Memory} {b : Nat} {t : Ty} {rec : LVal → Nat → LRes} {rec' : Val → Nat → Res}
    (h : ∀ v p, (rec v p).look m = rec' (v.look m) p) (k : SeqKind) (olds : List LVal) (p : Nat) :
    (seqBodyL c m b k t rec olds p).look m = seqBody c k t rec' (olds.map (LVal.look m)) (m b) p := by
  unfold seqBodyL seqBody
  split
  · rw [res_owned_look, lookAll_map, List.length_map]
  · rw [look_toRes, look_all h]

theorem isViewElem_cases {t : Ty} (h : isViewElem t = true) : t = .scalar .byte 1 ∨ t = .scalar .chr 1 := by
  unfold isViewElem at h
  split at h
  · exact .inl rfl
  · exact .inr rfl
  · cases h

theorem look_view (c : Cfg) (m : Memory) {t : Ty} (ht : isViewElem t = true) (habi : AbiOk c.sizeof) (b q n : Nat)
    (hn : q + n ≤ (m b).length) :
    (LVal.view ⟨b, q, n⟩).look m = .list (unrepAll c.host c.sizeof t n (((m b).drop q).take n)) := by
  have hl : (((m b).drop q).take n).length = n := by simp; omega
  have hsz : c.sizeof t = 1 := by
    rcases isViewElem_cases ht with rfl | rfl
    all_goals exact habi.scalar _ _ (by omega)
  have := unrepAll_bytes c (isViewElem_cases ht) hsz (((m b).drop q).take n)
  rw [hl] at this
  rw [this]
  rfl

/-- Reading with places gives what reading without gives. -/
theorem look_decode : ∀ (d : Nat) (c : Cfg) (m : Memory) (b : Nat) (t : Ty) (old : LVal) (p : Nat), AbiOk c.sizeof →
    (decodeL d c m b t old p).look m = decode d c t (old.look m) (m b) p := by
  intro d
  induction d with
  | zero => intro c m b t old p _; rfl
  | succ d ih =>
    intro c m b t old p ha
    have hrec : ∀ t v p, (decodeL d c m b t v p).look m = decode d c t (v.look m) (m b) p := fun t v p => ih c m b t v p ha
    have howned : ∀ t, (dflt c d t).owned.look m = dflt c d t := fun t => look_owned m _
    cases t with
    | scalar k n => exact res_owned_look m _
    | bool => exact res_owned_look m _
    | varint n zz => exact res_owned_look m _
    | empty => exact res_owned_look m _
    | bitset n => exact res_owned_look m _
    | msg sz ok maps nums fs => exact res_owned_look m _
    | ref i => exact hrec (c.env i) old p
    | struct ok fs =>
      rw [decodeL]
      split
      · exact res_owned_look m _
      · next h =>
        rw [look_toRes, look_fields (rec' := fun t v p => decode d c t v (m b) p) hrec, look_elems, decode, if_neg h]
    | array n t =>
      rw [decodeL]
      split
      · exact res_owned_look m _
      · next h =>
        rw [look_toRes, look_all (rec' := fun v p => decode d c t v (m b) p) (hrec t), look_resize, look_elems, decode]
        simp only [if_neg h]
        rfl
    | seq k sz t =>
      rw [decodeL]
      split
      · exact res_owned_look m _
      · next hk =>
        have hv : k = .view → isViewElem t = true := by
          intro h
          cases he : isViewElem t
          · exact absurd ⟨h, he⟩ hk
          · rfl
        have hb := fun k olds p => look_seqBody (c := c) (b := b) (t := t) (rec' := fun v p => decode d c t v (m b) p) (hrec t) k olds p
        have hun : (seqUnsizedL c m b k t (fun v p => decodeL d c m b t v p) old p).look m =
            seqUnsized c k t (fun v p => decode d c t v (m b) p) (old.look m) (m b) p := by
          cases k
          case view =>
            simp only [seqUnsizedL, seqUnsized]
            split
            · rfl
            · next hlt =>
              simp only [LRes.look]
              rw [look_view c m (hv rfl) ha b p _ (by omega), List.take_of_length_le (by simp)]
          all_goals
            simp only [seqUnsizedL, seqUnsized]
            rw [hb, look_elems]
        have hfill : ∀ n p1, (seqFillL c m b k t (fun v p => decodeL d c m b t v p) (dflt c d t).owned old n p1).look m =
            seqFill c k t (fun v p => decode d c t v (m b) p) (dflt c d t) (old.look m) (m b) n p1 := by
          intro n p1
          cases k
          case view =>
            simp only [seqFillL, seqFill]
            split
            · rfl
            · split
              · next h =>
                simp only [LRes.look]
                rw [look_view c m (hv rfl) ha b p1 n h]
              · rfl
          case span =>
            have hl : (old.elems m).length = (old.look m).elems.length := by rw [← look_elems, List.length_map]
            simp only [seqFillL, seqFill, hl]
            split
            · rfl
            · rw [hb, List.map_take, look_elems]
          all_goals
            simp only [seqFillL, seqFill]
            split
            · rfl
            · split
              · rfl
              · rw [hb, look_resize, look_elems, howned]
        have hhdr : ∀ sz, LRes.look m (match decHdr c sz (m b) p with
            | (.ok, n, p1) => seqFillL c m b k t (fun v p => decodeL d c m b t v p) (dflt c d t).owned old n p1
            | (s', _, p1) => ⟨s', old, p1⟩) = (match decHdr c sz (m b) p with
            | (.ok, n, p1) => seqFill c k t (fun v p => decode d c t v (m b) p) (dflt c d t) (old.look m) (m b) n p1
            | (s', _, p1) => ⟨s', old.look m, p1⟩) := by
          intro sz
          generalize decHdr c sz (m b) p = r
          obtain ⟨s, n, p1⟩ := r
          cases s
          case ok => exact hfill n p1
          all_goals rfl
        rw [decode]
        cases effSz c sz with
        | none => exact hun
        | fixed k => exact hhdr (.fixed k)
        | varint => exact hhdr .varint
    | assoc mu ha' sz key mp =>
      rw [decodeL, decode]
      generalize decHdr c (effSz c sz) (m b) p = r
      obtain ⟨s, n, p1⟩ := r
      cases s
      case ok =>
        dsimp only
        rw [look_toRes, look_assoc (elem' := fun p => match mp with
          | none => decode d c key (dflt c d key) (m b) p
          | some t' => (decFields (fun t v p => decode d c t v (m b) p) [key, t'] [dflt c d key, dflt c d t'] p).toRes)
          (ins' := assocInsert (c.keyLt key) mu ha' mp.isSome)]
        · rfl
        · intro p
          cases mp with
          | none =>
            dsimp only
            rw [hrec, howned]
          | some t' =>
            dsimp only
            rw [look_toRes, look_fields (rec' := fun t v p => decode d c t v (m b) p) hrec]
            simp only [List.map_cons, List.map_nil, howned]
        · intro e vs
          exact look_insert m _ _ _ _ e vs
      all_goals rfl
    | optional dc t =>
      have hnew : ∀ p1, (decNewL old (decodeL d c m b t (dflt c d t).owned p1)).look m =
          (match decode d c t (dflt c d t) (m b) p1 with
            | ⟨.ok, v, p2⟩ => ⟨.ok, .some v, p2⟩
            | ⟨s, _, p2⟩ => ⟨s, old.look m, p2⟩) := fun p1 => by
        rw [look_new, hrec, howned]
      simp only [decodeL, decode]
      generalize getBytes (m b) p 1 = r
      obtain ⟨s, bs, p1⟩ := r
      cases s
      case ok =>
        dsimp only
        split
        · rfl
        · split
          · cases old with
            | some v =>
              simp only [LVal.look]
              rw [← hrec]
              rfl
            | _ =>
              simp only [LVal.look]
              rw [← howned, ← hrec, howned]
              rfl
          · exact hnew p1
      all_goals rfl
    | optPtr t =>
      rw [decodeL, decode]
      generalize getBytes (m b) p 1 = r
      obtain ⟨s, bs, p1⟩ := r
      cases s
      case ok =>
        dsimp only
        split
        · rfl
        · rw [look_new, hrec, howned]
          generalize decode d c t (dflt c d t) (m b) p1 = r
          obtain ⟨s, v, q⟩ := r
          cases s
          all_goals rfl
      all_goals rfl
    | uptr t =>
      rw [decodeL, decode, look_new, hrec, howned]
      generalize decode d c t (dflt c d t) (m b) p = r
      obtain ⟨s, v, q⟩ := r
      cases s
      all_goals rfl
    | variant idTy ids dcs alts =>
      rw [decodeL, decode]
      generalize decode d c idTy (dflt c d idTy) (m b) p = r
      obtain ⟨s, id, p1⟩ := r
      cases s
      case ok =>
        dsimp only
        cases findId id ids 0 with
        | none => rfl
        | some i =>
          dsimp only
          cases alts[i]? with
          | none => rfl
          | some t =>
            cases dcs[i]? with
            | none => rfl
            | some dc => exact look_alt (hrec t) (howned t) dc i old p1
      all_goals rfl

theorem look_decMany {d : Nat} {c : Cfg} {m : Memory} {b : Nat} (ha : AbiOk c.sizeof) : ∀ (items : List (Ty × LVal)) (p : Nat),
    looks m (decManyL d c m b items p) = decMany d c (m b) (items.map fun x => (x.1, x.2.look m)) p
  | [], p => rfl
  | (t, o) :: rest, p => by
    have h1 := look_decode d c m b t o p ha
    simp only [decManyL, List.map_cons, decMany]
    rw [← h1]
    generalize decodeL d c m b t o p = r
    obtain ⟨s, v, p'⟩ := r
    have ih := look_decMany (d := d) (m := m) (b := b) ha rest p'
    cases s
    case ok =>
      simp only [LRes.look]
      rw [← ih]
      simp [looks]
    all_goals simp [LRes.look, looks, Function.comp_def]

/-! ## Places -/

mutual
theorem places_owned : ∀ v : Val, placesOf v.owned = []
  | .num _ => rfl
  | .unit => rfl
  | .list vs => places_ownedAll vs
  | .none => rfl
  | .some v => places_owned v
  | .alt _ v => places_owned v
  | .valueless => rfl
  | .bits _ => rfl
theorem places_ownedAll : ∀ vs : List Val, placesAll (Val.ownedAll vs) = []
  | [] => rfl
  | v :: vs => by simp only [Val.ownedAll, placesAll, places_owned v, places_ownedAll vs, List.append_nil]
end

theorem mem_placesAll {pl : Place} : ∀ {vs : List LVal}, pl ∈ placesAll vs ↔ ∃ v ∈ vs, pl ∈ placesOf v
  | [] => by simp [placesAll]
  | v :: vs => by simp [placesAll, mem_placesAll (vs := vs)]

theorem places_elems {m : Memory} {v : LVal} {pl : Place} (h : pl ∈ placesAll (v.elems m)) : pl ∈ placesOf v := by
  cases v with
  | list vs => exact h
  | view q =>
    obtain ⟨x, hx, h⟩ := mem_placesAll.mp h
    simp only [LVal.elems, List.mem_map] at hx
    obtain ⟨y, _, rfl⟩ := hx
    simp [placesOf] at h
  | _ => simp [LVal.elems, placesAll] at h

theorem viewFreeL_mem {ts : List Ty} (h : viewFreeL ts = true) : ∀ t ∈ ts, viewFree t = true := by
  induction ts with
  | nil => intro t ht; cases ht
  | cons a as ih =>
    simp only [viewFreeL, Bool.and_eq_true] at h
    intro t ht
    rcases List.mem_cons.mp ht with rfl | ht
    · exact h.1
    · exact ih h.2 t ht

/-- A new view, inside the input consumed (`V`: there may be new ones). -/
def NewIn (V : Prop) (b p p' : Nat) (pl : Place) : Prop := V ∧ LiesIn b p p' pl

/-- The outcome of reading over objects with the views `olds` (`V`: there may be new ones): views are inside the input consumed, or old ones after a failure;
no two views of a successful read have bytes in common. -/
structure Placed (V : Prop) (b len p : Nat) (olds : List Place) (s : Status) (ps : List Place) (p' : Nat) : Prop where
  mono : p ≤ p'
  inb : p' ≤ len
  mem : ∀ pl ∈ ps, NewIn V b p p' pl ∨ (s ≠ .ok ∧ pl ∈ olds)
  apart : s = .ok → ps.Pairwise Apart

theorem NewIn.mono {V : Prop} {b p p' q q' : Nat} {pl : Place} (h : NewIn V b p p' pl) (h1 : q ≤ p) (h2 : p' ≤ q') :
    NewIn V b q q' pl :=
  ⟨h.1, h.2.1, by have := h.2.2.1; omega, by have := h.2.2.2; omega⟩

theorem Placed.kept {V : Prop} {b len p p' : Nat} {s : Status} {olds : List Place} (hs : s ≠ .ok) (h1 : p ≤ p') (h2 : p' ≤ len) :
    Placed V b len p olds s olds p' := ⟨h1, h2, fun _ h => .inr ⟨hs, h⟩, fun h => absurd h hs⟩

theorem Placed.nothing {V : Prop} {b len p p' : Nat} {s : Status} {olds : List Place} (h1 : p ≤ p') (h2 : p' ≤ len) :
    Placed V b len p olds s [] p' := ⟨h1, h2, fun _ h => absurd h (by simp), fun _ => List.Pairwise.nil⟩

theorem Placed.from {V : Prop} {b len p q p' : Nat} {s : Status} {olds ps : List Place} (h : Placed V b len q olds s ps p') (h1 : p ≤ q) :
    Placed V b len p olds s ps p' :=
  ⟨Nat.le_trans h1 h.mono, h.inb, fun pl hp => (h.mem pl hp).imp_left fun h => NewIn.mono h h1 (Nat.le_refl _), h.apart⟩

theorem Placed.olds {V : Prop} {b len p p' : Nat} {s : Status} {olds olds' ps : List Place} (h : Placed V b len p olds s ps p')
    (h1 : ∀ pl ∈ olds, pl ∈ olds') : Placed V b len p olds' s ps p' :=
  ⟨h.mono, h.inb, fun pl hp => (h.mem pl hp).imp_right fun h => ⟨h.1, h1 _ h.2⟩, h.apart⟩

theorem apart_of_order {V : Prop} {b p q r : Nat} {x y : Place} (hx : NewIn V b p q x) (hy : NewIn V b q r y) : Apart x y :=
  .inr (.inl (by have := hx.2.2.2; have := hy.2.2.1; omega))

theorem apart_symm {x y : Place} (h : Apart x y) : Apart y x := by
  unfold Apart at *
  omega

/-- Two reads one after the other. -/
theorem Placed.append {V : Prop} {b len p p1 p2 : Nat} {s : Status} {o1 o2 v1 v2 : List Place} (h1 : Placed V b len p o1 .ok v1 p1)
    (h2 : Placed V b len p1 o2 s v2 p2) : Placed V b len p (o1 ++ o2) s (v1 ++ v2) p2 := by
  refine ⟨Nat.le_trans h1.mono h2.mono, h2.inb, fun pl h => ?_, fun hs => ?_⟩
  · rcases List.mem_append.mp h with h | h
    · rcases h1.mem pl h with h | h
      · exact .inl (NewIn.mono h (Nat.le_refl _) h2.mono)
      · exact absurd rfl h.1
    · rcases h2.mem pl h with h | h
      · exact .inl (NewIn.mono h h1.mono (Nat.le_refl _))
      · exact .inr ⟨h.1, List.mem_append_right _ h.2⟩
  · refine List.pairwise_append.mpr ⟨h1.apart rfl, h2.apart hs, fun x hx y hy => ?_⟩
    rcases h1.mem x hx with h | h
    · rcases h2.mem y hy with h' | h'
      · exact apart_of_order h h'
      · exact absurd hs h'.1
    · exact absurd rfl h.1

theorem placed_all {V : Prop} {b len : Nat} {rec : LVal → Nat → LRes}
    (h : ∀ v p, p ≤ len → Placed V b len p (placesOf v) (rec v p).s (placesOf (rec v p).v) (rec v p).p) :
    ∀ (os : List LVal) (p : Nat), p ≤ len →
    Placed V b len p (placesAll os) (decAllL rec os p).s (placesAll (decAllL rec os p).vs) (decAllL rec os p).p
  | [], p, hp => .nothing (Nat.le_refl _) hp
  | o :: os, p, hp => by
    have h1 := h o p hp
    simp only [decAllL]
    generalize rec o p = r at h1 ⊢
    obtain ⟨s, v, p'⟩ := r
    cases s
    case ok => exact h1.append (placed_all h os p' h1.inb)
    all_goals
      refine ⟨h1.mono, h1.inb, fun pl hm => ?_, fun h => by cases h⟩
      rcases List.mem_append.mp hm with hm | hm
      · rcases h1.mem pl hm with h | h
        · exact .inl h
        · exact .inr ⟨h.1, List.mem_append_left _ h.2⟩
      · exact .inr ⟨by simp, List.mem_append_right _ hm⟩

theorem placed_fields {V : Prop} {b len : Nat} {rec : Ty → LVal → Nat → LRes} : ∀ (ts : List Ty) (os : List LVal) (p : Nat), p ≤ len →
    (∀ t ∈ ts, ∀ v p, p ≤ len → Placed V b len p (placesOf v) (rec t v p).s (placesOf (rec t v p).v) (rec t v p).p) →
    Placed V b len p (placesAll os) (decFieldsL rec ts os p).s (placesAll (decFieldsL rec ts os p).vs) (decFieldsL rec ts os p).p
  | [], os, p, hp, _ => .nothing (Nat.le_refl _) hp
  | t :: ts, os, p, hp, h => by
    have h1 := h t (by simp) (os.headD .unit) p hp
    have hhead : ∀ pl ∈ placesOf (os.headD .unit), pl ∈ placesAll os := by
      cases os with
      | nil => intro pl h; cases h
      | cons o os => intro pl h; exact List.mem_append_left _ h
    have htail : ∀ pl ∈ placesAll os.tail, pl ∈ placesAll os := by
      cases os with
      | nil => intro pl h; cases h
      | cons o os => intro pl h; exact List.mem_append_right _ h
    simp only [decFieldsL]
    generalize rec t (os.headD .unit) p = r at h1 ⊢
    obtain ⟨s, v, p'⟩ := r
    cases s
    case ok =>
      refine (h1.append (placed_fields ts os.tail p' h1.inb fun t ht => h t (by simp [ht]))).olds fun pl hm => ?_
      rcases List.mem_append.mp hm with hm | hm
      · exact hhead pl hm
      · exact htail pl hm
    all_goals
      refine ⟨h1.mono, h1.inb, fun pl hm => ?_, fun h => by cases h⟩
      rcases List.mem_append.mp hm with hm | hm
      · rcases h1.mem pl hm with h | h
        · exact .inl h
        · exact .inr ⟨h.1, hhead _ h.2⟩
      · exact .inr ⟨by simp, htail _ hm⟩

theorem places_insertSorted {lt : Val → Val → Bool} {key : LVal → Val} {e : LVal} {pl : Place} : ∀ {vs : List LVal},
    pl ∈ placesAll (insertSortedL lt key e vs) → pl ∈ placesOf e ∨ pl ∈ placesAll vs
  | [], h => by simpa [insertSortedL, placesAll] using h
  | v :: vs, h => by
    simp only [insertSortedL] at h
    split at h
    · simpa [placesAll] using h
    · simp only [placesAll, List.mem_append] at h ⊢
      rcases h with h | h
      · exact .inr (.inl h)
      · rcases places_insertSorted h with h | h
        · exact .inl h
        · exact .inr (.inr h)

theorem apart_insertSorted {lt : Val → Val → Bool} {key : LVal → Val} {e : LVal} : ∀ {vs : List LVal},
    (placesOf e).Pairwise Apart → (placesAll vs).Pairwise Apart → (∀ x ∈ placesOf e, ∀ y ∈ placesAll vs, Apart x y) →
    (placesAll (insertSortedL lt key e vs)).Pairwise Apart
  | [], h, _, _ => by simpa [insertSortedL, placesAll] using h
  | v :: vs, h, h', ha => by
    simp only [insertSortedL]
    split
    · exact List.pairwise_append.mpr ⟨h, h', ha⟩
    · have h2 := List.pairwise_append.mp h'
      refine List.pairwise_append.mpr ⟨h2.1, apart_insertSorted h h2.2.1 (fun x hx y hy => ha x hx y (List.mem_append_right _ hy)), ?_⟩
      intro x hx y hy
      rcases places_insertSorted hy with hy | hy
      · exact apart_symm (ha y hy x (List.mem_append_left _ hx))
      · exact h2.2.2 x hx y hy

theorem placesAll_append (vs ws : List LVal) : placesAll (vs ++ ws) = placesAll vs ++ placesAll ws := by
  induction vs with
  | nil => rfl
  | cons v vs ih => simp [placesAll, ih]

theorem placed_insert {V : Prop} {lt : Val → Val → Bool} {multi hashed : Bool} {key : LVal → Val} {e : LVal} {vs : List LVal} {b p p1 p2 : Nat}
    (hv : ∀ pl ∈ placesAll vs, NewIn V b p p1 pl) (hva : (placesAll vs).Pairwise Apart)
    (he : ∀ pl ∈ placesOf e, NewIn V b p1 p2 pl) (hea : (placesOf e).Pairwise Apart) (h1 : p ≤ p1) (h2 : p1 ≤ p2) :
    (∀ pl ∈ placesAll (assocInsertL lt multi hashed key e vs), NewIn V b p p2 pl) ∧
      (placesAll (assocInsertL lt multi hashed key e vs)).Pairwise Apart := by
  have hv' : ∀ pl ∈ placesAll vs, NewIn V b p p2 pl := fun pl h => NewIn.mono (hv pl h) (Nat.le_refl _) h2
  have he' : ∀ pl ∈ placesOf e, NewIn V b p p2 pl := fun pl h => NewIn.mono (he pl h) h1 (Nat.le_refl _)
  unfold assocInsertL
  split
  · split
    · rw [placesAll_append]
      simp only [placesAll, List.append_nil]
      refine ⟨fun pl h => ?_, List.pairwise_append.mpr ⟨hva, hea, fun x hx y hy => apart_of_order (hv x hx) (he y hy)⟩⟩
      rcases List.mem_append.mp h with h | h
      · exact hv' pl h
      · exact he' pl h
    · exact ⟨hv', hva⟩
  · split
    · refine ⟨fun pl h => ?_, apart_insertSorted hea hva fun x hx y hy => apart_symm (apart_of_order (hv y hy) (he x hx))⟩
      rcases places_insertSorted h with h | h
      · exact he' pl h
      · exact hv' pl h
    · exact ⟨hv', hva⟩

theorem placed_assoc {V : Prop} {b len p0 : Nat} {elem : Nat → LRes} {lt : Val → Val → Bool} {multi hashed : Bool} {key : LVal → Val}
    (h : ∀ p, p ≤ len → Placed V b len p [] (elem p).s (placesOf (elem p).v) (elem p).p) : ∀ (n : Nat) (vs : List LVal) (p : Nat),
    p ≤ len → p0 ≤ p → (∀ pl ∈ placesAll vs, NewIn V b p0 p pl) → (placesAll vs).Pairwise Apart →
    Placed V b len p0 [] (decAssocL elem (assocInsertL lt multi hashed key) n vs p).s
      (placesAll (decAssocL elem (assocInsertL lt multi hashed key) n vs p).vs)
      (decAssocL elem (assocInsertL lt multi hashed key) n vs p).p
  | 0, vs, p, hp, h0, hv, hva => ⟨h0, hp, fun pl h => .inl (hv pl h), fun _ => hva⟩
  | n + 1, vs, p, hp, h0, hv, hva => by
    have h1 := h p hp
    simp only [decAssocL]
    generalize elem p = r at h1 ⊢
    obtain ⟨s, v, p'⟩ := r
    cases s
    case ok =>
      have h2 := placed_insert (lt := lt) (multi := multi) (hashed := hashed) (key := key) hv hva
        (fun pl hm => (h1.mem pl hm).resolve_right fun h => h.1 rfl) (h1.apart rfl) h0 h1.mono
      exact placed_assoc h n _ p' h1.inb (Nat.le_trans h0 h1.mono) h2.1 h2.2
    all_goals exact ⟨Nat.le_trans h0 h1.mono, h1.inb, fun pl h => .inl (NewIn.mono (hv pl h) (Nat.le_refl _) h1.mono), fun h => by cases h⟩

theorem placed_new {V : Prop} {b len p : Nat} {old : LVal} {r : LRes} (h : Placed V b len p [] r.s (placesOf r.v) r.p) :
    Placed V b len p (placesOf old) (decNewL old r).s (placesOf (decNewL old r).v) (decNewL old r).p := by
  obtain ⟨s, v, p'⟩ := r
  cases s
  case ok => exact h.olds fun pl h => by cases h
  all_goals exact .kept (by simp [decNewL]) h.mono h.inb

theorem placed_alt {V : Prop} {b len p : Nat} {rec : LVal → Nat → LRes} {dc : Bool} {i : Nat} {dv old : LVal} (hp : p ≤ len)
    (h : ∀ v p, p ≤ len → Placed V b len p (placesOf v) (rec v p).s (placesOf (rec v p).v) (rec v p).p) (hd : placesOf dv = []) :
    Placed V b len p (placesOf old) (decAltL rec dc i dv old p).s (placesOf (decAltL rec dc i dv old p).v)
      (decAltL rec dc i dv old p).p := by
  unfold decAltL
  split
  · refine (h _ p hp).olds fun pl hm => ?_
    cases old with
    | alt j v =>
      dsimp only at hm
      split at hm
      · exact hm
      · rw [hd] at hm; cases hm
    | _ => rw [hd] at hm; cases hm
  · have h1 := h dv p hp
    generalize rec dv p = r at h1 ⊢
    obtain ⟨s, v, p'⟩ := r
    rw [hd] at h1
    cases s
    case ok => exact h1.olds fun pl h => by cases h
    all_goals exact .kept (by simp) h1.mono h1.inb

theorem places_resize {vs : List LVal} {n : Nat} {dv : LVal} (hd : placesOf dv = []) {pl : Place}
    (h : pl ∈ placesAll (resizeL vs n dv)) : pl ∈ placesAll vs := by
  obtain ⟨x, hx, h⟩ := mem_placesAll.mp h
  rcases List.mem_append.mp hx with hx | hx
  · exact mem_placesAll.mpr ⟨x, List.mem_of_mem_take hx, h⟩
  · rw [(List.mem_replicate.mp hx).2, hd] at h
    cases h

theorem places_take {vs : List LVal} {n : Nat} {pl : Place} (h : pl ∈ placesAll (vs.take n)) : pl ∈ placesAll vs := by
  obtain ⟨x, hx, h⟩ := mem_placesAll.mp h
  exact mem_placesAll.mpr ⟨x, List.mem_of_mem_take hx, h⟩

/-- Where the views of an object read are. -/
theorem decodeL_placed {V : Prop} : ∀ (d : Nat) (c : Cfg) (m : Memory) (b : Nat) (t : Ty) (old : LVal) (p : Nat), AbiOk c.sizeof →
    (∀ i, widthsOk (c.env i) = true) → widthsOk t = true → p ≤ (m b).length →
    (V ∨ (viewFree t = true ∧ ∀ i, viewFree (c.env i) = true)) →
    Placed V b (m b).length p (placesOf old) (decodeL d c m b t old p).s (placesOf (decodeL d c m b t old p).v)
      (decodeL d c m b t old p).p := by
  intro d
  induction d with
  | zero => intro c m b t old p _ _ _ hp _; exact .kept (by simp [decodeL]) (Nat.le_refl _) hp
  | succ d ih =>
    intro c m b t old p ha henv hw hp hV
    have hown : ∀ t, placesOf (dflt c d t).owned = [] := fun t => places_owned _
    have hrec : ∀ t, widthsOk t = true → (V ∨ (viewFree t = true ∧ ∀ i, viewFree (c.env i) = true)) → ∀ v p, p ≤ (m b).length → Placed V b (m b).length p (placesOf v) (decodeL d c m b t v p).s
        (placesOf (decodeL d c m b t v p).v) (decodeL d c m b t v p).p := fun t hw hV v p hp =>
      ih c m b t v p ha henv hw hp hV
    have hnew : ∀ t, widthsOk t = true → (V ∨ (viewFree t = true ∧ ∀ i, viewFree (c.env i) = true)) → ∀ p, p ≤ (m b).length → Placed V b (m b).length p (placesOf old)
        (decNewL old (decodeL d c m b t (dflt c d t).owned p)).s
        (placesOf (decNewL old (decodeL d c m b t (dflt c d t).owned p)).v)
        (decNewL old (decodeL d c m b t (dflt c d t).owned p)).p := by
      intro t hw hV p hp
      have := hrec t hw hV (dflt c d t).owned p hp
      rw [hown] at this
      exact placed_new this
    have hleaf : ∀ r : Res, InStep (m b).length p r.s r.p →
        Placed V b (m b).length p (placesOf old) r.owned.s (placesOf r.owned.v) r.owned.p := by
      intro r h
      simp only [Res.owned, places_owned]
      exact .nothing h.mono h.inb
    have hplain : Placed V b (m b).length p (placesOf old) (decode (d + 1) c t (old.look m) (m b) p).owned.s
        (placesOf (decode (d + 1) c t (old.look m) (m b) p).owned.v) (decode (d + 1) c t (old.look m) (m b) p).owned.p :=
      hleaf _ (decode_safe (d + 1) c t (old.look m) (m b) p henv hw hp)
    cases t with
    | scalar k n => exact hplain
    | bool => exact hplain
    | varint n zz => exact hplain
    | empty => exact hplain
    | bitset n => exact hplain
    | msg sz ok maps nums fs => exact hplain
    | ref i => exact hrec (c.env i) (henv i) (hV.imp_right fun h => ⟨h.2 i, h.2⟩) old p hp
    | struct ok fs =>
      rw [decodeL]
      split
      · exact hplain
      · exact (placed_fields fs (old.elems m) p hp fun t ht =>
          hrec t (widthsOkL_mem hw t ht) (hV.imp_right fun h => ⟨viewFreeL_mem h.1 t ht, h.2⟩)).olds fun pl h => places_elems h
    | array n t =>
      rw [decodeL]
      split
      · exact hplain
      · exact (placed_all (hrec t hw hV) _ p hp).olds fun pl h => places_elems (places_resize (dv := .unit) rfl h)
    | seq k sz t =>
      rw [decodeL]
      split
      · exact hplain
      · have hV' : V ∨ (viewFree t = true ∧ ∀ i, viewFree (c.env i) = true) := by
          refine hV.imp_right fun h => ⟨?_, h.2⟩
          have := h.1
          simp only [viewFree, Bool.and_eq_true] at this
          exact this.2
        have hbody : ∀ k olds q, q ≤ (m b).length → (∀ pl ∈ placesAll olds, pl ∈ placesOf old) →
            Placed V b (m b).length q (placesOf old) (seqBodyL c m b k t (fun v p => decodeL d c m b t v p) olds q).s
              (placesOf (seqBodyL c m b k t (fun v p => decodeL d c m b t v p) olds q).v)
              (seqBodyL c m b k t (fun v p => decodeL d c m b t v p) olds q).p := by
          intro k olds q hq ho
          unfold seqBodyL
          split
          · have h := toRes_safe (decRep_safe (c := c) (t := t) (n := olds.length) (olds := LVal.lookAll m olds) hq)
            simp only [Res.owned, places_owned]
            exact .nothing h.mono h.inb
          · exact (placed_all (hrec t hw hV') olds q hq).olds ho
        have hview : k = .view → ∀ q n, q + n ≤ (m b).length → Placed V b (m b).length q (placesOf old) .ok (placesOf (.view ⟨b, q, n⟩)) (q + n) :=
          fun hk q n h => ⟨by omega, h, fun pl hm => by
            obtain rfl : pl = _ := by simpa [placesOf] using hm
            refine .inl ⟨hV.resolve_right fun h => ?_, rfl, Nat.le_refl _, Nat.le_refl _⟩
            subst hk
            simp [viewFree] at h, fun _ => by simp [placesOf]⟩
        have hun : Placed V b (m b).length p (placesOf old) (seqUnsizedL c m b k t (fun v p => decodeL d c m b t v p) old p).s
            (placesOf (seqUnsizedL c m b k t (fun v p => decodeL d c m b t v p) old p).v)
            (seqUnsizedL c m b k t (fun v p => decodeL d c m b t v p) old p).p := by
          cases k
          case view =>
            simp only [seqUnsizedL]
            rw [if_neg (by omega)]
            have := hview rfl p ((m b).length - p) (by omega)
            rwa [Nat.add_sub_cancel' hp] at this
          all_goals exact hbody _ _ _ hp fun pl h => places_elems h
        have hfill : ∀ n p1, p1 ≤ (m b).length → Placed V b (m b).length p1 (placesOf old)
            (seqFillL c m b k t (fun v p => decodeL d c m b t v p) (dflt c d t).owned old n p1).s
            (placesOf (seqFillL c m b k t (fun v p => decodeL d c m b t v p) (dflt c d t).owned old n p1).v)
            (seqFillL c m b k t (fun v p => decodeL d c m b t v p) (dflt c d t).owned old n p1).p := by
          intro n p1 hp1
          cases k
          case view =>
            simp only [seqFillL]
            split
            · exact .kept (by simp) (Nat.le_refl _) hp1
            · split
              · next h => exact hview rfl p1 n h
              · exact .kept (by simp) (Nat.le_refl _) hp1
          case span =>
            simp only [seqFillL]
            split
            · exact .kept (by simp) (Nat.le_refl _) hp1
            · exact hbody _ _ _ hp1 fun pl h => places_elems (places_take h)
          all_goals
            simp only [seqFillL]
            split
            · exact .kept (by simp) (Nat.le_refl _) hp1
            · split
              · exact .kept (by simp) (Nat.le_refl _) hp1
              · exact hbody _ _ _ hp1 fun pl h => places_elems (places_resize (hown t) h)
        cases effSz c sz with
        | none => exact hun
        | fixed k' =>
          have h1 := decHdr_safe (c := c) (.fixed k') hp
          dsimp only
          generalize decHdr c (.fixed k') (m b) p = r at h1 ⊢
          obtain ⟨s, n, p1⟩ := r
          cases s
          case ok => exact (hfill n p1 h1.inb).from h1.mono
          all_goals exact .kept (by simp) h1.mono h1.inb
        | varint =>
          have h1 := decHdr_safe (c := c) .varint hp
          dsimp only
          generalize decHdr c .varint (m b) p = r at h1 ⊢
          obtain ⟨s, n, p1⟩ := r
          cases s
          case ok => exact (hfill n p1 h1.inb).from h1.mono
          all_goals exact .kept (by simp) h1.mono h1.inb
    | assoc mu ha' sz key mp =>
      rw [decodeL]
      have h1 := decHdr_safe (c := c) (effSz c sz) hp
      generalize decHdr c (effSz c sz) (m b) p = r at h1 ⊢
      obtain ⟨s, n, p1⟩ := r
      cases s
      case ok =>
        dsimp only
        refine ((placed_assoc (p0 := p1) ?_ n [] p1 h1.inb (Nat.le_refl _) (fun pl h => by cases h) List.Pairwise.nil).from h1.mono).olds
          fun pl h => by cases h
        intro q hq
        cases mp with
        | none =>
          have := hrec key hw hV (dflt c d key).owned q hq
          rwa [hown] at this
        | some t =>
          simp only [widthsOk, Bool.and_eq_true] at hw
          have := placed_fields (b := b) (rec := fun t v p => decodeL d c m b t v p) [key, t] [(dflt c d key).owned, (dflt c d t).owned]
            q hq (by
              intro t' ht'
              simp only [List.mem_cons, List.not_mem_nil, or_false] at ht'
              rcases ht' with rfl | rfl
              · exact hrec _ hw.1 (hV.imp_right fun h => ⟨by have := h.1; simp only [viewFree, Bool.and_eq_true] at this; exact this.1, h.2⟩)
              · exact hrec _ hw.2 (hV.imp_right fun h => ⟨by have := h.1; simp only [viewFree, Bool.and_eq_true] at this; exact this.2, h.2⟩))
          simp only [placesAll, hown, List.append_nil] at this
          exact this
      all_goals exact .kept (by simp) h1.mono h1.inb
    | optional dc t =>
      simp only [decodeL]
      have h1 := (getBytes_safe 1 hp).1
      generalize getBytes (m b) p 1 = r at h1 ⊢
      obtain ⟨s, bs, p1⟩ := r
      cases s
      case ok =>
        dsimp only
        split
        · exact .nothing h1.mono h1.inb
        · split
          · refine ((hrec t hw hV _ p1 h1.inb).from h1.mono).olds fun pl h => ?_
            cases old with
            | some v => exact h
            | _ => rw [hown] at h; cases h
          · exact (hnew t hw hV p1 h1.inb).from h1.mono
      all_goals exact .kept (by simp) h1.mono h1.inb
    | optPtr t =>
      rw [decodeL]
      have h1 := (getBytes_safe 1 hp).1
      generalize getBytes (m b) p 1 = r at h1 ⊢
      obtain ⟨s, bs, p1⟩ := r
      cases s
      case ok =>
        dsimp only
        split
        · exact .nothing h1.mono h1.inb
        · exact (hnew t hw hV p1 h1.inb).from h1.mono
      all_goals exact .kept (by simp) h1.mono h1.inb
    | uptr t =>
      rw [decodeL]
      exact hnew t hw hV p hp
    | variant idTy ids dcs alts =>
      simp only [widthsOk, Bool.and_eq_true] at hw
      rw [decodeL]
      have h1 := decode_safe d c idTy (dflt c d idTy) (m b) p henv hw.1 hp
      generalize decode d c idTy (dflt c d idTy) (m b) p = r at h1 ⊢
      obtain ⟨s, id, p1⟩ := r
      cases s
      case ok =>
        dsimp only
        cases findId id ids 0 with
        | none => exact .kept (by simp) h1.mono h1.inb
        | some i =>
          dsimp only
          cases hi : alts[i]? with
          | none => exact .kept (by simp) h1.mono h1.inb
          | some t =>
            cases dcs[i]? with
            | none => exact .kept (by simp) h1.mono h1.inb
            | some dc =>
              exact (placed_alt h1.inb (hrec t (widthsOkL_mem hw.2 t (List.mem_of_getElem? hi))
                (hV.imp_right fun h => ⟨viewFreeL_mem h.1 t (List.mem_of_getElem? hi), h.2⟩)) (hown t)).from h1.mono
      all_goals exact .kept (by simp) h1.mono h1.inb

theorem decManyL_placed {V : Prop} {d : Nat} {c : Cfg} {m : Memory} {b : Nat} (ha : AbiOk c.sizeof)
    (henv : ∀ i, widthsOk (c.env i) = true) : ∀ (items : List (Ty × LVal)) (p : Nat), (∀ it ∈ items, widthsOk it.1 = true) →
    p ≤ (m b).length → (V ∨ ((∀ it ∈ items, viewFree it.1 = true) ∧ ∀ i, viewFree (c.env i) = true)) → Placed V b (m b).length p (placesAll (items.map Prod.snd)) (decManyL d c m b items p).s
      (placesAll (decManyL d c m b items p).vs) (decManyL d c m b items p).p
  | [], p, _, hp, _ => .nothing (Nat.le_refl _) hp
  | (t, o) :: rest, p, hw, hp, hV => by
    have h1 := decodeL_placed d c m b t o p ha henv (hw (t, o) (by simp)) hp (hV.imp_right fun h => ⟨h.1 (t, o) (by simp), h.2⟩)
    simp only [decManyL]
    generalize decodeL d c m b t o p = r at h1 ⊢
    obtain ⟨s, v, p'⟩ := r
    cases s
    case ok => exact h1.append (decManyL_placed ha henv rest p' (fun it h => hw it (by simp [h])) h1.inb
      (hV.imp_right fun h => ⟨fun it hi => h.1 it (by simp [hi]), h.2⟩))
    all_goals
      refine ⟨h1.mono, h1.inb, fun pl hm => ?_, fun h => by cases h⟩
      rcases List.mem_append.mp hm with hm | hm
      · rcases h1.mem pl hm with h | h
        · exact .inl h
        · exact .inr ⟨h.1, List.mem_append_left _ h.2⟩
      · exact .inr ⟨by simp, List.mem_append_right _ hm⟩

mutual
/-- Objects change only where their views are. -/
theorem look_congr {m m' : Memory} : ∀ v : LVal, (∀ pl ∈ placesOf v, m'.bytes pl = m.bytes pl) → v.look m' = v.look m
  | .num _, _ => rfl
  | .unit, _ => rfl
  | .list vs, h => by simp only [LVal.look]; rw [lookAll_congr vs h]
  | .none, _ => rfl
  | .some v, h => by simp only [LVal.look]; rw [look_congr v h]
  | .alt _ v, h => by simp only [LVal.look]; rw [look_congr v h]
  | .valueless, _ => rfl
  | .bits _, _ => rfl
  | .view pl, h => by simp only [LVal.look]; rw [h pl (by simp [placesOf])]
theorem lookAll_congr {m m' : Memory} : ∀ vs : List LVal, (∀ pl ∈ placesAll vs, m'.bytes pl = m.bytes pl) →
    LVal.lookAll m' vs = LVal.lookAll m vs
  | [], _ => rfl
  | v :: vs, h => by
    simp only [LVal.lookAll]
    rw [look_congr v fun pl hp => h pl (List.mem_append_left _ hp), lookAll_congr vs fun pl hp => h pl (List.mem_append_right _ hp)]
end

end Zpp
