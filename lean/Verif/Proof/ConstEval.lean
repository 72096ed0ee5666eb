import Verif.Model.ConstEval
/-!
# Helper lemmas for the branches taken in constant evaluation
-/

namespace Zpp

/-- Storing a list of bytes one after the other. -/
def storeSeq : Nat → List UInt8 → List UInt8 → Option (List UInt8)
  | _, [], d => some d
  | i, b :: bs, d =>
    match storeByte d i b with
    | none => none
    | some d' => storeSeq (i + 1) bs d'

theorem storeSeq_fit (bs : List UInt8) : ∀ (i : Nat) (d : List UInt8), i + bs.length ≤ d.length →
    storeSeq i bs d = some (d.take i ++ bs ++ d.drop (i + bs.length)) := by
  induction bs with
  | nil => intro i d h; simp [storeSeq]
  | cons b bs ih =>
    intro i d h
    simp only [List.length_cons] at h
    have h1 : i < d.length := by omega
    simp only [storeSeq, storeByte, if_pos h1]
    rw [ih (i + 1) _ (by simp; omega)]
    congr 1
    rw [List.take_set, List.drop_set]
    have h2 : ¬ (i + 1 + bs.length ≤ i) := by omega
    apply List.ext_getElem?
    intro k
    simp only [List.length_cons]
    have e : i + 1 + bs.length = i + (bs.length + 1) := by omega
    rcases Nat.lt_trichotomy k i with hk | hk | hk
    · grind
    · subst hk; grind
    · grind

theorem storeSeq_out (bs : List UInt8) : ∀ (i : Nat) (d : List UInt8), bs ≠ [] → d.length < i + bs.length →
    storeSeq i bs d = none := by
  induction bs with
  | nil => intro i d h; exact absurd rfl h
  | cons b bs ih =>
    intro i d _ h
    simp only [List.length_cons] at h
    simp only [storeSeq, storeByte]
    by_cases h1 : i < d.length
    · simp only [if_pos h1]
      exact ih _ _ (by intro e; subst e; simp at h; omega) (by simp; omega)
    · simp [h1]

theorem storeSeq_length (bs : List UInt8) : ∀ (i : Nat) (d d' : List UInt8), storeSeq i bs d = some d' →
    d'.length = d.length := by
  induction bs with
  | nil => intro i d d' h; simp [storeSeq] at h; rw [h]
  | cons b bs ih =>
    intro i d d' h
    simp only [storeSeq, storeByte] at h
    by_cases h1 : i < d.length
    · simp only [if_pos h1] at h
      rw [ih _ _ _ h]; simp
    · simp [h1] at h

theorem storeSeq_append (as bs : List UInt8) : ∀ (i : Nat) (d : List UInt8),
    storeSeq i (as ++ bs) d = (storeSeq i as d).bind (storeSeq (i + as.length) bs) := by
  induction as with
  | nil => intro i d; simp [storeSeq]
  | cons a as ih =>
    intro i d
    simp only [List.cons_append, storeSeq, storeByte]
    by_cases h1 : i < d.length
    · simp only [if_pos h1, ih, List.length_cons]
      rw [Nat.add_assoc, Nat.add_comm 1]
    · simp [h1]

theorem storeItem_eq (value : List UInt8) (a : Nat) : ∀ (k i : Nat) (d : List UInt8), i + k = value.length →
    storeItem value a k i d = storeSeq (a + i) (value.drop i) d := by
  intro k
  induction k with
  | zero => intro i d h; simp [storeItem, List.drop_eq_nil_of_le (by omega : value.length ≤ i), storeSeq]
  | succ k ih =>
    intro i d h
    have h1 : i < value.length := by omega
    rw [List.drop_eq_getElem_cons h1]
    simp only [storeItem, List.getElem?_eq_getElem h1, storeSeq]
    cases storeByte d (a + i) value[i] with
    | none => rfl
    | some d' => exact ih (i + 1) d' (by omega)

theorem storeLoop_eq (aware : Bool) (value : List UInt8) (pos : Nat) : ∀ (k i : Nat) (d : List UInt8),
    i + k = value.length →
    storeLoop aware value pos k i d =
      storeSeq (pos + i) ((if aware then value.reverse else value).drop i) d := by
  intro k
  induction k with
  | zero =>
    intro i d h
    have : (if aware then value.reverse else value).length ≤ i := by cases aware <;> simp <;> omega
    simp [storeLoop, List.drop_eq_nil_of_le this, storeSeq]
  | succ k ih =>
    intro i d h
    have h1 : i < (if aware then value.reverse else value).length := by cases aware <;> simp <;> omega
    have hv : value[if aware then value.length - 1 - i else i]? =
        some ((if aware then value.reverse else value)[i]) := by
      cases aware
      · simp
      · simp only [if_true]
        rw [List.getElem_reverse, List.getElem?_eq_getElem]
    rw [List.drop_eq_getElem_cons h1]
    simp only [storeLoop, hv, storeSeq]
    cases storeByte d (pos + i) _ with
    | none => rfl
    | some d' => exact ih (i + 1) d' (by omega)

theorem storeItems_eq (size pos : Nat) (items : List (List UInt8)) : ∀ (index : Nat) (d : List UInt8),
    (∀ v ∈ items, v.length = size) →
    storeItems size pos index items d = storeSeq (pos + index * size) items.flatten d := by
  induction items with
  | nil => intro index d _; simp [storeItems, storeSeq]
  | cons v vs ih =>
    intro index d h
    have hv : v.length = size := h v (by simp)
    simp only [storeItems, List.flatten_cons, storeSeq_append]
    rw [storeItem_eq v _ size 0 d (by omega)]
    simp only [Nat.add_zero, List.drop_zero]
    cases storeSeq (pos + index * size) v d with
    | none => rfl
    | some d' =>
      simp only [Option.bind_some]
      rw [ih (index + 1) d' (fun w hw => h w (by simp [hw])), Nat.add_mul, hv]
      congr 1; omega

theorem finish_storeSeq (bs : List UInt8) (n : Nat) (hn : bs.length = n) (h : bs ≠ []) (st : OutSt) :
    finishStore n (storeSeq st.pos bs st.data) st = memcpyAt bs st := by
  subst hn
  unfold memcpyAt
  by_cases hf : st.pos + bs.length ≤ st.data.length
  · rw [storeSeq_fit bs _ _ hf, if_pos hf]; rfl
  · rw [storeSeq_out bs _ _ h (by omega), if_neg hf]; rfl

/-! ## Moving ahead -/

theorem claim_pos (g : Growth) (n : Nat) (st : OutSt) : (claim g n st).2.pos = st.pos := by
  unfold claim enlargeFor
  simp only
  repeat' split
  all_goals rfl

theorem moveLoop_out (start ahead : Nat) : ∀ (p : Nat) (d : List UInt8), start ≤ p → 0 < start →
    d.length ≤ p + ahead → moveLoop start ahead p d = none := by
  intro p d h h0 hl
  cases p with
  | zero => omega
  | succ p =>
    simp only [moveLoop, if_pos h, storeByte]
    have : ¬ (p + 1 + ahead < d.length) := by omega
    cases d[p + 1]? <;> simp [this]

theorem moveLoop_fit (start ahead : Nat) (h0 : 0 < start) : ∀ (n : Nat) (d : List UInt8),
    start + n + ahead ≤ d.length →
    moveLoop start ahead (start + n - 1) d =
      some (d.take (start + ahead) ++ (d.drop start).take n ++ d.drop (start + n + ahead)) := by
  intro n
  induction n with
  | zero =>
    intro d h
    have : moveLoop start ahead (start + 0 - 1) d = some d := by
      cases hp : start + 0 - 1 with
      | zero => simp [moveLoop]; omega
      | succ p => simp only [moveLoop]; rw [if_neg (by omega)]
    rw [this]; simp
  | succ n ih =>
    intro d h
    have e : start + (n + 1) - 1 = (start + n - 1) + 1 := by omega
    rw [e]
    have e2 : start + n - 1 + 1 = start + n := by omega
    simp only [moveLoop, e2]
    have h1 : start + n < d.length := by omega
    have h2 : start + n + ahead < d.length := by omega
    rw [if_pos (by omega), List.getElem?_eq_getElem h1]
    simp only [storeByte, if_pos h2]
    rw [ih _ (by simp; omega)]
    congr 1
    have t1 : (d.set (start + n + ahead) d[start + n]).take (start + ahead) = d.take (start + ahead) :=
      List.take_set_of_le (by omega)
    have t2 : ((d.set (start + n + ahead) d[start + n]).drop start).take n = (d.drop start).take n := by
      rw [List.drop_set, if_neg (by omega), List.take_set_of_le (by omega)]
    have t3 : (d.set (start + n + ahead) d[start + n]).drop (start + n + ahead) =
        d[start + n] :: d.drop (start + n + ahead + 1) := by
      rw [List.drop_eq_getElem_cons (by simp; omega), List.drop_set, if_pos (by omega)]
      simp
    have t4 : (d.drop start).take (n + 1) = (d.drop start).take n ++ [d[start + n]] := by
      rw [List.take_add_one]
      simp [List.getElem?_drop, List.getElem?_eq_getElem h1]
    rw [t1, t2, t3, t4]
    have e3 : start + (n + 1) + ahead = start + n + ahead + 1 := by omega
    rw [e3]; simp

/-! ## Loading -/

theorem castArray_map (bs : List UInt8) : castArray (bs.map some) = some bs := by
  induction bs with
  | nil => rfl
  | cons b bs ih => simp [castArray, ih]

theorem loadLoop_out (aware : Bool) (n : Nat) (data : List UInt8) (pos : Nat) : ∀ (k i : Nat) (v : List (Option UInt8)),
    0 < k → data.length < pos + i + k → loadLoop aware n data pos k i v = none := by
  intro k
  induction k with
  | zero => intro i v h; omega
  | succ k ih =>
    intro i v _ h
    simp only [loadLoop]
    cases hd : data[pos + i]? with
    | none => rfl
    | some b =>
      have hl : pos + i < data.length := by
        rcases Nat.lt_or_ge (pos + i) data.length with h | h
        · exact h
        · rw [List.getElem?_eq_none h] at hd; cases hd
      have := ih (i + 1) (v.set (if aware then n - 1 - i else i) (some b)) (by omega) (by omega)
      simp only [this, ite_self]

theorem loadLoop_plain (n : Nat) (data : List UInt8) (pos : Nat) : ∀ (k i : Nat) (v : List (Option UInt8)),
    pos + i + k ≤ data.length → v.length = i + k →
    loadLoop false n data pos k i v =
      some (v.take i ++ ((data.drop (pos + i)).take k).map some) := by
  intro k
  induction k with
  | zero => intro i v h hv; simp [loadLoop]; exact (List.take_of_length_le (by omega)).symm
  | succ k ih =>
    intro i v h hv
    have h1 : pos + i < data.length := by omega
    simp only [loadLoop, List.getElem?_eq_getElem h1]
    simp only [Bool.false_eq_true, if_false]
    rw [if_pos (by omega), ih (i + 1) _ (by omega) (by simp; omega)]
    congr 1
    have e1 : (data.drop (pos + i)).take (k + 1) = data[pos + i] :: (data.drop (pos + (i + 1))).take k := by
      rw [List.drop_eq_getElem_cons h1]; rfl
    have e2 : (v.set i (some data[pos + i])).take (i + 1) = v.take i ++ [some data[pos + i]] := by
      rw [List.take_add_one, List.take_set_of_le (Nat.le_refl i)]
      simp [show i < v.length by omega]
    rw [e1, e2]; simp

theorem loadLoop_aware (data : List UInt8) (pos : Nat) : ∀ (k i : Nat) (v : List (Option UInt8)),
    pos + i + k ≤ data.length → v.length = i + k →
    loadLoop true v.length data pos k i v =
      some (((data.drop (pos + i)).take k).reverse.map some ++ v.drop k) := by
  intro k
  induction k with
  | zero => intro i v h hv; simp [loadLoop]
  | succ k ih =>
    intro i v h hv
    have h1 : pos + i < data.length := by omega
    simp only [loadLoop, List.getElem?_eq_getElem h1]
    simp only [if_true]
    have hj : v.length - 1 - i = k := by omega
    rw [hj, if_pos (by omega)]
    have := ih (i + 1) (v.set k (some data[pos + i])) (by omega) (by simp; omega)
    simp only [List.length_set] at this
    rw [this]
    congr 1
    have e1 : List.drop (pos + i) data = data[pos + i] :: List.drop (pos + i + 1) data := by
      rw [List.drop_eq_getElem_cons h1]
    have e2 : (v.set k (some data[pos + i])).drop k = some data[pos + i] :: v.drop (k + 1) := by
      rw [List.drop_eq_getElem_cons (by simp; omega), List.drop_set, if_pos (by omega)]
      simp
    rw [e2, e1, ← Nat.add_assoc, List.take_succ_cons, List.reverse_cons, List.map_append, List.append_assoc]
    rfl

theorem loadWhole (aware : Bool) (n : Nat) (data : List UInt8) (pos : Nat) (h : pos + n ≤ data.length) :
    loadLoop aware n data pos n 0 (List.replicate n none) =
      some ((if aware then ((data.drop pos).take n).reverse else (data.drop pos).take n).map some) := by
  cases aware
  · rw [loadLoop_plain n data pos n 0 _ (by omega) (by simp)]; simp
  · have := loadLoop_aware data pos n 0 (List.replicate n none) (by omega) (by simp)
    simp only [List.length_replicate] at this
    rw [this]; simp

theorem loadItems_fit (size : Nat) (data : List UInt8) (pos : Nat) : ∀ (count index : Nat),
    pos + (index + count) * size ≤ data.length →
    ∃ r, loadItems size data pos count index = some r ∧ r.length = count ∧ (∀ x ∈ r, x.length = size) ∧
      r.flatten = (data.drop (pos + index * size)).take (count * size) := by
  intro count
  induction count with
  | zero => intro index _; exact ⟨[], rfl, rfl, by simp, by simp⟩
  | succ count ih =>
    intro index h
    have hm : (index + (count + 1)) * size = index * size + size + count * size := by
      rw [Nat.add_mul, Nat.add_mul, Nat.one_mul]; omega
    have hm2 : (index + 1 + count) * size = index * size + size + count * size := by
      rw [Nat.add_mul, Nat.add_mul, Nat.one_mul]
    obtain ⟨r, e, hl, hs, hf⟩ := ih (index + 1) (by omega)
    refine ⟨(data.drop (pos + index * size)).take size :: r, ?_, by simp [hl], ?_, ?_⟩
    · simp only [loadItems, loadWhole false size data (pos + index * size) (by omega), castArray_map, e]
      rfl
    · intro x hx
      rcases List.mem_cons.1 hx with h1 | h1
      · subst h1; simp; omega
      · exact hs x h1
    · simp only [List.flatten_cons, hf]
      have e3 : (count + 1) * size = size + count * size := by rw [Nat.add_mul, Nat.one_mul]; omega
      have e4 : pos + (index + 1) * size = (pos + index * size) + size := by
        rw [Nat.add_mul, Nat.one_mul]; omega
      rw [e3, e4, List.take_add, List.drop_drop]

theorem loadItems_out (size : Nat) (data : List UInt8) (pos : Nat) (hs : 0 < size) : ∀ (count index : Nat),
    0 < count → data.length < pos + (index + count) * size → loadItems size data pos count index = none := by
  intro count
  induction count with
  | zero => intro index h; omega
  | succ count ih =>
    intro index _ h
    have hm : (index + (count + 1)) * size = index * size + size + count * size := by
      rw [Nat.add_mul, Nat.add_mul, Nat.one_mul]; omega
    have hm2 : (index + 1 + count) * size = index * size + size + count * size := by
      rw [Nat.add_mul, Nat.add_mul, Nat.one_mul]
    simp only [loadItems]
    by_cases h1 : pos + index * size + size ≤ data.length
    · have hc : 0 < count := by
        rcases Nat.eq_zero_or_pos count with h0 | h0
        · subst h0
          have := Nat.zero_mul size
          omega
        · exact h0
      simp only [loadWhole false size data (pos + index * size) h1, castArray_map,
        ih (index + 1) hc (by omega)]
    · rw [loadLoop_out false size data _ size 0 _ hs (by omega)]

/-! ## Varints -/

theorem byteAs_lt (sgn : Bool) (w : Nat) (hw : 8 ≤ w) (b : UInt8) : byteAs sgn w b < 0x80 ↔ b.toNat < 0x80 := by
  have h8 : 2 ^ 8 ≤ 2 ^ w := Nat.pow_le_pow_right (by omega) hw
  have := b.toNat_lt
  unfold byteAs
  by_cases h : (sgn && decide (128 ≤ b.toNat)) = true
  · rw [if_pos h]
    simp at h; omega
  · rw [if_neg h]

theorem byteAs_mod (sgn : Bool) (w : Nat) (hw : 8 ≤ w) (b : UInt8) : byteAs sgn w b % 256 = b.toNat := by
  have := b.toNat_lt
  obtain ⟨k, hk⟩ : ∃ k, 2 ^ w = 256 * (k + 1) := by
    obtain ⟨j, rfl⟩ : ∃ j, w = 8 + j := ⟨w - 8, by omega⟩
    rw [Nat.pow_add]
    have : 0 < 2 ^ j := Nat.pow_pos (by omega)
    exact ⟨2 ^ j - 1, by rw [Nat.sub_add_cancel this]⟩
  unfold byteAs
  by_cases h : (sgn && decide (128 ≤ b.toNat)) = true
  · rw [if_pos h, hk]; omega
  · rw [if_neg h]; omega

theorem byteAs_and (sgn : Bool) (w : Nat) (hw : 8 ≤ w) (b : UInt8) (mask : Nat) (hm : mask < 256) :
    byteAs sgn w b &&& mask = b.toNat &&& mask := by
  have e : mask = 255 &&& mask := by
    have := Nat.and_two_pow_sub_one_of_lt_two_pow (n := 8) hm
    rw [Nat.and_comm]; exact this.symm
  have f : ∀ x, x &&& mask = (x % 256) &&& mask := by
    intro x
    have h := Nat.and_two_pow_sub_one_eq_mod x 8
    calc x &&& mask = x &&& (255 &&& mask) := by rw [← e]
      _ = (x &&& 255) &&& mask := by rw [Nat.and_assoc]
      _ = (x % 256) &&& mask := by rw [show (255 : Nat) = 2 ^ 8 - 1 from rfl, h]
  rw [f, byteAs_mod sgn w hw]

theorem decSlowAs_eq (sgn : Bool) (w : Nat) (hw : 8 ≤ w) (data : List UInt8) : ∀ (shift value len : Nat),
    decSlowAs sgn w data shift value len = decSlow w data shift value len := by
  induction data with
  | nil => intros; rfl
  | cons b rest ih =>
    intro shift value len
    have h := byteAs_lt sgn w hw b
    have hg : byteAs sgn w b ≥ 0x80 ↔ b.toNat ≥ 0x80 := by omega
    simp only [decSlowAs, decSlow, byteAs_and sgn w hw b 0x7f (by omega), hg, ih]

theorem decFastAs_eq (sgn : Bool) (w : Nat) (hw : 8 ≤ w) (steps : List (Nat × Nat)) :
    ∀ (data : List UInt8) (value len : Nat), (∀ s ∈ steps, s.1 < 256) →
    decFastAs sgn w steps data value len = decFast w steps data value len := by
  induction steps with
  | nil => intros; rfl
  | cons s steps ih =>
    intro data value len h
    cases data with
    | nil => rfl
    | cons b rest =>
      obtain ⟨mask, shift⟩ := s
      simp only [decFastAs, decFast, byteAs_and sgn w hw b mask (h (mask, shift) (by simp)), byteAs_lt sgn w hw b,
        ih rest _ _ (fun s hs => h s (by simp [hs]))]

theorem fastSteps_mask (m : Nat) : ∀ s ∈ fastSteps m, s.1 < 256 := by
  intro s hs
  unfold fastSteps at hs
  grind

theorem decodeVarintAs_eq (sgn : Bool) (n : Nat) (hn : 0 < n) (data : List UInt8) :
    decodeVarintAs sgn n data = decodeVarint n data := by
  unfold decodeVarintAs decodeVarint
  rw [decSlowAs_eq sgn _ (by omega), decFastAs_eq sgn _ (by omega) _ _ _ _ (fastSteps_mask _)]

theorem varintStoreLoop_eq (pos : Nat) : ∀ (fuel value position : Nat) (d : List UInt8),
    varintStoreLoop pos fuel value position d =
      (storeSeq (pos + position) (varintLoop fuel value) d).map
        (fun d' => (d', position + (varintLoop fuel value).length)) := by
  intro fuel
  induction fuel with
  | zero =>
    intro value position d
    simp only [varintStoreLoop, varintLoop, storeSeq]
    cases storeByte d (pos + position) (UInt8.ofNat value) <;> rfl
  | succ fuel ih =>
    intro value position d
    simp only [varintStoreLoop, varintLoop]
    by_cases h : value ≥ 0x80
    · simp only [if_pos h, storeSeq]
      cases storeByte d (pos + position) (UInt8.ofNat (value &&& 127 ||| 128)) with
      | none => rfl
      | some d' =>
        simp only [ih, List.length_cons]
        rw [Nat.add_assoc pos position 1, Nat.add_assoc position 1, Nat.add_comm 1 (List.length _)]
    · simp only [if_neg h, storeSeq]
      cases storeByte d (pos + position) (UInt8.ofNat value) <;> rfl

end Zpp
