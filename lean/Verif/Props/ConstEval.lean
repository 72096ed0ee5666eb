import Verif.Proof.ConstEval
/-!
# C58: constant evaluation and run time agree

Each theorem compares the code selected by `std::is_constant_evaluated()` with the code used at run time:
same outcome, same bytes in the buffer or in the object, same position, for every buffer, position, growth
policy and value. An access outside an array is `ub` on both sides (no constant expression, undefined
behaviour).
-/

namespace Zpp.Props

/-- C58: writing a fundamental value byte by byte gives what one copy (reversed if the archive swaps the byte
order) gives. -/
theorem C58_write_scalar (c : Cfg) (k x : Nat) (hk : 0 < k) :
    putConst c.g c.aware (hostBytes c.host k x) = put c.g (ioBytes c k x) := by
  funext st
  have hl : (ioBytes c k x).length = k := by unfold ioBytes; cases c.aware <;> simp
  have hne : ioBytes c k x ≠ [] := by intro h; rw [h] at hl; simp at hl; omega
  have hb : ∀ st' : OutSt,
      finishStore (hostBytes c.host k x).length
        (storeLoop c.aware (hostBytes c.host k x) st'.pos (hostBytes c.host k x).length 0 st'.data) st' =
      memcpyAt (ioBytes c k x) st' := by
    intro st'
    rw [storeLoop_eq c.aware _ st'.pos _ 0 st'.data (by omega)]
    exact finish_storeSeq _ _ (by simp [hl]) hne st'
  unfold putConst put OutM.andThen
  rw [hl, hostBytes_length]
  rcases claim c.g k st with ⟨s, st'⟩
  cases s <;> simp only
  have := hb st'
  rw [hostBytes_length] at this
  exact this

example : putConst ⟨true, 3, 2, sizeMax, false, 2 ^ 40⟩ true (hostBytes .little 4 0x01020304) ⟨[9, 9], 1⟩ =
    (.ok, ⟨[9, 1, 2, 3, 4, 0, 0, 0, 0], 5⟩) := by decide +kernel
example : putConst ⟨false, 3, 2, sizeMax, false, 2 ^ 40⟩ false (hostBytes .little 4 0x01020304) ⟨[9, 9, 9, 9], 1⟩ =
    (.err .resultOutOfRange, ⟨[9, 9, 9, 9], 1⟩) := by decide +kernel

/-- C58: writing a range of trivially copyable items, item by item and byte by byte, gives what one copy of
the range gives. -/
theorem C58_write_bytes (g : Growth) (size : Nat) (items : List (List UInt8)) (h : ∀ v ∈ items, v.length = size) :
    putBytesConst g size items = putBytes g items.flatten := by
  have hl : items.flatten.length = items.length * size := by
    clear g
    induction items with
    | nil => simp
    | cons v vs ih =>
      simp only [List.flatten_cons, List.length_append, List.length_cons]
      rw [ih (fun w hw => h w (by simp [hw])), h v (by simp), Nat.add_mul, Nat.one_mul, Nat.add_comm]
  unfold putBytesConst putBytes
  rw [hl]
  by_cases h0 : items.length * size = 0
  · rw [if_pos h0, if_pos h0]
  · rw [if_neg h0, if_neg h0]
    funext st
    have hne : items.flatten ≠ [] := by intro e; rw [e] at hl; simp at hl; omega
    unfold put OutM.andThen
    rw [hl]
    rcases claim g (items.length * size) st with ⟨s, st'⟩
    cases s <;> simp only
    rw [storeItems_eq size st'.pos items 0 st'.data h, Nat.zero_mul, Nat.add_zero]
    exact finish_storeSeq _ _ hl hne st'

example : putBytesConst ⟨true, 1, 1, sizeMax, false, 2 ^ 40⟩ 2 [[1, 2], [3, 4], [5, 6]] ⟨[7], 1⟩ =
    (.ok, ⟨[7, 1, 2, 3, 4, 5, 6], 7⟩) := by decide +kernel

/-- C58: the backward loop that moves a message to make room for its length gives what `memmove` gives. -/
theorem C58_move_message (g : Growth) (sizePos : Nat) (st : OutSt) (h : sizePos + 1 ≤ st.pos) :
    moveAheadConst g sizePos st = moveAhead g sizePos st := by
  unfold moveAheadConst moveAhead
  simp only
  generalize ha : varintSize 8 (subSz (subSz st.pos sizePos) 1) - 1 = ahead
  by_cases h0 : ahead = 0
  · rw [if_pos h0, if_pos h0]
  · rw [if_neg h0, if_neg h0]
    have hlt : sizePos + 1 < st.pos := by
      rcases Nat.lt_or_ge (sizePos + 1) st.pos with h1 | h1
      · exact h1
      · exfalso
        apply h0
        have e1 : subSz st.pos sizePos = 1 := by rw [subSz_of_le (by omega)]; omega
        rw [← ha, e1]
        decide +kernel
    cases hc : claim g ahead st with
    | mk s st1 =>
      cases s <;> simp only
      have hp : st1.pos = st.pos := by
        have := claim_pos g ahead st
        rw [hc] at this; exact this
      by_cases hf : st.pos + ahead ≤ st1.data.length
      · rw [if_pos ⟨hf, h⟩]
        obtain ⟨n, hn⟩ : ∃ n, st.pos = sizePos + 1 + n := ⟨st.pos - (sizePos + 1), by omega⟩
        rw [hn, moveLoop_fit (sizePos + 1) ahead (by omega) n st1.data (by omega)]
        simp only [finishStore]
        rw [hp, hn, List.drop_take, show sizePos + 1 + n - (sizePos + 1) = n by omega]
      · rw [if_neg (by omega), moveLoop_out (sizePos + 1) ahead _ _ (by omega) (by omega) (by omega)]
        rfl

example : moveAheadConst ⟨false, 3, 2, sizeMax, false, 2 ^ 40⟩ 1
      ⟨[8, 0] ++ List.replicate 199 5 ++ [6, 0, 0], 202⟩ =
    (.ok, ⟨[8, 0, 5] ++ List.replicate 199 5 ++ [6, 0], 203⟩) := by decide +kernel

/-- C58: reading a fundamental value byte by byte into a fresh array gives what one (reversed) copy gives. -/
theorem C58_read_scalar (aware : Bool) (data : List UInt8) (pos n : Nat) (hn : 0 < n) :
    getConst aware data pos n =
      ((getBytes data pos n).1,
        (if aware then (getBytes data pos n).2.1.reverse else (getBytes data pos n).2.1),
        (getBytes data pos n).2.2) := by
  unfold getConst getBytes
  by_cases h : subSz data.length pos < n
  · simp [h]
  · rw [if_neg h, if_neg h]
    by_cases hf : pos + n ≤ data.length
    · rw [loadWhole aware n data pos hf, if_pos hf]
      simp only [castArray_map]
    · rw [loadLoop_out aware n data pos n 0 _ hn (by omega), if_neg hf]
      simp

/-- C58: hence the number read in constant evaluation is the number read at run time. -/
theorem C58_read_number (c : Cfg) (data : List UInt8) (pos k : Nat) (hk : 0 < k) :
    hostNat c.host (getConst c.aware data pos k).2.1 = ioNat c (getBytes data pos k).2.1 := by
  rw [C58_read_scalar c.aware data pos k hk]
  unfold ioNat
  cases c.aware <;> rfl

example : getConst true [9, 1, 2, 3, 4] 1 4 = (.ok, [4, 3, 2, 1], 5) := by decide +kernel
example : getConst true [9, 1, 2, 3, 4] 2 4 = (.err .resultOutOfRange, [], 2) := by decide +kernel

/-- C58: reading a range of trivially copyable items, item by item and byte by byte, gives the outcome, the
bytes of all items together and the position that one copy of the range gives. -/
theorem C58_read_bytes (size count : Nat) (data : List UInt8) (pos : Nat) :
    let r := getBytesConst size count data pos
    let q := if count * size = 0 then (.ok, [], pos) else getBytes data pos (count * size)
    r.1 = q.1 ∧ r.2.1.flatten = q.2.1 ∧ r.2.2 = q.2.2 ∧
      (r.1 = .ok → count * size ≠ 0 → r.2.1.length = count ∧ ∀ x ∈ r.2.1, x.length = size) := by
  intro r q
  by_cases h0 : count * size = 0
  · have hr : r = (.ok, [], pos) := by show getBytesConst size count data pos = _; unfold getBytesConst; rw [if_pos h0]
    have hq : q = (.ok, [], pos) := if_pos h0
    rw [hr, hq]; simp [h0]
  · have hs : 0 < size := by
      rcases Nat.eq_zero_or_pos size with e | e
      · subst e; simp at h0
      · exact e
    have hc : 0 < count := by
      rcases Nat.eq_zero_or_pos count with e | e
      · subst e; simp at h0
      · exact e
    have hq : q = getBytes data pos (count * size) := if_neg h0
    have hr : r = getBytesConst size count data pos := rfl
    unfold getBytesConst at hr
    rw [if_neg h0] at hr
    rw [hq]
    unfold getBytes
    by_cases h : subSz data.length pos < count * size
    · rw [if_pos h] at hr; rw [if_pos h, hr]; simp
    · rw [if_neg h] at hr; rw [if_neg h]
      by_cases hf : pos + count * size ≤ data.length
      · obtain ⟨l, e, hl, hall, hfl⟩ := loadItems_fit size data pos count 0 (by simpa using hf)
        rw [e] at hr
        rw [if_pos hf, hr]
        refine ⟨rfl, ?_, rfl, fun _ _ => ⟨hl, hall⟩⟩
        simpa using hfl
      · rw [loadItems_out size data pos hs count 0 hc (by simp; omega)] at hr
        rw [if_neg hf, hr]; simp

example : getBytesConst 2 3 [7, 1, 2, 3, 4, 5, 6, 8] 1 = (.ok, [[1, 2], [3, 4], [5, 6]], 7) := by decide +kernel

/-- C58: a varint is decoded alike in constant evaluation and at run time, and alike on archives over `char`
(also when `char` is signed) and over unsigned bytes. -/
theorem C58_read_varint (sgn : Bool) (n : Nat) (hn : 0 < n) (data : List UInt8) :
    readVarintConst sgn n data = readVarintRaw n data ∧ readVarintRun sgn n data = readVarintRaw n data := by
  cases data with
  | nil => exact ⟨decodeVarintAs_eq sgn n hn [], rfl⟩
  | cons b rest =>
    have h80 := byteAs_and sgn (8 * n) (by omega) b 0x80 (by omega)
    have hb : b.toNat &&& 0x80 = 0 → byteAs sgn (8 * n) b = b.toNat := by
      intro h
      have hlt : b.toNat < 128 := by
        rcases Nat.lt_or_ge b.toNat 128 with h1 | h1
        · exact h1
        · exfalso
          have h2 := b.toNat_lt
          have := (show ∀ x : Nat, x < 256 → 128 ≤ x → x &&& 128 ≠ 0 from by decide +kernel) b.toNat h2 h1
          exact this h
      unfold byteAs
      rw [if_neg (by simp; omega)]
    unfold readVarintConst readVarintRun readVarintRaw
    simp only [h80, decodeVarintAs_eq sgn n hn]
    by_cases h : b.toNat &&& 0x80 = 0
    · simp only [if_pos h, hb h, and_self]
    · simp only [if_neg h, and_self]

example : readVarintConst true 4 [0x96, 0x01] = .ok 150 2 := by decide +kernel
example : readVarintConst true 8 [0xff, 0xff, 0xff, 0xff, 0xff, 0xff, 0xff, 0xff, 0xff, 0x01, 7] = .ok (2 ^ 64 - 1) 10 := by
  decide +kernel

/-- C58: the loop that stores a varint through an index gives what one copy of the encoded bytes gives. -/
theorem C58_write_varint (value : Nat) : varintStoreAt value = memcpyAt (varintBytes value) := by
  funext st
  unfold varintStoreAt
  rw [varintStoreLoop_eq st.pos value value 0 st.data]
  have hne : varintBytes value ≠ [] := by
    unfold varintBytes
    cases value <;> simp only [varintLoop]
    · simp
    · split <;> simp
  have := finish_storeSeq (varintBytes value) _ rfl hne st
  rw [← this]
  unfold varintBytes
  cases storeSeq (st.pos + 0) (varintLoop value value) st.data <;> simp [finishStore]

example : varintStoreAt 300 ⟨[9, 9, 9, 9], 1⟩ = (.ok, ⟨[9, 0xac, 0x02, 9], 3⟩) := by decide +kernel
example : (varintStoreAt 300 ⟨[9, 9], 1⟩).1 = .ub := by decide +kernel

end Zpp.Props
