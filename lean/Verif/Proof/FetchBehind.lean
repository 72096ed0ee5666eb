import Verif.Spec.Fetch
/-! # Writes behind the position do not matter -/

namespace Zpp
open Spec

variable {inl : Bool} {mem mem' : Mem}

/-- The memories agree from the position on. -/
structure FromPos (mem mem' : Mem) : Prop where
  len : ∀ q j, (mem q j).length = (mem' q j).length
  drop : ∀ q j, (mem q j).drop q = (mem' q j).drop q

theorem getBytes_behind (h : FromPos mem mem') (p n : Nat) : getBytes (mem p 0) p n = getBytes (mem' p 0) p n := by
  unfold getBytes
  rw [h.len, h.drop]

theorem getVarintT_behind (h : FromPos mem mem') (n : Nat) (zz : Bool) (old : Val) (p : Nat) :
    getVarintT inl n zz old (mem p) p = getVarintT inl n zz old (mem' p) p := by
  unfold getVarintT
  simp only [h.len, h.drop]

theorem decHdrT_behind (h : FromPos mem mem') (c : Cfg) (sz : SizeTy) (p : Nat) : decHdrT inl c sz mem p = decHdrT inl c sz mem' p := by
  cases sz <;> simp only [decHdrT, getBytes_behind h, getVarintT_behind h]

theorem decRep_behind (h : FromPos mem mem') (c : Cfg) (t : Ty) (n : Nat) (olds : List Val) (p : Nat) :
    decRep c t n olds (mem p 0) p = decRep c t n olds (mem' p 0) p := by
  simp only [decRep, getBytes_behind h]

theorem seqBody_behind (h : FromPos mem mem') (c : Cfg) (k : SeqKind) (t : Ty) (rec : Val → Nat → Res) (olds : List Val) (p : Nat) :
    seqBody c k t rec olds (mem p 0) p = seqBody c k t rec olds (mem' p 0) p := by
  simp only [seqBody, decRep_behind h]

theorem seqFill_behind (h : FromPos mem mem') (c : Cfg) (k : SeqKind) (t : Ty) (rec : Val → Nat → Res) (dv old : Val) (n p : Nat) :
    seqFill c k t rec dv old (mem p 0) n p = seqFill c k t rec dv old (mem' p 0) n p := by
  cases k <;> simp only [seqFill, seqBody_behind h, h.len, h.drop]

theorem seqUnsized_behind (h : FromPos mem mem') (c : Cfg) (k : SeqKind) (t : Ty) (rec : Val → Nat → Res) (old : Val) (p : Nat) :
    seqUnsized c k t rec old (mem p 0) p = seqUnsized c k t rec old (mem' p 0) p := by
  cases k <;> simp only [seqUnsized, seqBody_behind h, h.len, h.drop]

theorem pbDecPackedT_behind (h : FromPos mem mem') (c : Cfg) (rec : Ty → Val → Nat → Res) (t e : Ty) (fix : Bool) (wt : Nat) (old : Val) (p : Nat) :
    pbDecPackedT inl c rec t e fix wt old mem p = pbDecPackedT inl c rec t e fix wt old mem' p := by
  simp only [pbDecPackedT, decHdrT_behind h, h.len]

theorem pbDecFieldT_behind (h : FromPos mem mem') (c : Cfg) (rec : Ty → Val → Nat → Res) (fresh : Ty → Val) (t : Ty) (wt : Nat) (old : Val) (p : Nat) :
    pbDecFieldT inl c rec fresh t wt old mem p = pbDecFieldT inl c rec fresh t wt old mem' p := by
  simp only [pbDecFieldT, pbDecPackedT_behind h, getVarintT_behind h]

theorem pbLoopT_behind (h : FromPos mem mem') (field : Ty → Nat → Val → Nat → Res) (maps : List (Nat × Nat)) (nums : List (Option Nat)) (fs : List Ty) :
    ∀ f vs p, pbLoopT inl field maps nums fs mem f vs p = pbLoopT inl field maps nums fs mem' f vs p := by
  intro f
  induction f with
  | zero => intros; rfl
  | succ f ih =>
    intro vs p
    simp only [pbLoopT, getVarintT_behind h, h.len, ih]

theorem fromPos_sub (h : FromPos mem mem') (p size : Nat) : FromPos (memSub mem p size) (memSub mem' p size) where
  len q j := by simp only [memSub, msgSub, List.length_take, List.length_drop, h.len]
  drop q j := by
    simp only [memSub, msgSub, h.len]
    rw [List.drop_take, List.drop_take, List.drop_drop, List.drop_drop, h.drop]

theorem decodeT_behind : ∀ (d : Nat) (c : Cfg) (t : Ty) (old : Val) (mem mem' : Mem) (p : Nat), FromPos mem mem' →
    decodeT inl d c t old mem p = decodeT inl d c t old mem' p := by
  intro d
  induction d with
  | zero => intros; rfl
  | succ d ih =>
    intro c t old mem mem' p h
    have ih1 : ∀ t v p, decodeT inl d c t v mem p = decodeT inl d c t v mem' p := fun t v p => ih c t v mem mem' p h
    have hrun : ∀ (maps : List (Nat × Nat)) (nums : List (Option Nat)) (fs : List Ty) (size p : Nat),
        msgRunT inl (pbCfg c) (decodeT inl d (pbCfg c)) (dflt (pbCfg c) d) maps nums fs old mem size p =
        msgRunT inl (pbCfg c) (decodeT inl d (pbCfg c)) (dflt (pbCfg c) d) maps nums fs old mem' size p := by
      intro maps nums fs size p
      have hs := fromPos_sub h p size
      have ih2 : ∀ t v q, decodeT inl d (pbCfg c) t v (memSub mem p size) q = decodeT inl d (pbCfg c) t v (memSub mem' p size) q :=
        fun t v q => ih (pbCfg c) t v _ _ q hs
      unfold msgRunT
      simp only [h.len, ih2, pbLoopT_behind hs, pbDecFieldT_behind hs, hs.len]
    cases t with
    | seq k sz t' => simp only [decodeT, ih1, decHdrT_behind h, seqFill_behind h, seqUnsized_behind h]
    | msg sz ok maps nums fs => simp only [decodeT, decHdrT_behind h, hrun]
    | assoc mu ha sz key m => simp only [decodeT, ih1, decHdrT_behind h]
    | _ => simp only [decodeT, ih1, getBytes_behind h, decRep_behind h, getVarintT_behind h]

theorem decManyT_behind {d : Nat} {c : Cfg} (h : FromPos mem mem') : ∀ (items : List (Ty × Val)) (p : Nat),
    decManyT inl d c mem items p = decManyT inl d c mem' items p := by
  intro items
  induction items with
  | nil => intros; rfl
  | cons it rest ih =>
    intro p
    obtain ⟨t, o⟩ := it
    simp only [decManyT, decodeT_behind d c t o mem mem' p h, ih]

end Zpp
