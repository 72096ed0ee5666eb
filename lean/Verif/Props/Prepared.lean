import Verif.Props.RoundTrip
import Verif.Proof.Prepared
/-! # C72: prepared destinations -/

namespace Zpp.Props
open Zpp.Spec

/-- C72. The documented encoding, standing anywhere in an input, is read back as the object by destinations that were
prepared for it: enough elements in every mutable span, exactly as many in every container without size prefix. Spans
are shortened to the object. -/
theorem C72_read_encoding (d D : Nat) (c : Cfg) (items ds : List (Ty × Val)) (pre bs rest : List UInt8)
    (hlen : (pre ++ bs ++ rest).length < 2 ^ 64) (hw : wireItems (fmtOf c) items = some bs) (ha : AbiOk c.sizeof)
    (he : EnvGood c) (hg : ∀ x ∈ items, Good c x.1 = true) (hp : PreparedItems c D items ds)
    (hd : ∀ x ∈ items, 2 * depth x.2 + D ≤ d) :
    decMany d c (pre ++ bs ++ rest) ds pre.length = ⟨.ok, items.map Prod.snd, pre.length + bs.length⟩ :=
  preparedItems_rd ha he hlen items ds bs hw hg hp hd pre.length rest (by simp) (by simp)

/-- C72, through an archive: objects with spans and containers without size prefix, written by one call and read by one
call into prepared destinations, come back equal. -/
theorem C72_round_trip (d d' D : Nat) (co ci : Cfg) (noFit : Bool) (items ds : List (Ty × Val)) (st st' : OutSt)
    (bs : List UInt8) (hf : fmtOf ci = fmtOf co) (hpos : st.pos ≤ st.data.length) (hlen : st.data.length < 2 ^ 63)
    (hs : Supported co items) (hd : StackOk d items) (hb : BitsOk items st)
    (hw : wireItems (fmtOf co) items = some bs) (hl : bs.length < 2 ^ 63) (hok : outCall d co noFit items st = (.ok, st'))
    (ha : AbiOk ci.sizeof) (he : EnvGood ci) (hg : ∀ x ∈ items, Good ci x.1 = true) (hp : PreparedItems ci D items ds)
    (hd' : ∀ x ∈ items, 2 * depth x.2 + D ≤ d') :
    decMany d' ci st'.data ds st.pos = ⟨.ok, items.map Prod.snd, st'.pos⟩ := by
  obtain ⟨h1, k, h2⟩ := C04_growing_appends d co noFit items st st' bs hpos hlen hs hd hb hw hl hok
  have hv := (outCall_safe d co hs.growth noFit items st ⟨hpos, hlen⟩).valid hs.growth ⟨hpos, hlen⟩
  rw [hok] at hv
  have := hv.len_lt
  simp only at this
  rw [h1]
  refine preparedItems_rd ha he (data := st'.data) (by omega) items ds bs (by rw [hf]; exact hw) hg hp hd'
    st.pos (st.data.drop (st.pos + bs.length) ++ List.replicate k 0) ?_ ?_
  · rw [h2]; simp; omega
  · rw [h2, List.append_assoc, List.append_assoc, List.drop_append_of_le_length (by simp; omega)]
    rw [List.drop_eq_nil_of_le (by simp; omega)]
    simp

/-- A class with a span of 16 bit integers, a vector without size prefix, a vector of classes with a span each, and an
optional class with a vector without size prefix. -/
def prepTy : Ty :=
  .struct false [.seq .span none (.scalar .int 2), .seq .vector (some .none) Checks.str,
    .seq .vector none (.struct false [.seq .span none (.scalar .int 1)]),
    .optional true (.struct false [.seq .list (some .none) (.varint 4 false)])]
def prepVal : Val :=
  .list [.list [.num 1, .num 2], .list [Checks.strV [65], Checks.strV []], .list [.list [.list [.num 7]], .list [.list []]],
    .some (.list [.list [.num 300]])]
/-- The destination: a span of three elements, a vector of two strings, one element prepared with a span of two elements
(the other one is made by the reader), an engaged optional with a list of one element. -/
def prepOld : Val :=
  .list [.list [.num 9, .num 9, .num 9], .list [Checks.strV [1, 2, 3], Checks.strV [4]], .list [.list [.list [.num 5, .num 6]]],
    .some (.list [.list [.num 0]])]
def prepBytes : List UInt8 := [2, 1, 0, 2, 0, 1, 65, 0, 2, 1, 7, 0, 1, 0xac, 2]

example :
    let c := Checks.le Checks.grow (.fixed 1)
    PreparedItems c 4 [(prepTy, prepVal)] [(prepTy, prepOld)] ∧ (∀ x ∈ [(prepTy, prepVal)], 2 * depth x.2 + 4 ≤ 20) ∧
    (∀ x ∈ [(prepTy, prepVal)], Good c x.1 = true) ∧ wireItems (fmtOf c) [(prepTy, prepVal)] = some prepBytes ∧
    Supported c [(prepTy, prepVal)] ∧ outCall 20 c false [(prepTy, prepVal)] ⟨[], 0⟩ = (.ok, ⟨prepBytes, 15⟩) ∧
    decMany 20 c prepBytes [(prepTy, prepOld)] 0 = ⟨.ok, [prepVal], 15⟩ := by
  refine ⟨⟨rfl, ?_, trivial⟩, ?_, ?_, by decide +kernel, ⟨grow_ok, so_abi, fun _ => ⟨rfl, rfl⟩, ?_⟩, by decide +kernel, by decide +kernel⟩
  · have num : ∀ (x : Nat) t o, (t = .scalar .int 2 ∨ t = .scalar .int 1 ∨ t = .varint 4 false) →
        Prepared (Checks.le Checks.grow (.fixed 1)) 4 t (.num x) o := by
      intro x t o h
      rcases h with rfl | rfl | rfl <;> exact .any trivial
    refine .struct (.cons (.span (by decide) (by decide) (.cons (num _ _ _ (by simp)) (.cons (num _ _ _ (by simp)) .nil)))
      (.cons (.unsized (by decide) rfl (.cons (.any ?_) (.cons (.any ?_) .nil)))
      (.cons (.seq (dv := .list [.list []]) (Or.inl rfl) (by decide) ?_ (.struct (.cons (.seq _ _ _) .nil)) (by decide)
        (.cons (.struct (.cons (.span (by decide) (by decide) (.cons (num _ _ _ (by simp)) .nil)) .nil))
          (.cons (.struct (.cons (.span (by decide) (by decide) .nil) .nil)) .nil)))
      (.cons (.here (.struct (.cons (.unsized (by decide) rfl (.cons (num _ _ _ (by simp)) .nil)) .nil))) .nil))))
    all_goals first | (constructor <;> decide) | simp [Checks.str, Checks.strV, Loadable, LoadableL, Fits, Checks.le, Checks.grow, Checks.so, Checks.chr]
  · intro x hx; simp only [List.mem_singleton] at hx; subst hx; decide
  · intro x hx; simp only [List.mem_singleton] at hx; subst hx; rfl
  · intro x hx; simp only [List.mem_singleton] at hx; subst hx; rfl

end Zpp.Props
