import Verif.Spec.Graph
import Verif.Props.RoundTrip
import Verif.Props.OutBehindUser
import Verif.Proof.ConstEval
import Verif.Checks
/-!
# C125 Objects that point to each other
-/

namespace Zpp
open Spec

/-- The pointers of an object, one after the other. -/
theorem graph_ptrs (rec : Val → OutM) (g : Nat → OutM) (T : Nat → Val) (h : ∀ b, g b = rec (T b)) :
    ∀ ps : List (Option Nat),
      ps.foldr (fun p rest => (match p with
          | none => OutM.fail (.err .invalidArgument)
          | some b => g b).andThen rest) OutM.skip
        = encAll (encUptr rec) (ps.map fun p => match p with
          | none => .none
          | some b => .some (T b))
  | [] => rfl
  | none :: ps => by
    simp only [List.foldr_cons, List.map_cons, encAll, encUptr]; rw [graph_ptrs rec g T h ps]
  | some b :: ps => by
    simp only [List.foldr_cons, List.map_cons, encAll, encUptr]; rw [graph_ptrs rec g T h ps, h b]

/-- Writing an object of class `node` held as a tree. -/
theorem encode_node (d : Nat) (c : Cfg) (t : Ty) (sz : Option SizeTy) (henv : c.env 0 = nodeTy t sz) (v : Val) (vs : List Val) :
    encode (d + 3) c (.ref 0) (.list [v, .list vs]) =
      (encode (d + 1) c t v).andThen ((encHdr c (effSz c sz) vs.length).andThen (encAll (encode d c (.uptr (.ref 0))) vs)) := by
  have h1 : asBytes c (.struct false [t, .seq .vector sz (.uptr (.ref 0))]) = false := by
    simp [asBytes, Ty.endianIndep, Ty.byteSer]
  have h2 : asBytes c (.uptr (.ref 0)) = false := by simp [asBytes, Ty.endianIndep, Ty.byteSer]
  rw [encode, henv, nodeTy, encode]
  simp only [h1, encFields]
  rw [if_neg (by simp)]
  simp only [encode, h2, andThen_skip]
  simp

theorem graphEnc_tree (c : Cfg) (t : Ty) (sz : Option SizeTy) (H : Graph) (henv : c.env 0 = nodeTy t sz) :
    ∀ (d n a : Nat), d ≤ 4 * n → graphEnc d c t sz H a = encode d c (.ref 0) (treeOf H n a)
  | 0, _, _, _ => rfl
  | 1, _, _, _ => rfl
  | 2, n, a, h => by
    have h1 : asBytes c (.struct false [t, .seq .vector sz (.uptr (.ref 0))]) = false := by
      simp [asBytes, Ty.endianIndep, Ty.byteSer]
    obtain ⟨m, rfl⟩ : ∃ m, n = m + 1 := ⟨n - 1, by omega⟩
    rw [treeOf, graphEnc, encode, henv, nodeTy, encode]
    simp only [h1, encFields]
    rw [if_neg (by simp)]
    rfl
  | 3, n, a, h => by
    obtain ⟨m, rfl⟩ : ∃ m, n = m + 1 := ⟨n - 1, by omega⟩
    rw [graphEnc, treeOf, show (3 : Nat) = 0 + 3 from rfl, encode_node 0 c t sz henv]
    rw [List.length_map]
    congr 2
    cases (H a).next with
    | nil => rfl
    | cons p ps =>
      rw [if_neg (by simp)]
      simp only [List.map_cons, encAll, encode]
      rfl
  | d + 4, n, a, h => by
    obtain ⟨m, rfl⟩ : ∃ m, n = m + 1 := ⟨n - 1, by omega⟩
    rw [graphEnc, treeOf, show d + 4 = (d + 1) + 3 from rfl, encode_node (d + 1) c t sz henv]
    have : encode (d + 1) c (.uptr (.ref 0)) = encUptr (encode d c (.ref 0)) := by funext v; rw [encode]
    rw [List.length_map, this]
    congr 2
    exact graph_ptrs (encode d c (.ref 0)) _ (treeOf H m) (fun b => graphEnc_tree c t sz H henv d m b (by omega)) (H a).next

theorem graph_same (c : Cfg) (t : Ty) (sz : Option SizeTy) (H H' : Graph) (R : Nat → Nat → Prop) (hR : LooksSame R H H') :
    ∀ (d a a' : Nat), R a a' → graphEnc d c t sz H a = graphEnc d c t sz H' a'
  | 0, _, _, _ => rfl
  | 1, _, _, _ => rfl
  | 2, _, _, _ => rfl
  | 3, a, a', h => by
    obtain ⟨h1, h2⟩ := hR a a' h
    rw [graphEnc, graphEnc, h1]
    generalize (H a).next = ps at *
    generalize (H' a').next = qs at *
    have hl : ps.length = qs.length := by
      clear h1
      induction h2 with
      | nil => rfl
      | null _ ih => simp [ih]
      | ptr _ _ ih => simp [ih]
    rw [hl]
    congr 2
    cases h2 <;> rfl
  | d + 4, a, a', h => by
    obtain ⟨h1, h2⟩ := hR a a' h
    rw [graphEnc, graphEnc, h1]
    generalize (H a).next = ps at *
    generalize (H' a').next = qs at *
    have hl : ps.length = qs.length := by
      clear h1
      induction h2 with
      | nil => rfl
      | null _ ih => simp [ih]
      | ptr _ _ ih => simp [ih]
    rw [hl]
    congr 2
    clear h1 hl
    induction h2 with
    | nil => rfl
    | null _ ih => simp only [List.foldr_cons, ih]
    | ptr hb _ ih => simp only [List.foldr_cons, ih]; rw [graph_same c t sz H H' R hR d _ _ hb]

theorem andThen_never {a b : OutM} (h : (∀ st, (a st).1 ≠ .ok) ∨ ∀ st, (b st).1 ≠ .ok) (st : OutSt) : (a.andThen b st).1 ≠ .ok := by
  unfold OutM.andThen
  split
  · rename_i st' e
    rcases h with h | h
    · exact absurd (by rw [e]) (h st)
    · exact h st'
  · rename_i r hr
    intro hok
    exact hr (a st).2 (by rw [← hok])

theorem graph_hopeless (c : Cfg) (t : Ty) (sz : Option SizeTy) (H : Graph) (S : Nat → Prop) (hS : Hopeless S H) :
    ∀ (d a : Nat), S a → ∀ st, (graphEnc d c t sz H a st).1 ≠ .ok
  | 0, _, _, _ => nofun
  | 1, _, _, _ => nofun
  | 2, _, _, _ => nofun
  | 3, a, h, st => by
    rw [graphEnc]
    refine andThen_never (.inr (andThen_never (.inr fun st => ?_))) st
    rw [if_neg (by rcases hS a h with h | ⟨b, h, -⟩ <;> exact fun e => by rw [e] at h; cases h)]
    nofun
  | d + 4, a, h, st => by
    rw [graphEnc]
    refine andThen_never (.inr (andThen_never (.inr ?_))) st
    have hh := hS a h
    generalize (H a).next = ps at *
    induction ps with
    | nil => rcases hh with h | ⟨b, h, -⟩ <;> cases h
    | cons p ps ih =>
      rw [List.foldr_cons]
      cases p with
      | none => exact andThen_never (.inl fun st => nofun)
      | some b =>
        by_cases hb : S b
        · exact andThen_never (.inl fun st => graph_hopeless c t sz H S hS d b hb st)
        · refine andThen_never (.inr (ih ?_))
          rcases hh with h | ⟨b', h, hb'⟩
          · simp at h; exact .inl h
          · rcases List.mem_cons.mp h with h | h
            · cases h; exact absurd hb' hb
            · exact .inr ⟨b', h, hb'⟩

theorem andThen_inv {a b : OutM} {st st' : OutSt} (h : a.andThen b st = (.ok, st')) : ∃ s1, a st = (.ok, s1) ∧ b s1 = (.ok, st') := by
  unfold OutM.andThen at h
  split at h
  · rename_i s1 e; exact ⟨s1, e, h⟩
  · rename_i r hr; exact absurd h (hr _)

theorem put_at {g : Growth} {bs : List UInt8} {st st' : OutSt} (h : put g bs st = (.ok, st')) : st'.pos = st.pos + bs.length := by
  obtain ⟨s1, h1, h2⟩ := andThen_inv h
  have := claim_pos g bs.length st
  rw [h1] at this
  unfold memcpyAt at h2
  split at h2
  · cases h2; simp only at this ⊢; rw [this]
  · cases h2

theorem encHdr_at {c : Cfg} {sz : SizeTy} {n : Nat} {st st' : OutSt} (h : encHdr c sz n st = (.ok, st')) : st.pos ≤ st'.pos := by
  have key : ∀ bs (s1 : OutSt), memcpyAt bs s1 = (.ok, st') → s1.pos ≤ st'.pos := by
    intro bs s1 h
    unfold memcpyAt at h
    split at h
    · cases h; simp
    · cases h
  unfold encHdr at h
  split at h
  · have := put_at h; omega
  · unfold putVarint at h
    split at h
    · obtain ⟨s1, h1, h2⟩ := andThen_inv h
      have hp : s1.pos = st.pos := by
        have : (enlargeFor c.g (varintMaxSize 8) st).2.pos = st.pos := by
          unfold enlargeFor
          simp only
          repeat' split
          all_goals rfl
        rw [h1] at this; exact this
      have := key _ _ h2; omega
    · split at h
      · cases h
      · split at h
        · cases h
        · exact key _ _ h
  · cases h; exact Nat.le_refl _

theorem ladder_at (c : Cfg) (sz : Option SizeTy) (n x : Nat) :
    ∀ (m d : Nat) (st st' : OutSt), m ≤ n → graphEnc d c (.scalar .int 4) sz (ladder n x) (n - m) st = (.ok, st') → st.pos + 4 * 2 ^ m ≤ st'.pos := by
  have hval : ∀ (d a : Nat) (s s' : OutSt), encode (d + 1) c (.scalar .int 4) (ladder n x a).value s = (.ok, s') → s'.pos = s.pos + 4 := by
    intro d a s s' h
    have h : put c.g (ioBytes c 4 x) s = (.ok, s') := h
    rw [put_at h]
    unfold ioBytes
    split <;> simp
  intro m
  induction m with
  | zero =>
    intro d st st' _ h
    have hn : (ladder n x (n - 0)).next = [] := by simp [ladder]
    match d, h with
    | 3, h =>
      rw [graphEnc] at h
      obtain ⟨s1, h1, h⟩ := andThen_inv h
      obtain ⟨s2, h2, h⟩ := andThen_inv h
      rw [hn, if_pos rfl] at h
      cases h
      have e1 := hval 0 _ _ _ h1
      have e2 := encHdr_at h2
      omega
    | d + 4, h =>
      rw [graphEnc] at h
      obtain ⟨s1, h1, h⟩ := andThen_inv h
      obtain ⟨s2, h2, h⟩ := andThen_inv h
      rw [hn] at h
      cases h
      have e1 := hval (d + 1) _ _ _ h1
      have e2 := encHdr_at h2
      omega
  | succ m ih =>
    intro d st st' hm h
    have hn : (ladder n x (n - (m + 1))).next = [some (n - m), some (n - m)] := by
      have : n - (m + 1) < n := by omega
      simp only [ladder, if_pos this, show n - (m + 1) + 1 = n - m by omega]
    match d, h with
    | 3, h =>
      rw [graphEnc] at h
      obtain ⟨s1, h1, h⟩ := andThen_inv h
      obtain ⟨s2, h2, h⟩ := andThen_inv h
      rw [hn, if_neg (by simp)] at h
      cases h
    | d + 4, h =>
      rw [graphEnc] at h
      obtain ⟨s1, h1, h⟩ := andThen_inv h
      obtain ⟨s2, h2, h⟩ := andThen_inv h
      rw [hn] at h
      simp only [List.foldr_cons, List.foldr_nil] at h
      obtain ⟨s3, h3, h⟩ := andThen_inv h
      obtain ⟨s4, h4, h⟩ := andThen_inv h
      cases h
      have e1 := hval (d + 1) _ _ _ h1
      have e2 := encHdr_at h2
      have e3 := ih d _ _ (by omega) h3
      have e4 := ih d _ _ (by omega) h4
      have : 2 ^ (m + 1) = 2 * 2 ^ m := by rw [Nat.pow_succ]; omega
      omega

theorem treeOf_ranked (H : Graph) (r : Nat → Nat) (hr : Ranked r H) :
    ∀ (n m a : Nat), r a < n → r a < m → treeOf H n a = treeOf H m a := by
  intro n
  induction n with
  | zero => intro m a h; omega
  | succ n ih =>
    intro m a h1 h2
    obtain ⟨m, rfl⟩ : ∃ k, m = k + 1 := ⟨m - 1, by omega⟩
    rw [treeOf, treeOf]
    congr 4
    apply List.map_congr_left
    intro p hp
    cases p with
    | none => rfl
    | some b => have := hr a b hp; simp only; rw [ih m b (by omega) (by omega)]

end Zpp

namespace Zpp.Props
open Spec

/-- C125: the archive follows every pointer and writes what it points to, as often as it is pointed to. For every heap, with any sharing and with cycles, writing an
object does exactly what writing the tree of the pointers followed from it does, from any state of the archive. `n` levels of the tree are enough when the stack
allows no more than `4 * n` nested calls. -/
theorem C125_tree (d n : Nat) (c : Cfg) (noFit : Bool) (t : Ty) (sz : Option SizeTy) (H : Graph) (a : Nat) (henv : c.env 0 = nodeTy t sz) (hn : d ≤ 4 * n) :
    graphCall d c noFit t sz H a = outCall d c noFit [(.ref 0, treeOf H n a)] := by
  unfold graphCall outCall
  rw [graphEnc_tree c t sz H henv d n a hn]
  simp only [encMany, andThen_skip]

/-- C125: sharing cannot be seen in the bytes. Objects that look the same to whoever follows pointers and looks at values are written alike: same result, same bytes,
same position, whatever is shared in one program and copied in the other. -/
theorem C125_sharing (d : Nat) (c : Cfg) (noFit : Bool) (t : Ty) (sz : Option SizeTy) (H H' : Graph) (R : Nat → Nat → Prop) (a a' : Nat) (hR : LooksSame R H H')
    (ha : R a a') (st : OutSt) : graphCall d c noFit t sz H a st = graphCall d c noFit t sz H' a' st := by
  unfold graphCall
  rw [graph_same c t sz H H' R hR d a a' ha]

/-- C125: an object from which a cycle, an endless chain or a null pointer can be reached is never written successfully, whatever the stack, the buffer and the
configuration. -/
theorem C125_hopeless (d : Nat) (c : Cfg) (noFit : Bool) (t : Ty) (sz : Option SizeTy) (H : Graph) (S : Nat → Prop) (a : Nat) (hS : Hopeless S H) (ha : S a)
    (st : OutSt) : (graphCall d c noFit t sz H a st).1 ≠ .ok := by
  rcases fitCall_code c noFit (graphEnc d c t sz H a) st with h | h
  · unfold graphCall; rw [h]; exact graph_hopeless c t sz H S hS d a ha st
  · unfold graphCall; rw [h]; nofun

/-- C125: without cycles, what is read back is the tree of the pointers followed: each pointer has an object of its own, and sharing is lost. -/
theorem C125_copied (d d' : Nat) (c ci : Cfg) (noFit : Bool) (t : Ty) (sz : Option SizeTy) (H : Graph) (r : Nat → Nat) (a : Nat) (old : Val) (st st' : OutSt)
    (bs : List UInt8) (henv : c.env 0 = nodeTy t sz) (hr : Ranked r H) (hf : fmtOf ci = fmtOf c) (hpos : st.pos ≤ st.data.length) (hlen : st.data.length < 2 ^ 63)
    (hs : Supported c [(.ref 0, treeOf H (r a + 1) a)]) (hd : StackOk d [(.ref 0, treeOf H (r a + 1) a)]) (hb : BitsOk [(.ref 0, treeOf H (r a + 1) a)] st)
    (hw : wireItems (fmtOf c) [(.ref 0, treeOf H (r a + 1) a)] = some bs) (hl : bs.length < 2 ^ 62)
    (hok : graphCall d c noFit t sz H a st = (.ok, st'))
    (hrd : Readable ci [(.ref 0, treeOf H (r a + 1) a)]) (hd' : StackOk d' [(.ref 0, treeOf H (r a + 1) a)]) :
    (st'.data.take st'.pos).drop st.pos = bs ∧
    decMany d' ci st'.data [(.ref 0, old)] st.pos = ⟨.ok, [treeOf H (r a + 1) a], st'.pos⟩ := by
  have e := C125_tree d (d + r a + 1) c noFit t sz H a henv (by omega)
  rw [treeOf_ranked H r hr (d + r a + 1) (r a + 1) a (by omega) (by omega)] at e
  rw [e] at hok
  exact ⟨C03_wire_format d c noFit _ st st' bs hpos hlen hs hd hb hw (by omega) hok,
    C10_round_trip d d' c ci noFit _ [(.ref 0, old)] st st' bs hf hpos hlen hs hd hb hw (by omega) hok hrd hd' rfl⟩

/-- C125: `n + 1` objects of which each has two pointers to the next take at least `4 * 2 ^ n` bytes when the value is a 4 byte number: the size of the output, and the
work to write and to read it, is not bounded by the memory the objects occupy. -/
theorem C125_exponential (d : Nat) (c : Cfg) (noFit : Bool) (sz : Option SizeTy) (n x : Nat) (st st' : OutSt)
    (hok : graphCall d c noFit (.scalar .int 4) sz (ladder n x) 0 st = (.ok, st')) : st.pos + 4 * 2 ^ n ≤ st'.pos := by
  have hbody : ∃ s1, graphEnc d c (.scalar .int 4) sz (ladder n x) 0 st = (.ok, s1) ∧ s1.pos = st'.pos := by
    unfold graphCall fitCall at hok
    split at hok
    · revert hok
      generalize graphEnc d c (.scalar .int 4) sz (ladder n x) 0 st = r
      obtain ⟨s, s1⟩ := r
      intro hok
      cases s <;> simp only at hok
      all_goals (repeat' split at hok)
      all_goals first | (cases hok; exact ⟨_, rfl, rfl⟩) | cases hok
    · exact ⟨st', hok, rfl⟩
  obtain ⟨s1, h1, h2⟩ := hbody
  rw [← h2]
  exact ladder_at c sz n x n d st s1 (Nat.le_refl _) (by rw [Nat.sub_self]; exact h1)

/-- A configuration for the class `node` with a 4 byte number. -/
def graphCfg : Cfg := ⟨.little, false, .fixed 1, Checks.grow, Checks.so, fun _ => nodeTy (.scalar .int 4) none, fun _ _ _ => false⟩

/-- Three objects: two pointers of the first lead to the second, whose two pointers lead to the third. The number of the third is written four times. -/
example :
    let bs : List UInt8 := [7, 0, 0, 0, 2, 7, 0, 0, 0, 2, 7, 0, 0, 0, 0, 7, 0, 0, 0, 0, 7, 0, 0, 0, 2, 7, 0, 0, 0, 0, 7, 0, 0, 0, 0]
    graphCall 40 graphCfg false (.scalar .int 4) none (ladder 2 7) 0 ⟨[], 0⟩ = (.ok, ⟨bs, 35⟩) ∧ 4 * 2 ^ 2 ≤ 35 ∧
    decMany 40 graphCfg bs [(.ref 0, .list [])] 0 = ⟨.ok, [treeOf (ladder 2 7) 3 0], 35⟩ ∧
    wireItems (fmtOf graphCfg) [(.ref 0, treeOf (ladder 2 7) 3 0)] = some bs := by
  decide +kernel

/-- The hypotheses of `C125_copied` for these objects. -/
example : graphCfg.env 0 = nodeTy (.scalar .int 4) none ∧ Ranked (fun k => 2 - k) (ladder 2 7) ∧ Supported graphCfg [(.ref 0, treeOf (ladder 2 7) 3 0)] ∧
    StackOk 40 [(.ref 0, treeOf (ladder 2 7) 3 0)] ∧ BitsOk [(.ref 0, treeOf (ladder 2 7) 3 0)] ⟨[], 0⟩ ∧ Readable graphCfg [(.ref 0, treeOf (ladder 2 7) 3 0)] := by
  have hgood : Good graphCfg (nodeTy (.scalar .int 4) none) = true ∧ Good (pbCfg graphCfg) (nodeTy (.scalar .int 4) none) = true := by
    constructor <;> simp [Good, GoodL, nodeOk, nodeTy, graphCfg, copyOk, oneBlock, scalarOk, pbCfg]
  have hty : ∀ x ∈ [((.ref 0 : Ty), treeOf (ladder 2 7) 3 0)], Good graphCfg x.1 = true := by
    intro x hx; simp only [List.mem_singleton] at hx; subst hx; rfl
  refine ⟨rfl, ?_, ⟨grow_ok, so_abi, fun _ => hgood, hty⟩, by unfold StackOk; decide +kernel, .inr (by simp), ⟨so_abi, fun _ => hgood, hty, ?_⟩⟩
  · intro a b h
    simp only [ladder] at h
    split at h
    · simp at h; show 2 - b < 2 - a; omega
    · cases h
  · intro x hx; simp only [List.mem_singleton] at hx; subst hx
    simp [treeOf, ladder, Loadable, LoadableF, LoadableL, graphCfg, nodeTy, Fits, Checks.grow, Checks.so, sizeMax]

/-- Four objects that look like the three: here the first has two objects of its own. -/
def ladderCopy : Graph := fun k =>
  ⟨.num 7, match k with
    | 0 => [some 1, some 2]
    | 1 => [some 3, some 3]
    | 2 => [some 3, some 3]
    | _ => []⟩

example : LooksSame (fun a a' => (a = 0 ∧ a' = 0) ∨ (a = 1 ∧ (a' = 1 ∨ a' = 2)) ∨ (a = 2 ∧ a' = 3)) (ladder 2 7) ladderCopy := by
  rintro a a' (⟨rfl, rfl⟩ | ⟨rfl, rfl | rfl⟩ | ⟨rfl, rfl⟩) <;> refine ⟨rfl, ?_⟩
  · exact .ptr (.inr (.inl ⟨rfl, .inl rfl⟩)) (.ptr (.inr (.inl ⟨rfl, .inr rfl⟩)) .nil)
  · exact .ptr (.inr (.inr ⟨rfl, rfl⟩)) (.ptr (.inr (.inr ⟨rfl, rfl⟩)) .nil)
  · exact .ptr (.inr (.inr ⟨rfl, rfl⟩)) (.ptr (.inr (.inr ⟨rfl, rfl⟩)) .nil)
  · exact .nil

/-- Two objects that point to each other: written until the stack is exhausted. -/
example : Hopeless (fun a => a < 2) (fun k => ⟨.num 7, [some (1 - k)]⟩) ∧
    (graphCall 40 graphCfg false (.scalar .int 4) none (fun k => ⟨.num 7, [some (1 - k)]⟩) 0 ⟨[], 0⟩).1 = .stack := by
  refine ⟨fun a h => .inr ⟨1 - a, by simp, by omega⟩, by decide +kernel⟩

/-- A null pointer behind two objects is refused. -/
example : Hopeless (fun a => a < 3) (fun k => ⟨.num 7, if k < 2 then [some (k + 1)] else [none]⟩) ∧
    (graphCall 40 graphCfg false (.scalar .int 4) none (fun k => ⟨.num 7, if k < 2 then [some (k + 1)] else [none]⟩) 0 ⟨[], 0⟩).1 = .err .invalidArgument := by
  refine ⟨fun a h => ?_, by decide +kernel⟩
  by_cases h2 : a < 2
  · exact .inr ⟨a + 1, by simp [h2], by omega⟩
  · exact .inl (by simp [h2])

end Zpp.Props
