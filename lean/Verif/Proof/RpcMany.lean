import Verif.Spec.RpcMany
import Verif.Proof.Rpc
/-! # Many connections: each is simulated by its ideal connection -/

namespace Zpp
open Spec Props

theorem sentOver_append {j : Nat} {a b : List (Nat × Chan × Msg)} : sentOver j (a ++ b) = sentOver j a ++ sentOver j b := by
  simp [sentOver]

theorem sentOver_map {j j' : Nat} {s : List (Chan × Msg)} :
    sentOver j (s.map fun m => (j', m)) = if j = j' then s else [] := by
  simp only [sentOver, List.filter_map, List.map_map, Function.comp_def]
  by_cases e : j = j'
  · subst e
    simp
  · have : ¬ j' = j := fun h => e h.symm
    simp [this, e]

theorem many_sim {σ : Type} {ns : Nat → Net σ} {served : Nat → List (Binding σ)} {fns : Nat → Fns σ} {f : Nat → Fmt}
    (hdn : ∀ j, 0 < (ns j).d) (hcf : ∀ j, fmtOf (ns j).cc = f j) (hsf : ∀ j, fmtOf (ns j).sc = f j)
    (hn : ∀ j, nodup ((served j).map Binding.id) = true)
    (hdecl : ∀ j i fn, fns j i = some fn → ∃ b, (ns j).bindings[i]? = some b ∧ Declares fn b)
    (hprov : ∀ j i fn, fns j i = some fn → ∃ b ∈ served j, Provides (ns j).d (ns j).sc fn b)
    {ops : List (Nat × NetOp)} {w w' : σ} {q q' : Nat → Queues} {rs : List NetRes} {sent : List (Nat × Chan × Msg)}
    (hrun : IdealMany fns (fun j => (ns j).a) (fun j => (ns j).b) ops w q rs sent w' q') :
    ∀ {s : ManySt σ} {noB : Nat → Chan → Bool} {bs : Nat → Chan → List UInt8}, s.world = w →
    (∀ j, Sim (ns j) (fns j) (f j) (q j) (s.at j) (noB j)) →
    (∀ j, ∀ km ∈ sentOver j sent, MsgOk (ns j) (fns j) km.2) →
    (∀ j k, wireItems (f j) (sentItems (fns j) (ns j).idTy k (sentOver j sent)) = some (bs j k)) →
    (∀ j k, (bs j k).length < 2 ^ 63) →
    (∀ j k, noB j k = true → ∀ x ∈ sentItems (fns j) (ns j).idTy k (sentOver j sent), noBits x.2 = true) →
    (∀ j, RoomFor (ns j).cc.g (s.conn j (ns j).a).data.length ((s.conn j (ns j).a).wpos + (bs j (ns j).a).length)) →
    (∀ j, RoomFor (ns j).sc.g (s.conn j (ns j).b).data.length ((s.conn j (ns j).b).wpos + (bs j (ns j).b).length)) →
    ∃ s', manyRun ns served ops s = (rs, s') ∧ s'.world = w' ∧
      ∀ j, Sim (ns j) (fns j) (f j) (q' j) (s'.at j) (noB j) := by
  induction hrun with
  | done w q => intro s noB bs hw h _ _ _ _ _ _; exact ⟨s, rfl, hw, h⟩
  | @step j op ops w w1 w2 q q2 q1 r rs s1 ss hstep _ ih =>
    intro s noB bs hw h hok hbs hl hbits hra hrb
    have hs1 : sentOver j (s1.map (fun m => (j, m)) ++ ss) = s1 ++ sentOver j ss := by
      rw [sentOver_append, sentOver_map, if_pos rfl]
    have hs2 : ∀ j', j' ≠ j → sentOver j' (s1.map (fun m => (j, m)) ++ ss) = sentOver j' ss := by
      intro j' e
      rw [sentOver_append, sentOver_map, if_neg e, List.nil_append]
    have hsplit : ∀ k, ∃ z : List UInt8 × List UInt8, wireItems (f j) (sentItems (fns j) (ns j).idTy k s1) = some z.1 ∧
        wireItems (f j) (sentItems (fns j) (ns j).idTy k (sentOver j ss)) = some z.2 ∧ bs j k = z.1 ++ z.2 := by
      intro k
      have := hbs j k
      rw [hs1, sentItems_append] at this
      obtain ⟨x, y, h1, h2, h3⟩ := wireItems_append this
      exact ⟨(x, y), h1, h2, h3⟩
    obtain ⟨z, hz⟩ := Classical.axiomOfChoice hsplit
    have hlx : ∀ k, (bs j k).length = (z k).1.length + (z k).2.length := by intro k; rw [(hz k).2.2, List.length_append]
    have hraj := hra j
    have hrbj := hrb j
    rw [hlx] at hraj hrbj
    have hm1 : ∀ k, ∀ x ∈ sentItems (fns j) (ns j).idTy k s1,
        x ∈ sentItems (fns j) (ns j).idTy k (sentOver j (s1.map (fun m => (j, m)) ++ ss)) := by
      intro k x hx; rw [hs1, sentItems_append]; exact List.mem_append_left _ hx
    have hm2 : ∀ k, ∀ x ∈ sentItems (fns j) (ns j).idTy k (sentOver j ss),
        x ∈ sentItems (fns j) (ns j).idTy k (sentOver j (s1.map (fun m => (j, m)) ++ ss)) := by
      intro k x hx; rw [hs1, sentItems_append]; exact List.mem_append_right _ hx
    have hd1 : (ns j).d = ((ns j).d - 1) + 1 := by have := hdn j; omega
    obtain ⟨s', e1, e2, e3, e4, e5⟩ := step_sim hd1 (hcf j) (hsf j) (hn j) (hdecl j) (hprov j) hstep (s := s.at j) hw (h j)
      (fun km hk => hok j km (by rw [hs1]; exact List.mem_append_left _ hk)) (fun k => (hz k).1)
      (fun k => by have := hl j k; rw [hlx] at this; omega)
      (fun k hb x hx => hbits j k hb x (hm1 k x hx)) (hraj.mono (by simp only [ManySt.at]; omega)) (hrbj.mono (by simp only [ManySt.at]; omega))
    -- the other connections see another world
    have hstate : manyStep ns served j op s = (r, ⟨s'.world, fun j' => if j' = j then s'.buf else s.conn j'⟩) := by
      simp only [manyStep, e1]
    generalize hst : (⟨s'.world, fun j' => if j' = j then s'.buf else s.conn j'⟩ : ManySt σ) = t at hstate
    have hconn : ∀ j', t.conn j' = if j' = j then s'.buf else s.conn j' := by intro j'; rw [← hst]
    have hsims : ∀ j', Sim (ns j') (fns j') (f j') (if j' = j then q1 else q j') (t.at j') (noB j') := by
      intro j'
      by_cases e : j' = j
      · subst e
        rw [if_pos rfl]
        have : t.at j' = s' := by
          rw [← hst]; simp [ManySt.at]
        rw [this]; exact e3
      · rw [if_neg e]
        have : t.at j' = { s.at j' with world := s'.world } := by
          rw [← hst]; simp [ManySt.at, e]
        rw [this]; exact (h j').world _
    obtain ⟨s'', i1, i2, i3⟩ := ih (s := t) (noB := noB) (bs := fun j' k => if j' = j then (z k).2 else bs j' k)
      (by rw [← hst]; exact e2) hsims
      (by
        intro j' km hk
        by_cases e : j' = j
        · subst e; exact hok j' km (by rw [hs1]; exact List.mem_append_right _ hk)
        · exact hok j' km (by rw [hs2 j' e]; exact hk))
      (by
        intro j' k
        by_cases e : j' = j
        · subst e; simp only [if_true]; exact (hz k).2.1
        · simp only [if_neg e]; have := hbs j' k; rwa [hs2 j' e] at this)
      (by
        intro j' k
        by_cases e : j' = j
        · subst e; simp only [if_true]; have := hl j' k; rw [hlx] at this; omega
        · simp only [if_neg e]; exact hl j' k)
      (by
        intro j' k hb x hx
        by_cases e : j' = j
        · subst e; exact hbits j' k hb x (hm2 k x hx)
        · exact hbits j' k hb x (by rw [hs2 j' e]; exact hx))
      (by
        intro j'
        rw [hconn]
        by_cases e : j' = j
        · subst e; simp only [if_true]; rw [e4]; exact (hraj.mono (by simp only [ManySt.at]; omega)).grow (e5 _)
        · simp only [if_neg e]; exact hra j')
      (by
        intro j'
        rw [hconn]
        by_cases e : j' = j
        · subst e; simp only [if_true]; rw [e4]; exact (hrbj.mono (by simp only [ManySt.at]; omega)).grow (e5 _)
        · simp only [if_neg e]; exact hrb j')
    exact ⟨s'', by simp only [manyRun, hstate, i1], i2, i3⟩

end Zpp
