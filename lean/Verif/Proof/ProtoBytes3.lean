import Verif.Proof.ProtoBytes2
/-!
# Reading any bytes as a protobuf parser does: messages
-/

namespace Zpp
open Spec

theorem protoRecords_step {k key : Nat} {bs pay rest : List UInt8} {p : PbPayload} {rs : List (Nat × PbPayload)}
    (hk : protoVarint bs = some (key, pay)) (hp : protoPayload (key % 8) pay = some (p, rest)) (h : protoRecords k bs = some rs) :
    ∃ k' rs', rs = (key / 8, p) :: rs' ∧ protoRecords k' rest = some rs' ∧ key / 8 < 2 ^ 29 := by
  have hne : bs ≠ [] := by
    rintro rfl
    simp [protoVarint, lebPrefix] at hk
  cases bs with
  | nil => exact absurd rfl hne
  | cons b bs =>
    cases k with
    | zero => simp [protoRecords] at h
    | succ k =>
      simp only [protoRecords, protoRecord, hk] at h
      split at h
      · next r rest' heq =>
        split at heq
        · next hlt =>
          simp only [hp, Option.map, Option.some.injEq, Prod.mk.injEq] at heq
          obtain ⟨rfl, rfl⟩ := heq
          simp only [Option.map_eq_some_iff] at h
          obtain ⟨rs', h1, rfl⟩ := h
          exact ⟨k, rs', rfl, h1, hlt.2⟩
        · cases heq
      · cases h

theorem loop_reads {c : Cfg} (hc : InPb c) (ha : AbiOk c.sizeof) (he : EnvGood c) {new : Ty → Val}
    (hnew : NewObjects c.env new) {d : Nat} {sub : SubParser} (hsub : SubBytes c d sub) (henum : SubEnum sub)
    {maps : List (Nat × Nat)} {nums : List (Option Nat)} {fs : List Ty} (hm : MsgGood c maps nums fs) {s : Nat} (hd : 2 * s + 3 ≤ d)
    {data : List UInt8} (hlen : data.length < 2 ^ 64) :
    ∀ (f k : Nat) (seen : List Nat) (rs : List (Nat × PbPayload)) (ps vs ws vs' : List Val) (p q : Nat), p ≤ data.length →
    BytesPlain c.env s (protoFields maps nums fs) seen (data.drop p) → protoRecords k (data.drop p) = some rs →
    protoAll new sub c.env (protoFields maps nums fs) ps rs = some ws → HoldsEach c fs ps vs →
    (∀ m t, numberAt maps nums m ∉ seen → fs[m]? = some t → firstOnly c.env t = true →
      ps[m]? = vs[m]? ∧ ∃ o, vs[m]? = some o ∧ Initial c.env t o) →
    pbLoop (fun t wt v q => pbDecField c (fun t v q => decode d c t v data q) (dflt c d) t wt v data q) maps nums fs data f vs p =
      ⟨.ok, vs', q⟩ → HoldsEach c fs ws vs' ∧ q = data.length := by
  intro f
  induction f with
  | zero => intro k seen rs ps vs ws vs' p q _ _ _ _ _ _ h; cases h
  | succ f ih =>
    intro k seen rs ps vs ws vs' p q hp hpl hrs hall hst hinv h
    rw [pbLoop] at h
    by_cases hlt : p < data.length
    · rw [if_pos hlt] at h
      obtain ⟨bs, hbs⟩ : ∃ bs, bs = data.drop p := ⟨_, rfl⟩
      rw [← hbs] at hpl hrs
      cases hpl with
      | nil =>
        have := congrArg List.length hbs
        simp only [List.length_nil, List.length_drop] at this
        omega
      | cons hk hpay ht hpp hone hs =>
        rename_i pay rest key pl t
        obtain ⟨k', rs', rfl, hrs', hkey⟩ := protoRecords_step hk hpay hrs
        rw [hbs] at hk
        -- the member
        obtain ⟨m, hmz⟩ := List.getElem?_of_mem ht
        have hmz' := hmz
        simp only [protoFields, List.getElem?_zip_eq_some] at hmz'
        obtain ⟨hfn', htm⟩ := hmz'
        obtain ⟨hml, hfok, _, _⟩ := pbFieldsOk_get fs 0 nums m t hm.fields htm
        rw [Nat.zero_add] at hfok
        have hfn := fieldNumbers_get (maps := maps) nums 0 m hml
        rw [Nat.zero_add] at hfn
        have hnum : key / 8 = numberAt maps nums m := by
          rw [hfn] at hfn'
          exact (Option.some.inj hfn').symm
        obtain ⟨cp, cl, hcp, hcl, hsc⟩ := holdsEach_get hst htm
        -- the key
        cases hv : getVarint 4 false (.num 0) data p with
        | mk st v p1 =>
        rw [hv] at h
        cases st with
        | ok =>
          obtain ⟨rfl, h1, h2, h3⟩ := varint_read (n := 4) rfl hp hk hv
          have htag : protoNumber (.varint 4 false) key = key := by
            simp only [protoNumber]
            exact Nat.mod_eq_of_lt (by omega)
          have e3 : key >>> 3 = key / 8 := Nat.shiftRight_eq_div_pow key 3
          have e7 : key &&& 7 = key % 8 := Nat.and_two_pow_sub_one_eq_mod key 3
          simp only [htag, e3, e7, hnum] at h
          cases hfd : pbDecField c (fun t v q => decode d c t v data q) (dflt c d) t (key % 8) cl data p1 with
          | mk st v p2 =>
          have hvd : vs.getD m .unit = cl := by simp [List.getD, hcl]
          obtain ⟨_, hdis⟩ := pbDispatch_member hm.fields hm.distinct htm
            (field := fun t wt v q => pbDecField c (fun t v q => decode d c t v data q) (dflt c d) t wt v data q)
            (holdsEach_len hst).2 (wt := key % 8) (p := p1) (s := st) (v := v) (p' := p2) (by rw [hvd]; exact hfd)
          rw [hdis] at h
          cases st with
          | ok =>
            simp only at h
            simp only [protoAll] at hall
            rw [protoApply_at _ _ m cp hmz hcp (by
              intro k x hk hx he
              simp only [protoFields, List.getElem?_zip_eq_some] at hx
              rw [he] at hx
              have := nodup_get hm.distinct hx.1 hfn'
              omega)] at hall
            cases hpf : protoField new sub c.env t cp pl with
            | none => simp [hpf] at hall
            | some w =>
            simp only [hpf, Option.map] at hall
            rw [← h3] at hpay hpp
            obtain ⟨hH, h4, h5, h6⟩ := field_reads hc ha he hnew hsub henum hfok (goodL_get hm.types htm) hlen h2 hd hpay hpp hsc (by
              intro hfo hl
              obtain ⟨e, o, ho1, ho2⟩ := hinv m t (by rw [← hnum]; exact hone hfo hl) htm hfo
              rw [hcp, hcl] at e
              rw [hcl] at ho1
              cases e
              cases ho1
              exact ⟨rfl, ho2⟩) hpf hfd
            rw [← h6] at hs hrs'
            exact ih k' _ rs' _ _ ws vs' p2 q h5 hs hrs' hall (holdsEach_set hst htm hH) (by
              intro j u hj hu hfo
              simp only [List.mem_cons, not_or] at hj
              obtain ⟨e, o, ho1, ho2⟩ := hinv j u hj.2 hu hfo
              have hne : m ≠ j := by
                rintro rfl
                exact hj.1 hnum.symm
              exact ⟨by rw [List.getElem?_set_ne hne, List.getElem?_set_ne hne, e], o,
                by rw [List.getElem?_set_ne hne]; exact ho1, ho2⟩) h
          | _ => cases h
        | _ => cases h
    · rw [if_neg hlt] at h
      cases h
      have hpe : p = data.length := by omega
      subst hpe
      simp only [List.drop_length] at hrs
      have : rs = [] := by cases k <;> simpa [protoRecords] using hrs.symm
      subst this
      simp only [protoAll, Option.some.injEq] at hall
      subst hall
      exact ⟨hst, rfl⟩

/-- A message of known size. -/
theorem run_reads {c : Cfg} (hc : InPb c) (hci : insideMsg c = c) (ha : AbiOk c.sizeof) (he : EnvGood c) {new : Ty → Val}
    (hnew : NewObjects c.env new) {d : Nat} (hsub : ∀ k, SubBytes c d (protoMsg new c.env k))
    {maps : List (Nat × Nat)} {nums : List (Option Nat)} {fs : List Ty} (hm : MsgGood c maps nums fs) {s : Nat} (hd : 2 * s + 3 ≤ d)
    {data body rest : List UInt8} (hlen : data.length < 2 ^ 64) {size p q k : Nat} {os ws : List Val} {v : Val} (hp : p ≤ data.length)
    (hdr : data.drop p = body ++ rest) (hsize : min size (data.length - p) = body.length) (hos : InitialL c.env fs os)
    (hpl : BytesPlain c.env s (protoFields maps nums fs) [] body)
    (hw : protoMsg new c.env k (protoFields maps nums fs) os body = some ws)
    (h : msgRun c (decode d c) (dflt c d) maps nums fs (.list os) data size p = ⟨.ok, v, q⟩) :
    ∃ vs, v = .list vs ∧ HoldsEach c fs ws vs ∧ q = p + body.length := by
  unfold msgRun at h
  rw [if_neg (by omega)] at h
  have hms : msgSub data p size = body := by
    unfold msgSub
    rw [hsize, hdr, List.take_left]
  have hbl := congrArg List.length hdr
  simp only [List.length_drop, List.length_append] at hbl
  simp only [hms] at h
  cases k with
  | zero => simp [protoMsg] at hw
  | succ k =>
    simp only [protoMsg] at hw
    split at hw
    · next rs hrs =>
      cases hl : pbLoop (fun t wt v q => pbDecField c (fun t v q => decode d c t v body q) (dflt c d) t wt v body q) maps nums fs body
          (body.length + 1) (pbClear fs (Val.list os).elems) 0 with
      | mk st vs q' =>
      rw [hl] at h
      simp only [Res.mk.injEq] at h
      obtain ⟨rfl, rfl, rfl⟩ := h
      have hcl : pbClear fs (Val.list os).elems = os := by rw [pbClear_emptied]; exact emptied_initial hos
      rw [hcl] at hl
      obtain ⟨h1, h2⟩ := loop_reads hc ha he hnew (hsub k) (protoMsg_entry new c.env k) hm hd (data := body) (by omega)
        _ _ [] rs os os ws vs 0 q' (by omega) (by simpa using hpl) (by simpa using hrs) hw
        (holdsEach_initial hci (fun i => (he i).1) hm.fields hm.types hos) (fun m t _ ht _ => ⟨rfl, initialL_get hos ht⟩) hl
      exact ⟨vs, rfl, h1, by rw [h2]⟩
    · cases hw

theorem sub_reads {c : Cfg} (hc : InPb c) (hci : insideMsg c = c) (ha : AbiOk c.sizeof) (he : EnvGood c) {new : Ty → Val}
    (hnew : NewObjects c.env new) : ∀ d, (∀ k, SubBytes c d (protoMsg new c.env k)) ∧ ∀ k, SubBytes c (d + 1) (protoMsg new c.env k) := by
  have heff : effSz c none = .varint := by
    have := congrArg Cfg.dsz hc.idem
    simpa [effSz, pbCfg] using this.symm
  -- a message class, with one level of the stack
  have one : ∀ d, (∀ k, SubBytes c d (protoMsg new c.env k)) → ∀ ok maps nums fs, Good c (.msg none ok maps nums fs) = true →
      ∀ k s data p q os v body rest ws, data.length < 2 ^ 64 → p ≤ data.length → 2 * s + 3 ≤ d → InitialL c.env fs os →
      protoVarint (data.drop p) = some (body.length, body ++ rest) → BytesPlain c.env s (protoFields maps nums fs) [] body →
      protoMsg new c.env k (protoFields maps nums fs) os body = some ws →
      decode (d + 1) c (.msg none ok maps nums fs) (.list os) data p = ⟨.ok, v, q⟩ →
      ∃ vs, v = .list vs ∧ HoldsEach c fs ws vs ∧ p < q ∧ q ≤ data.length ∧ data.drop q = rest := by
    intro d hsub ok maps nums fs hg k s data p q os v body rest ws hlen hp hd hos hvar hpl hw h
    simp only [decode, heff] at h
    cases hh : decHdr c .varint data p with
    | mk st r =>
    obtain ⟨len, p1⟩ := r
    rw [hh] at h
    cases st with
    | ok =>
      obtain ⟨rfl, h1, h2, h3⟩ := hdr_read hp hvar hh
      have hs := drop_split h2 h3
      simp only [hc.idem] at h
      obtain ⟨vs, h4, h5, rfl⟩ := run_reads hc hci ha he hnew hsub (good_msgOf hci (fun i => (he i).1) rfl hg) hd hlen h2 h3 (by omega)
        hos hpl hw h
      exact ⟨vs, h4, h5, by omega, hs.1, hs.2⟩
    | _ => cases h
  intro d
  induction d with
  | zero =>
    refine ⟨?_, ?_⟩
    · intro k t maps nums fs _ _ s data p q os v body rest ws _ _ hd
      omega
    · intro k t maps nums fs _ _ s data p q os v body rest ws _ _ hd
      omega
  | succ d ih =>
    refine ⟨ih.2, ?_⟩
    intro k t maps nums fs ht hg s data p q os v body rest ws hlen hp hd hos hvar hpl hw h
    rcases msgOf_msg ht with ⟨ok, rfl⟩ | ⟨i, ok, rfl, hi⟩
    · exact one (d + 1) ih.2 ok maps nums fs hg k s data p q os v body rest ws hlen hp (by omega) hos hvar hpl hw h
    · simp only [decode, hi] at h
      have hge := (he i).1
      rw [hi] at hge
      exact one d ih.1 ok maps nums fs hge k s data p q os v body rest ws hlen hp (by omega) hos hvar hpl hw h

end Zpp
