/- Proof of C49, second part: the sequence of the operations. -/
import Verif.Weak.DRFMerge
import Verif.Weak.NonMCASyncProof

namespace Verif
variable {W : Nat}

theorem Done.Acquires.not_overwrites {d : Done W} (h : d.Acquires) (x : Nat) : ¬ d.call.Overwrites x := by
  obtain ⟨c, B, tr, rs⟩ := d
  cases c <;> first | exact False.elim h | exact id

section
variable {A : Backend W} {X : AxShape W} {rf : Node → Nat → Option Node} {items : Nat → List (Item W)}

/-- An operation that reads what another wrote comes later in the order of the object. -/
theorem CSetup.readsLater {w a : Nat} (H : CSetup A X rf items w a) (hpair : A.Paired) {i k j l : Nat} {d d' : Done W} {n n' r : Node} {o o' or : Own W}
    (h : IsPt A.e items i k d n o) (h' : IsPt A.e items j l d' n' o') (hw : o.ev.isWrite = true) (hok : d'.OK A)
    (hon' : d'.call.On w a) (hacq : d'.Acquires) (hr : IsLast items j l .rd r) (hor : X.At r or) {x : Nat} (hx : or.reads x)
    (h1 : a ≤ x) (h2 : x < a + w / 8) (hrf : rf r x = some n) : keyOf X rf a n o.ev < keyOf X rf a n' o'.ev := by
  have hpos := H.size.pos
  cases hw' : o'.ev.isWrite with
  | true =>
    obtain ⟨lr, hat, hnat, hreads, hF⟩ := H.lastRead hpair h' hok hon' hacq.not_overwrites hw' hr
    obtain rfl : or = lr := by simpa using hor.1.symm.trans hat.1
    have hk := hr.node.2.1
    have := H.same ⟨hat, hk, hnat, hx⟩ ⟨hat, hk, hnat, (hreads a (Nat.le_refl a) (by omega)).1⟩ h1 h2 (Nat.le_refl a) (by omega) hrf
    have := hF.1 n this
    unfold keyOf
    rw [hw, hw']
    simp only
    omega
  | false =>
    obtain ⟨p, hp, hn⟩ := h'.pt
    have hl := hp.last
    rw [ownEvs_erase] at hl
    have hk : ptKind o'.ev = .rd := by simp [ptKind, hw']
    rw [hk] at hl hn
    have hnr : n' = r := IsLast.unique ⟨d', p, h'.item, hl, hn⟩ hr
    subst hnr
    have t1 := (H.touch h' hon' (Nat.le_refl a) (by omega)).2 hw'
    have t2 := (H.touch h' hon' h1 h2).2 hw'
    have := H.same t2 t1 h1 h2 (Nat.le_refl a) (by omega) hrf
    unfold keyOf
    rw [hw, hw']
    simp only [this]
    omega

/-- what happens before comes first -/
theorem OpBefore.height (H : Prog A X items) (objs : ∀ t d, Item.op d ∈ items t → CSetup A X rf items d.call.width d.call.addr)
    (hpair : A.Paired) (hok : ∀ t d, Item.op d ∈ items t → d.OK A) {ht : Nat × Nat × Done W → Nat}
    (hpo : ∀ t k k' d d', (items t)[k]? = some (.op d) → (items t)[k']? = some (.op d') → k < k' → ht (t, k, d) < ht (t, k', d'))
    (hkey : ∀ t k d n o t' k' d' n' o', IsPt A.e items t k d n o → IsPt A.e items t' k' d' n' o' →
      d.call.On d'.call.width d'.call.addr → keyOf X rf d'.call.addr n o.ev < keyOf X rf d'.call.addr n' o'.ev →
      ht (t, k, d) < ht (t', k', d')) {i k j l : Nat} (h : OpBefore X rf items i k j l) :
    ∃ d d', (items i)[k]? = some (.op d) ∧ (items j)[l]? = some (.op d') ∧ ht (i, k, d) < ht (j, l, d') := by
  induction h with
  | direct hij hd hrel hd' hacq hon hw hr ho hx h1 h2 hrf =>
    obtain ⟨d0, o0, hp, hwr⟩ := H.isLast_wr hw
    obtain rfl := Item.op.inj (Option.some.inj (hp.item.symm.trans hd))
    obtain ⟨n', o', hp'⟩ := H.exists_isPt hd'
    have hm := List.mem_of_getElem? hd'
    exact ⟨_, _, hd, hd', hkey _ _ _ _ _ _ _ _ _ _ hp hp' hon
      ((objs _ _ hm).readsLater hpair hp hp' hwr (hok _ _ hm) ⟨rfl, rfl⟩ hacq hr ho hx h1 h2 hrf)⟩
  | @trans i k j l m t n _ hlm _ ih ih' =>
    obtain ⟨d, d1, h1, h2, h3⟩ := ih
    obtain ⟨d2, d', g1, g2, g3⟩ := ih'
    refine ⟨d, d', h1, g2, ?_⟩
    rcases Nat.lt_or_eq_of_le hlm with hlt | rfl
    · have := hpo _ _ _ _ _ h2 g1 hlt; omega
    · obtain rfl : d1 = d2 := by simpa using h2.symm.trans g1
      omega

/-! ### Without multi-copy atomicity -/

/-- the objects -/
theorem DataRun.objs {P : Call → Prop} {g : Call → Nat} {N : Nat} (hloc : A.LocalOps P) (hacc : A.AccessesOK g) (hX : CohExec X rf)
    (hD : DataRun A P X N items) : ∀ t d, Item.op d ∈ items t → CSetup A X rf items d.call.width d.call.addr := by
  intro t d hd
  obtain ⟨_, _, hs, hal⟩ := hD.ops t d hd
  refine Backend.csetup hloc hacc hX hs hal hD.code (fun t' d' hd' => ?_) fun t' o x ho h1 h2 hw => hD.apart t' o t d x ho hd (.inr hw) ⟨h1, h2⟩
  obtain ⟨h1, h2, h3, h4⟩ := hD.ops t' d' hd'
  exact ⟨h1, h2, h3, h4, hD.objects t' d' t d hd' hd⟩

theorem DataRun.base {P : Call → Prop} {g : Call → Nat} {N : Nat} (hloc : A.LocalOps P) (hacc : A.AccessesOK g) (hX : CohExec X rf)
    (hD : DataRun A P X N items) : DBase A X rf items N P where
  po := hD.code
  point t d h := exists_point hloc (hD.ops t d h).1 (hD.ops t d h).2.1
  coh := hX
  nat' t d o hd ho ha := (hD.objs hloc hacc hX t d hd).nat t d o hd ho ha
  rdwr t d o x hd ho hw hx := (hD.objs hloc hacc hX t d hd).rdwr t d o x hd ho hw hx
  run := hD

/-- the end of both proofs -/
theorem DataRun.conclude {P : Call → Prop} {g : Call → Nat} {N : Nat} (hloc : A.LocalOps P) (hacc : A.AccessesOK g) (hpair : A.Paired)
    (hX : CohExec X rf) (hD : DataRun A P X N items) (hrace : RaceFree X rf items) {ht : Nat × Nat × Done W → Nat}
    (hpo : ∀ t k k' d d', (items t)[k]? = some (.op d) → (items t)[k']? = some (.op d') → k < k' → ht (t, k, d) < ht (t, k', d'))
    (hkey : ∀ t k d n o t' k' d' n' o', IsPt A.e items t k d n o → IsPt A.e items t' k' d' n' o' →
      d.call.On d'.call.width d'.call.addr → keyOf X rf d'.call.addr n o.ev < keyOf X rf d'.call.addr n' o'.ev →
      ht (t, k, d) < ht (t', k', d'))
    (hprec : ∀ a b oa ob, X.At a oa → X.At b ob → AccessBefore X rf items a b → X.Precedes rf a b) : Interleaved A.e X.m0 items := by
  have HP : Prog A X items := ⟨hD.code, fun t d h => exists_point hloc (hD.ops t d h).1 (hD.ops t d h).2.1⟩
  have objs := hD.objs hloc hacc hX
  obtain ⟨S, m, g1, g2, g3, _⟩ := HP.sequence objs hD.threads ht hpo hkey
  have HS : DSetup A X rf items N ht S P := {
    toDBase := hD.base hloc hacc hX
    race := hrace
    before := hpo
    hb := fun i k j l h => OpBefore.height HP objs hpair (fun t d h => (hD.ops t d h).1) hpo hkey h
    prec := hprec
    sort := g1
    seq := g2 }
  exact HS.conclude g3

/-- Operations that happen before each other synchronize. -/
theorem OpBefore.nsync (H : Prog A X items) (objs : ∀ t d, Item.op d ∈ items t → CSetup A X rf items d.call.width d.call.addr)
    {i k j l : Nat} (h : OpBefore X rf items i k j l) : NSync X rf items i k j l := by
  induction h with
  | direct hij hd hrel hd' hacq hon hw hr ho hx h1 h2 hrf =>
    obtain ⟨d0, o0, hp, hwr⟩ := H.isLast_wr hw
    obtain rfl := Item.op.inj (Option.some.inj (hp.item.symm.trans hd))
    have Hd := objs _ _ (List.mem_of_getElem? hd')
    have hW := (Hd.touch hp hon h1 h2).1 hwr
    exact .direct hd hrel (.own (Nat.le_refl _) hw ⟨hW.2.1, o0, hW.1, hW.2.2.2, rfl⟩) hd' hacq hr ho hx hrf (by rw [hp.pos.1]; exact hij)
  | trans _ hlm _ ih ih' => exact .trans ih hlm ih'

end

/-- C49 without multi-copy atomicity. -/
theorem Backend.raceFreeSCNonMCA {A : Backend W} {P : Call → Prop} {g : Call → Nat} (hloc : A.LocalOps P) (hord : A.OrderingsOK)
    (hpair : A.Paired) (hacc : A.AccessesOK g) (hb : A.BarriersOnly) (himp : A.imp.ww = false)
    (hbar : (∀ tr, A.SeqCstRun tr → (monOf tr).leads = true) ∨ ∀ tr, A.SeqCstRun tr → (monOf tr).trails = true)
    (hsc : ∀ c, P c → c.SeqCstOnly) : A.RaceFreeSCNonMCA P := by
  intro X rf N items hX hN hD hrace
  have objs := hD.objs hloc hacc hX.toCohExec
  have HP : Prog A X items := ⟨hD.code, fun t d h => exists_point hloc (hD.ops t d h).1 (hD.ops t d h).2.1⟩
  have sc : ∀ {t k : Nat} {d : Done W}, (items t)[k]? = some (.op d) → A.SeqCstRun (d.tr.map LEv.erase) := fun h =>
    Done.seqCst (hD.ops _ _ (List.mem_of_getElem? h)).1 (hsc _ (hD.ops _ _ (List.mem_of_getElem? h)).2.1)
  have HN : NSetup A X rf items := ⟨HP, hN, objs, fun hk h h' => HP.fenced (.of_seqCst hbar (sc h.item) (sc h'.item)) hk h h'⟩
  obtain ⟨ht, hpo, hkey⟩ := HN.places hD.threads
  have hsync := Backend.syncOnNonMCA hloc hord hpair hacc hb himp X rf items hX hD.code hD.ops
  refine hD.conclude hloc hacc hpair hX.toCohExec hrace hpo hkey ?_
  rintro ⟨i, p, kd⟩ ⟨j, q, kd'⟩ oa ob ha hb' ⟨k, l, h1, h2, h3⟩
  exact hsync i k j l (h1.nsync HP objs) p q kd kd' oa ob ha h2 hb' h3

/-! ### With a global memory order -/

section
variable {A : Backend W} {X : AxShape W} {rf : Node → Nat → Option Node} {items : Nat → List (Item W)}

/-- a read does not miss a write that comes before it -/
theorem AxShape.ReadsFrom.newest (hrf : X.ReadsFrom rf) {imp : Pairs} (ax : AxExec imp X) {n w : Node} {o : Own W} {x : Nat} {v : BitVec 8}
    (hn : X.Rd n o x) (hw : X.WritesByte w x v) (hv : X.Visible n w) : ∃ s, rf n x = some s ∧ X.rank w ≤ X.rank s := by
  rcases ax.value n o x hn.1 hn.2.1 hn.2.2.2 with ⟨s, h1, h2, h3⟩ | ⟨h1, _⟩
  · exact ⟨s, (hrf n o x s hn).2 ⟨⟨o, hn.1, hn.2.1, hn.2.2.2⟩, ⟨_, h2⟩, h1, h3⟩, h3 w v hv hw⟩
  · exact absurd hw (h1 w v hv)

/-- `rank` orders the operations on an object -/
theorem CSetup.rank_lt {w a : Nat} (H : CSetup A X rf items w a) (ax : AxExec A.imp X) (hrf : X.ReadsFrom rf)
    (order : ∀ t d d', Item.op d ∈ items t → Item.op d' ∈ items t → InOrder A.imp (d.tr.map LEv.erase) (d'.tr.map LEv.erase))
    {t k t' k' : Nat} {d d' : Done W} {n n' : Node} {o o' : Own W} (h : IsPt A.e items t k d n o) (h' : IsPt A.e items t' k' d' n' o')
    (hon : d.call.On w a) (hon' : d'.call.On w a) (hlt : keyOf X rf a n o.ev < keyOf X rf a n' o'.ev) : X.rank n < X.rank n' := by
  have hpos := H.size.pos
  have t1 := H.touch h hon (Nat.le_refl a) (by omega)
  have t2 := H.touch h' hon' (Nat.le_refl a) (by omega)
  -- a read comes after what it reads
  have src : ∀ {t k : Nat} {d : Done W} {n : Node} {o : Own W}, IsPt A.e items t k d n o → X.Rd n o a → ∀ s, rf n a = some s →
      X.rank s < X.rank n ∧ ∃ v, X.WritesByte s a v := by
    intro t k d n o h hR s hs
    obtain ⟨_, ⟨v, hv⟩, hvis, _⟩ := (hrf n o a s hR).1 hs
    refine ⟨?_, v, hv⟩
    rcases hvis with hlt | ⟨e1, e2⟩
    · exact hlt
    · obtain ⟨ks, ds, os, hps, _⟩ := H.write hv (Nat.le_refl a) (by omega)
      rw [e1, h.pos.1] at hps
      exact H.toProg.lt ax (order _ _ _ (List.mem_of_getElem? hps.item) (List.mem_of_getElem? h.item)) ((hps.eq_of_pos h).1 e2) hps h
  have older : ∀ {u : Node} {v : BitVec 8}, o.ev.isWrite = false → X.WritesByte u a v → X.rank u < X.rank n →
      2 * (X.rank u + 1) ≤ keyOf X rf a n o.ev := by
    intro u v hw hu hlt
    obtain ⟨s, hs, hle⟩ := hrf.newest ax (t1.2 hw) hu (.inl hlt)
    unfold keyOf
    rw [hw]
    simp only [hs]
    omega
  have ne : n ≠ n' → X.rank n ≠ X.rank n' := fun hne he => hne (ax.inj _ _ _ _ (H.isPt_at h) (H.isPt_at h') he)
  cases hw : o.ev.isWrite with
  | true =>
    have k1 : keyOf X rf a n o.ev = 2 * X.rank n + 1 := by unfold keyOf; rw [hw]
    cases hw' : o'.ev.isWrite with
    | true =>
      have k2 : keyOf X rf a n' o'.ev = 2 * X.rank n' + 1 := by unfold keyOf; rw [hw']
      omega
    | false =>
      cases hs : rf n' a with
      | none =>
        have k2 : keyOf X rf a n' o'.ev = 0 := by unfold keyOf; simp only [hw', hs]
        omega
      | some s =>
        have k2 : keyOf X rf a n' o'.ev = 2 * (X.rank s + 1) := by unfold keyOf; simp only [hw', hs]
        have := (src h' (t2.2 hw') s hs).1
        omega
  | false =>
    cases hw' : o'.ev.isWrite with
    | true =>
      have k2 : keyOf X rf a n' o'.ev = 2 * X.rank n' + 1 := by unfold keyOf; rw [hw']
      have hW := t2.1 hw'
      rcases Nat.lt_trichotomy (X.rank n) (X.rank n') with hl | hl | hl
      · exact hl
      · exact absurd hl (ne fun he => by have e1 := (t1.2 hw).2.1; have e2 := hW.2.1; rw [he, e2] at e1; cases e1)
      · have := older hw ⟨hW.2.1, o', hW.1, hW.2.2.2, rfl⟩ hl
        omega
    | false =>
      cases hs : rf n' a with
      | none =>
        have k2 : keyOf X rf a n' o'.ev = 0 := by unfold keyOf; simp only [hw', hs]
        omega
      | some s =>
        have k2 : keyOf X rf a n' o'.ev = 2 * (X.rank s + 1) := by unfold keyOf; simp only [hw', hs]
        obtain ⟨g1, v, g2⟩ := src h' (t2.2 hw') s hs
        refine Nat.lt_of_not_le fun hle => ?_
        have := older hw g2 (by omega)
        omega

theorem OpBefore.sync (H : Prog A X items) (objs : ∀ t d, Item.op d ∈ items t → CSetup A X rf items d.call.width d.call.addr)
    (hrf : X.ReadsFrom rf) (hpair : A.Paired) (hok : ∀ t d, Item.op d ∈ items t → d.OK A)
    {i k j l : Nat} (h : OpBefore X rf items i k j l) : Sync X items i k j l := by
  induction h with
  | @direct i k j l d d' w r o x hij hd hrel hd' hacq hon hw hr ho hx h1 h2 hrf' =>
    obtain ⟨d0, o0, hp, hwr⟩ := H.isLast_wr hw
    obtain rfl := Item.op.inj (Option.some.inj (hp.item.symm.trans hd))
    have hm := List.mem_of_getElem? hd'
    have Hd := objs _ _ hm
    have hW := (Hd.touch hp hon h1 h2).1 hwr
    have hnat : o.Natural := by
      obtain ⟨d1, q, g1, ⟨⟨ev, g2, g3⟩, _⟩, rfl⟩ := hr
      obtain rfl := Item.op.inj (Option.some.inj (g1.symm.trans hd'))
      rw [List.getElem?_map] at g2
      obtain ⟨lq, g5, rfl⟩ := Option.map_eq_some_iff.1 g2
      have := (H.at_pos hd' g5 g3).1.symm.trans ho.1
      simp only [Option.some.injEq] at this
      rw [← this]
      exact Hd.nat _ _ lq hm (List.mem_of_getElem? g5) (Ev.has_access g3)
    have hfrom := (hrf r o x w ⟨ho, hr.node.2.1, hnat, hx⟩).1 hrf'
    exact .direct hij hd hrel hw ⟨hW.2.1, o0, hW.1, hW.2.2.2, rfl⟩ hd' hacq hr hfrom (Nat.le_refl _) (.inl (by rw [hp.pos.1]; exact hij))
  | trans _ hlm _ ih ih' => exact .trans ih hlm ih'
end

/-- C49. -/
theorem Backend.raceFreeSC {A : Backend W} {P : Call → Prop} {g : Call → Nat} (hloc : A.LocalOps P) (hord : A.OrderingsOK)
    (hpair : A.Paired) (hacc : A.AccessesOK g) (hsc : ∀ c, P c → c.SeqCstOnly) : A.RaceFreeSC P := by
  intro X rf N items ax hfwd hX hrf hD hrace
  have objs := hD.objs hloc hacc hX
  have HP : Prog A X items := ⟨hD.code, fun t d h => exists_point hloc (hD.ops t d h).1 (hD.ops t d h).2.1⟩
  have order : ∀ t d d', Item.op d ∈ items t → Item.op d' ∈ items t → InOrder A.imp (d.tr.map LEv.erase) (d'.tr.map LEv.erase) :=
    fun t d d' h h' => hord.seqCst _ _ (Done.seqCst (hD.ops t d h).1 (hsc _ (hD.ops t d h).2.1)) (Done.seqCst (hD.ops t d' h').1 (hsc _ (hD.ops t d' h').2.1))
  have hex : ∀ e : Nat × Nat × Done W, ∃ r, ∀ n o, IsPt A.e items e.1 e.2.1 e.2.2 n o → r = X.rank n := by
    intro e
    by_cases h : ∃ n o, IsPt A.e items e.1 e.2.1 e.2.2 n o
    · obtain ⟨n, o, h⟩ := h
      exact ⟨_, fun n' o' h' => by obtain ⟨_, rfl, rfl⟩ := h.unique h'; rfl⟩
    · exact ⟨0, fun n o h' => absurd ⟨n, o, h'⟩ h⟩
  have hht : ∀ t k d n o, IsPt A.e items t k d n o → (hex (t, k, d)).choose = X.rank n := fun t k d n o h => (hex (t, k, d)).choose_spec n o h
  have hsync := Backend.synchronizes hloc hord hpair X items ax hfwd hD.code (fun t d h => ⟨(hD.ops t d h).1, (hD.ops t d h).2.1, (hD.ops t d h).2.2.1⟩)
  refine hD.conclude hloc hacc hpair hX hrace (ht := fun e => (hex e).choose) ?_ ?_ ?_
  · intro t k k' d d' h h' hk
    obtain ⟨n, o, hp⟩ := HP.exists_isPt h
    obtain ⟨n', o', hp'⟩ := HP.exists_isPt h'
    show (hex (t, k, d)).choose < (hex (t, k', d')).choose
    rw [hht _ _ _ _ _ hp, hht _ _ _ _ _ hp']
    exact HP.lt ax (order _ _ _ (List.mem_of_getElem? hp.item) (List.mem_of_getElem? hp'.item)) hk hp hp'
  · intro t k d n o t' k' d' n' o' hp hp' hon hlt
    show (hex (t, k, d)).choose < (hex (t', k', d')).choose
    rw [hht _ _ _ _ _ hp, hht _ _ _ _ _ hp']
    exact (objs t' d' (List.mem_of_getElem? hp'.item)).rank_lt ax hrf order hp hp' hon ⟨rfl, rfl⟩ hlt
  · rintro ⟨i, p, kd⟩ ⟨j, q, kd'⟩ oa ob ha hb ⟨k, l, h1, h2, h3⟩
    have hs := h1.sync HP objs hrf hpair fun t d h => (hD.ops t d h).1
    have lt : ∀ {p' : Nat} {kd1 : AKind} {o1 : Own W}, X.At ⟨i, p', kd1⟩ o1 → p' < off (items i) k → X.rank ⟨i, p', kd1⟩ < X.rank ⟨j, q, kd'⟩ :=
      fun h h' => (hsync i k j l hs _ q _ kd' _ ob h h' hb h3).1
    have hlt := lt ha h2
    simp only at h2 h3
    -- what an earlier access of thread `i` reads comes before
    have src : ∀ {w : Node} {oa : Own W} {x : Nat}, X.Rd ⟨i, p, kd⟩ oa x → rf ⟨i, p, kd⟩ x = some w →
        X.rank w < X.rank ⟨j, q, kd'⟩ ∧ ∃ v, X.WritesByte w x v := by
      intro w oa x hR hs
      obtain ⟨_, ⟨v, hv⟩, hvis, _⟩ := (hrf _ oa x w hR).1 hs
      refine ⟨?_, v, hv⟩
      rcases hvis with h | ⟨e1, e2⟩
      · omega
      · obtain ⟨wt, wp, wk⟩ := w
        obtain ⟨_, ow, how, _⟩ := hv
        simp only at e1 e2
        subst e1
        exact lt how (by omega)
    intro oa' ob' x
    refine ⟨fun _ _ => hlt, fun hw hr => ?_, fun w ow hr hs _ _ => (src hr hs).1, fun w ow hr hs _ hr' => ?_⟩
    · exact hrf.newest ax hr ⟨hw.2.1, oa', hw.1, hw.2.2.2, rfl⟩ (.inl hlt)
    · obtain ⟨g1, v, g2⟩ := src hr hs
      exact hrf.newest ax hr' g2 (.inl g1)

theorem Backend.RaceFreeSC.mono {A : Backend W} {P Q : Call → Prop} (h : A.RaceFreeSC Q) (hPQ : ∀ c, P c → Q c) : A.RaceFreeSC P :=
  fun X rf N items h1 h2 h3 h4 h5 => h X rf N items h1 h2 h3 h4
    ⟨h5.threads, h5.code, fun t d hd => ⟨(h5.ops t d hd).1, hPQ _ (h5.ops t d hd).2.1, (h5.ops t d hd).2.2⟩, h5.objects, h5.natural, h5.apart⟩
theorem Backend.RaceFreeSCNonMCA.mono {A : Backend W} {P Q : Call → Prop} (h : A.RaceFreeSCNonMCA Q) (hPQ : ∀ c, P c → Q c) : A.RaceFreeSCNonMCA P :=
  fun X rf N items h1 h2 h5 => h X rf N items h1 h2
    ⟨h5.threads, h5.code, fun t d hd => ⟨(h5.ops t d hd).1, hPQ _ (h5.ops t d hd).2.1, (h5.ops t d hd).2.2⟩, h5.objects, h5.natural, h5.apart⟩

/-- The forms used for the back ends. -/
theorem Good.raceFreeSC {A : Backend W} {sc : List Mon} (h : Good A sc) (h4 : A.CasAtomic) (hord : A.OrderingsOK) (hpair : A.Paired)
    {g : Call → Nat} (hacc : A.AccessesOK g) : A.RaceFreeSC Call.SeqCstOnly :=
  (Backend.raceFreeSC (P := fun c => c.SeqCstOnly ∧ True) (h.localOps fun s f w a old new B _ => h4 s f w a old new B) hord hpair hacc
    fun _ h => h.1).mono fun _ h => ⟨h, trivial⟩
theorem Good.raceFreeSCNonMCA {A : Backend W} {sc : List Mon} (h : Good A sc) (h4 : A.CasAtomic) (hord : A.OrderingsOK) (hpair : A.Paired)
    {g : Call → Nat} (hacc : A.AccessesOK g) (hb : A.BarriersOnly) (himp : A.imp.ww = false)
    (hbar : (∀ M ∈ sc, M.leads = true) ∨ ∀ M ∈ sc, M.trails = true) : A.RaceFreeSCNonMCA Call.SeqCstOnly :=
  (Backend.raceFreeSCNonMCA (P := fun c => c.SeqCstOnly ∧ True) (h.localOps fun s f w a old new B _ => h4 s f w a old new B) hord hpair hacc hb himp
    (hbar.imp h.leads h.trails) fun _ h => h.1).mono fun _ h => ⟨h, trivial⟩

end Verif
