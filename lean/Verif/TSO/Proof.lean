/-
SeqCst stores drain the buffer before the operation ends, so buffers are not observable.
-/
import Verif.TSO.Machine
import Verif.Lin.Proof

namespace Verif
variable {W : Nat}

/-- Every store is immediately followed by a barrier that waits for it. -/
def Drained (code : List (Instr W)) : Prop :=
  ∀ k acc addr w v, code[k]? = some (.st acc addr w v) → ∃ p, code[k + 1]? = some (.fence p) ∧ p.wr = true

/-- Thread `i` with its buffer, and the thread it corresponds to on the machine without buffers. -/
inductive ThSim : Thread W → List BStore → Thread W → Prop where
  | idle : ThSim .idle [] .idle
  | run (c : Call) (B : Block W c.width) (pc : Nat) (rs : RS W) (hd : Drained B.code) :
      ThSim (.run c B pc rs none) [] (.run c B pc rs none)
  | late (c : Call) (B : Block W c.width) (pc rs acc addr w v) (hd : Drained B.code)
      (hst : B.code[pc]? = some (.st acc addr w v)) :
      ThSim (.run c B (pc + 1) rs none) [⟨addr rs, w, v rs⟩] (.run c B pc rs none)

theorem ThSim.none {a b} {g : Thread W} (h : ThSim a b g) (m m' : Mem) : Disturbed m m' g g := by
  cases h with
  | idle => exact .idle
  | run => exact .run _ _ _ _ _ _ (.inl rfl)
  | late => exact .run _ _ _ _ _ _ (.inl rfl)

theorem tvis_append (a b : List TGEv) : TGEv.vis (a ++ b) = TGEv.vis a ++ TGEv.vis b := by
  induction a with
  | nil => rfl
  | cons x t ih => cases x <;> simp [TGEv.vis, ih]

theorem gvis_own (tr : List GEv) (i ev m m') : GEv.vis (tr ++ [.own i ev m m']) = GEv.vis tr := by
  rw [vis_append_g]; simp [GEv.vis]

theorem tso_sim {A : Backend W} {P : Call → Prop} (hdr : ∀ c B, P c → c.Valid → A.Runs c B → Drained B.code)
    {m0 : Mem} {tr : List TGEv} {t : TState W} (h : TRun A P m0 tr t) :
    ∃ gtr g, GRun A P ⟨m0, fun _ => .idle⟩ gtr g ∧ GEv.vis gtr = TGEv.vis tr ∧ g.mem = t.mem ∧
      ∀ i, ThSim (t.th i) (t.buf i) (g.th i) := by
  induction h with
  | nil => exact ⟨[], _, .nil, rfl, rfl, fun _ => .idle⟩
  | snoc h hs ih =>
    rename_i tr t ev t'
    obtain ⟨gtr, g, hg, hv, hm, hth⟩ := ih
    cases hs with
    | inv i c B rs hidle hp hval hB hpre =>
      have hi := hth i
      rw [hidle] at hi
      generalize hb : t.buf i = b at hi
      generalize hgi : g.th i = x at hi
      cases hi
      refine ⟨_, _, hg.snoc (.inv g i c B rs none hgi hp hval hB hpre), ?_, hm, ?_⟩
      · rw [vis_append_g, tvis_append, hv]; rfl
      · intro j
        by_cases hj : j = i
        · subst hj; simp only [upd, if_true]; rw [hb]; exact .run c B 0 rs (hdr c B hp hval hB)
        · simp only [upd, if_neg hj]; exact hth j
    | ret i c B rs hrun =>
      have hi := hth i
      rw [hrun] at hi
      generalize hb : t.buf i = b at hi
      generalize hgi : g.th i = x at hi
      generalize hpc : B.code.length = n at hi
      cases hi with
      | run _ _ _ _ hd =>
        subst hpc
        refine ⟨_, _, hg.snoc (.ret g i c B rs none hgi), ?_, hm, ?_⟩
        · rw [vis_append_g, tvis_append, hv]; rfl
        · intro j
          by_cases hj : j = i
          · subst hj; simp only [upd, if_true]; rw [hb]; exact .idle
          · simp only [upd, if_neg hj]; exact hth j
      | late _ _ pc _ acc addr w v hd hst =>
        obtain ⟨p, hp, _⟩ := hd _ _ _ _ _ hst
        rw [List.getElem?_eq_none (by omega)] at hp
        cases hp
    | ext m' =>
      refine ⟨_, _, hg.snoc (.ext g m' g.th fun j => (hth j).none _ _), ?_, rfl, hth⟩
      rw [vis_append_g, tvis_append, hv]; simp [GEv.vis, TGEv.vis, hm]
    | flush i s b hbuf =>
      have hi := hth i
      rw [hbuf] at hi
      generalize hti : t.th i = y at hi
      generalize hgi : g.th i = x at hi
      cases hi with
      | late c B pc rs acc addr w v hd hst =>
        refine ⟨_, _, hg.snoc (.own g i c B pc rs none _ _ _ (upd g.th i (.run c B (pc + 1) rs none)) hgi hst
          (.st acc addr w v ⟨pc, rs, g.mem, none⟩) (by simp [upd]) ?_), ?_, ?_, ?_⟩
        · intro j hj; simp only [upd, if_neg hj]; exact (hth j).none _ _
        · rw [gvis_own, tvis_append, hv]; simp [TGEv.vis]
        · simp [hm]
        · intro j
          by_cases hj : j = i
          · subst hj; simp only [upd, if_true]; rw [hti]; exact .run c B _ rs hd
          · simp only [upd, if_neg hj]; exact hth j
    | own i c B pc rs ins pc' rs' m' b' hrun hins hstep =>
      have hi := hth i
      rw [hrun] at hi
      generalize hb : t.buf i = b at hi hstep
      generalize hgi : g.th i = x at hi
      cases hi with
      | late _ _ pc0 _ acc addr w v hd hst =>
        -- the next instruction is the barrier, which waits
        obtain ⟨p, hp, hw⟩ := hd _ _ _ _ _ hst
        rw [hp] at hins
        injection hins with hins
        subst hins
        cases hstep with
        | fence _ _ _ _ _ h => cases h hw
      | run _ _ _ _ hd =>
        have hdist : ∀ j, j ≠ i → ∀ x, Disturbed g.mem m' (g.th j) (upd g.th i x j) := by
          intro j hj x; simp only [upd, if_neg hj]; exact (hth j).none _ _
        have hrest : ∀ (x : Thread W) b', ThSim (.run c B pc' rs' none) b' x → ∀ j,
            ThSim (upd t.th i (.run c B pc' rs' none) j) (upd t.buf i b' j) (upd g.th i x j) := by
          intro x b' hx j
          by_cases hj : j = i
          · subst hj; simp only [upd, if_true]; exact hx
          · simp only [upd, if_neg hj]; exact hth j
        have keyStep : ∀ ev c', Step A.e ins ⟨pc, rs, g.mem, none⟩ ev c' → c' = ⟨pc', rs', m', none⟩ → b' = [] →
            ∃ gtr' g', GRun A P ⟨m0, fun _ => .idle⟩ gtr' g' ∧ GEv.vis gtr' = TGEv.vis (tr ++ [.own i]) ∧
              g'.mem = m' ∧ ∀ j, ThSim (upd t.th i (.run c B pc' rs' none) j) (upd t.buf i b' j) (g'.th j) := by
          rintro ev c' hst rfl rfl
          refine ⟨_, _, hg.snoc (.own g i c B pc rs none ins ev _ (upd g.th i (.run c B pc' rs' none)) hgi hins hst
            (by simp [upd]) fun j hj => hdist j hj _), ?_, rfl, hrest _ _ (.run c B pc' rs' hd)⟩
          rw [gvis_own, tvis_append, hv]; simp [TGEv.vis]
        cases hstep with
        | op f _ _ _ _ o => exact keyStep _ _ (.op f _ o) (by simp [hm]) rfl
        | br cond tg _ _ _ _ => exact keyStep _ _ (.br cond tg _) (by simp [hm]) rfl
        | fence p _ _ _ _ h => exact keyStep _ _ (.fence p _) (by simp [hm]) rfl
        | ld acc addr w k _ _ _ _ => exact keyStep _ _ (.ld acc addr w k _) (by simp [hm, BStore.over]) rfl
        | rmwNo acc addr w f k _ _ _ h =>
          exact keyStep _ _ (.rmwNo acc addr w f k _ (by simpa [hm] using h)) (by simp [hm]) rfl
        | rmwYes acc addr w f k _ _ _ y h =>
          exact keyStep _ _ (.rmwYes acc addr w f k _ y (by simpa [hm] using h)) (by simp [hm]) rfl
        | st acc addr w v _ _ _ _ =>
          refine ⟨gtr, g, hg, ?_, hm, ?_⟩
          · rw [tvis_append, hv]; simp [TGEv.vis]
          · intro j
            by_cases hj : j = i
            · subst hj; simp only [upd, if_true]; rw [hgi]; exact .late c B pc _ acc addr w v hd hins
            · simp only [upd, if_neg hj]; exact hth j

theorem Backend.scOnTSO {A : Backend W} {P : Call → Prop}
    (hdr : ∀ c B, P c → c.Valid → A.Runs c B → Drained B.code) (hl : A.Linearizable P) : A.SCOnTSO P := by
  intro m0 tr t h
  obtain ⟨gtr, g, hg, hv, hm, hth⟩ := tso_sim hdr h
  obtain ⟨str, s, h1, h2, h3, h4⟩ := hl m0 gtr g hg
  refine ⟨str, s, h1, h2.trans hv, h3.trans hm, fun i hi => ?_⟩
  have := hth i
  rw [hi] at this
  generalize t.buf i = b at this ⊢
  generalize hgi : g.th i = x at this
  cases this
  exact ⟨h4 i hgi, rfl⟩

end Verif
