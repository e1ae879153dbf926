/-
Runs in which one operation is called after the other has returned: the answers are those of the sequence. Used to show
concrete runs.
-/
import Verif.Lin.SC
import Verif.Lin.Complete
import Verif.Lin.Weaken

namespace Verif

/-- One operation after the other. -/
def serial : List (Nat × Call × Ret) → List VEv
  | [] => []
  | (i, c, r) :: t => .h (.inv i c) :: .h (.ret i c r) :: serial t

theorem serial_append (s t : List (Nat × Call × Ret)) : serial (s ++ t) = serial s ++ serial t := by
  induction s with
  | nil => rfl
  | cons x s ih => obtain ⟨i, c, r⟩ := x; simp [serial, ih]

theorem svis_append (s t : List SEv) : SEv.vis (s ++ t) = SEv.vis s ++ SEv.vis t := by
  induction s with
  | nil => rfl
  | cons x s ih => cases x <;> simp [SEv.vis, ih]
theorem spts_append (s t : List SEv) : SEv.pts (s ++ t) = SEv.pts s ++ SEv.pts t := by
  induction s with
  | nil => rfl
  | cons x s ih => cases x <;> simp [SEv.pts, ih]

/-- `serial` ends with an answer. -/
theorem serial_snoc_inv {ops : List (Nat × Call × Ret)} {v : List VEv} {i : Nat} {c : Call}
    (h : v ++ [.h (.inv i c)] = serial ops) : False := by
  rcases List.eq_nil_or_concat ops with rfl | ⟨ops', ⟨j, d, r⟩, rfl⟩
  · simp [serial] at h
  · rw [List.concat_eq_append, serial_append] at h
    simp only [serial] at h
    rw [← List.singleton_append (l := [VEv.h (.ret j d r)]), ← List.append_assoc] at h
    have := (List.append_inj' h rfl).2
    simp at this
theorem serial_snoc_ret {ops : List (Nat × Call × Ret)} {v : List VEv} {i : Nat} {c : Call} {r : Ret}
    (h : v ++ [.h (.ret i c r)] = serial ops) : ∃ ops', ops = ops' ++ [(i, c, r)] ∧ v = serial ops' ++ [.h (.inv i c)] := by
  rcases List.eq_nil_or_concat ops with rfl | ⟨ops', ⟨j, d, q⟩, rfl⟩
  · simp [serial] at h
  · rw [List.concat_eq_append, serial_append] at h
    simp only [serial] at h
    rw [← List.singleton_append (l := [VEv.h (.ret j d q)]), ← List.append_assoc] at h
    obtain ⟨h1, h2⟩ := List.append_inj' h rfl
    simp only [List.cons.injEq, VEv.h.injEq, HEv.ret.injEq, and_true] at h2
    obtain ⟨rfl, rfl, rfl⟩ := h2
    exact ⟨ops', by simp, h1⟩
theorem serial_snoc_ext {ops : List (Nat × Call × Ret)} {v : List VEv} {m m' : Mem} (h : v ++ [.ext m m'] = serial ops) :
    False := by
  have : VEv.ext m m' ∈ serial ops := by rw [← h]; simp
  clear h
  induction ops with
  | nil => simp [serial] at this
  | cons x t ih => obtain ⟨i, c, r⟩ := x; simp [serial] at this; exact ih this

theorem SRun.serial {e : Endian} {m0 : Mem} {str : List SEv} {s : SState} (h : SRun e ⟨m0, fun _ => .idle⟩ str s) :
    (∀ ops, SEv.vis str = Verif.serial ops → SEv.pts str = ops ∧ ∀ i, s.th i = .idle) ∧
    ∀ ops i c, SEv.vis str = Verif.serial ops ++ [.h (.inv i c)] → (∀ j, j ≠ i → s.th j = .idle) ∧
      ((s.th i = .pending c ∧ SEv.pts str = ops) ∨ ∃ r, s.th i = .done c r ∧ SEv.pts str = ops ++ [(i, c, r)]) := by
  induction h with
  | nil =>
    refine ⟨fun ops ho => ?_, fun ops i c ho => by simp [SEv.vis] at ho⟩
    cases ops with
    | nil => exact ⟨rfl, fun _ => rfl⟩
    | cons x t => obtain ⟨i, c, r⟩ := x; simp [SEv.vis, Verif.serial] at ho
  | snoc h hs ih =>
    rename_i tr s ev s'
    obtain ⟨i1, i2⟩ := ih
    rw [svis_append, spts_append]
    cases hs with
    | ext m' =>
      refine ⟨fun ops ho => (serial_snoc_ext ho).elim, fun ops i c ho => ?_⟩
      have := (List.append_inj' ho rfl).2
      simp [SEv.vis] at this
    | inv i c hth =>
      refine ⟨fun ops ho => (serial_snoc_inv ho).elim, fun ops j d ho => ?_⟩
      obtain ⟨h1, h2⟩ := List.append_inj' ho rfl
      simp only [SEv.vis, List.cons.injEq, VEv.h.injEq, HEv.inv.injEq, and_true] at h2
      obtain ⟨rfl, rfl⟩ := h2
      obtain ⟨h3, h4⟩ := i1 ops h1
      refine ⟨fun j hj => by simp [upd, hj, h4], .inl ⟨by simp [upd], by simp [SEv.pts, h3]⟩⟩
    | ret i c r hth =>
      refine ⟨fun ops ho => ?_, fun ops j d ho => ?_⟩
      · obtain ⟨ops', rfl, h1⟩ := serial_snoc_ret ho
        obtain ⟨h2, h3⟩ := i2 _ _ _ h1
        rcases h3 with ⟨h3, _⟩ | ⟨r', h3, h4⟩
        · rw [hth] at h3; cases h3
        · rw [hth] at h3; cases h3
          refine ⟨by simp [SEv.pts, h4], fun j => ?_⟩
          by_cases hj : j = i
          · simp [upd, hj]
          · simp [upd, hj, h2 j hj]
      · have := (List.append_inj' ho rfl).2
        simp [SEv.vis] at this
    | pt i c r m' hth hsem =>
      simp only [SEv.vis, List.append_nil]
      refine ⟨fun ops ho => ?_, fun ops j d ho => ?_⟩
      · rw [(i1 ops ho).2 i] at hth; cases hth
      · obtain ⟨h2, h3⟩ := i2 _ _ _ ho
        by_cases hj : i = j
        · subst hj
          rcases h3 with ⟨h3, h4⟩ | ⟨r', h3, _⟩
          · rw [hth] at h3; cases h3
            refine ⟨fun j hj => by simp [upd, hj, h2 j hj], .inr ⟨r, by simp [upd], by simp [SEv.pts, h4]⟩⟩
          · rw [hth] at h3; cases h3
        · rw [h2 i hj] at hth; cases hth

variable {W : Nat}

/-- In a linearizable back end, a run that performs `ops` one after the other gives the answers of the sequence. -/
theorem Backend.Linearizable.serial {A : Backend W} {P : Call → Prop} (hl : A.Linearizable P) {m0 : Mem} {tr : List GEv}
    {g : GState W} (hr : GRun A P ⟨m0, fun _ => .idle⟩ tr g) {ops : List (Nat × Call × Ret)}
    (hv : GEv.vis tr = Verif.serial ops) : Legal A.e m0 ops g.mem := by
  obtain ⟨str, s, h1, h2, h3, _⟩ := hl m0 tr g hr
  rw [hv] at h2
  have h4 := (h1.serial.1 ops h2).1
  rw [← h3, ← h4]
  refine h1.legal fun m m' hm => ?_
  have := ext_vis hm
  rw [h2] at this
  clear h2 h4 hv
  induction ops with
  | nil => simp [Verif.serial] at this
  | cons x t ih => obtain ⟨i, c, r⟩ := x; simp [Verif.serial] at this; exact ih this

/-- A run that performs operations one after the other can be extended by another one. -/
theorem Backend.serial_snoc {A : Backend W} {P : Call → Prop} (h6 : A.ProgressOK) {m0 : Mem} {tr : List GEv}
    {g : GState W} (hr : GRun A P ⟨m0, fun _ => .idle⟩ tr g) {ops : List (Nat × Call × Ret)}
    (hv : GEv.vis tr = Verif.serial ops) (hidle : ∀ j, g.th j = .idle) (i : Nat) (c : Call)
    (hp : P c) (hc : c.Valid) (B : Block W c.width) (hB : A.Runs c B) {rs : RS W} (hpre : B.pre rs) :
    ∃ tr' g' r, GRun A P ⟨m0, fun _ => .idle⟩ tr' g' ∧ GEv.vis tr' = Verif.serial (ops ++ [(i, c, r)]) ∧
      ∀ j, g'.th j = .idle := by
  have h1 := hr.snoc (.inv g i c B rs none (hidle i) hp hc hB hpre)
  obtain ⟨tr', g', res, h2, h3, h5, h4⟩ := Backend.nonBlocking P h6 m0 _ _ h1 i c B 0 rs none (by simp [upd])
  refine ⟨_, g', res, h2, ?_, fun j => ?_⟩
  · have : GEv.vis tr' = [] := by
      clear h2
      induction tr' with
      | nil => rfl
      | cons x t ih =>
        obtain ⟨y, m, m', rfl⟩ := h5 x (by simp)
        exact ih fun ev hev => h5 ev (by simp [hev])
    rw [vis_append_g, vis_append_g, vis_append_g, hv, this, serial_append]
    simp [GEv.vis, Verif.serial]
  · by_cases hj : j = i
    · rw [hj]; exact h3
    · exact h4 j hj (by simp [upd, hj, hidle])

/-- A run of a back end is one of another back end that has the same code for these calls. -/
theorem GRun.sameCode {A A' : Backend W} {P P' : Call → Prop} {g0 : GState W} {tr : List GEv} {g : GState W} (he : A'.e = A.e)
    (hR : ∀ c (B : Block W c.width), P c → A.Runs c B → P' c ∧ A'.Runs c B) (h : GRun A P g0 tr g) : GRun A' P' g0 tr g := by
  induction h with
  | nil => exact .nil
  | snoc h hs ih =>
    refine ih.snoc ?_
    cases hs with
    | inv i c B rs r hidle hp hv hB hpre => exact .inv _ i c B rs r hidle (hR c B hp hB).1 hv (hR c B hp hB).2 hpre
    | own i c B pc rs r ins ev c' th' hrun hi hs hth hd =>
      exact .own _ i c B pc rs r ins ev c' th' hrun hi (by rw [he]; exact hs) hth hd
    | ret i c B rs r hrun => exact .ret _ i c B rs r hrun
    | ext m' th' hd => exact .ext _ m' th' hd

end Verif
