/-
Sequential consistency and linearizability in their textbook form: one sequence of operations.
-/
import Verif.Lin.Conserve

namespace Verif

/-- The operations, executed one after the other from memory `m`, give these answers and end in memory `m'`. -/
def Legal (e : Endian) : Mem → List (Nat × Call × Ret) → Mem → Prop
  | m, [], m' => m = m'
  | m, (_, c, r) :: t, m' => ∃ m1, c.Sem e m m1 r ∧ Legal e m1 t m'

/-- The part of a list that belongs to thread `i`. -/
def ofThread {α : Type} (i : Nat) (l : List (Nat × α)) : List (Nat × α) := l.filter fun x => x.1 == i

/-- Lamport's sequential consistency: the answers in the visible history `v` are those of a sequential execution
in which each thread's operations occur in the order in which the thread got the answers. -/
def SeqConsistent (e : Endian) (m0 : Mem) (v : List VEv) (m : Mem) : Prop :=
  ∃ seq, Legal e m0 seq m ∧ ∀ i, ofThread i seq = ofThread i (VEv.rets v)

/-- Herlihy and Wing's linearizability: moreover, whenever the history is cut in two, the sequence can be cut
in two such that the first part contains everything answered before the cut, and nothing called after it. -/
def HWLinearizable (e : Endian) (m0 : Mem) (v : List VEv) (m : Mem) : Prop :=
  ∃ seq, Legal e m0 seq m ∧ (∀ i, ofThread i seq = ofThread i (VEv.rets v)) ∧
    ∀ v1 v2, v = v1 ++ v2 → ∃ s1 s2, seq = s1 ++ s2 ∧
      ∀ i, ofThread i (VEv.rets v1) <+: ofThread i s1 ∧
        (ofThread i s1).map (fun x => (x.1, x.2.1)) <+: ofThread i (VEv.invs v1)

theorem Legal.snoc {e : Endian} {m m1 m2 : Mem} {l : List (Nat × Call × Ret)} {i c r} (h : Legal e m l m1)
    (hs : c.Sem e m1 m2 r) : Legal e m (l ++ [(i, c, r)]) m2 := by
  induction l generalizing m with
  | nil => have h : m = m1 := h; subst h; exact ⟨m2, hs, rfl⟩
  | cons x t ih => obtain ⟨m3, h1, h2⟩ := h; exact ⟨m3, h1, ih h2⟩

theorem ofThread_append {α : Type} (i : Nat) (a b : List (Nat × α)) :
    ofThread i (a ++ b) = ofThread i a ++ ofThread i b := by simp [ofThread]
theorem ofThread_one {α : Type} (i j : Nat) (x : α) :
    ofThread i [(j, x)] = if j = i then [(j, x)] else [] := by
  simp only [ofThread, List.filter_cons, List.filter_nil]
  by_cases h : j = i <;> simp [h]

/-- what thread `i` has done but not returned -/
def doneOf (i : Nat) : SThread → List (Nat × Call × Ret)
  | .done c r => [(i, c, r)]
  | _ => []
/-- what thread `i` has called but not done -/
def pendOf (i : Nat) : SThread → List (Nat × Call)
  | .pending c => [(i, c)]
  | _ => []

theorem SRun.order {e : Endian} {m0 : Mem} {str : List SEv} {s : SState}
    (h : SRun e ⟨m0, fun _ => .idle⟩ str s) :
    ∀ i, ofThread i (SEv.pts str) = ofThread i (VEv.rets (SEv.vis str)) ++ doneOf i (s.th i) ∧
      ofThread i (VEv.invs (SEv.vis str)) =
        (ofThread i (SEv.pts str)).map (fun x => (x.1, x.2.1)) ++ pendOf i (s.th i) := by
  induction h with
  | nil => intro i; simp [SEv.pts, SEv.vis, VEv.rets, VEv.invs, ofThread, doneOf, pendOf]
  | snoc h hs ih =>
    rename_i tr s ev s'
    intro i
    obtain ⟨h1, h2⟩ := ih i
    cases hs with
    | inv j c hidle =>
      simp only [pts_append, vis_append_s, rets_append, invs_append, ofThread_append, SEv.pts, SEv.vis, VEv.rets,
        VEv.invs, ofThread_one, h1, h2, upd]
      by_cases hj : j = i
      · subst hj; simp [hidle, doneOf, pendOf, ofThread]
      · have : i ≠ j := fun h => hj h.symm
        simp [hj, this, ofThread]
    | pt j c r m' hp hsem =>
      simp only [pts_append, vis_append_s, rets_append, invs_append, ofThread_append, SEv.pts, SEv.vis, VEv.rets,
        VEv.invs, ofThread_one, h1, h2, upd]
      by_cases hj : j = i
      · subst hj; simp [hp, doneOf, pendOf, ofThread]
      · have : i ≠ j := fun h => hj h.symm
        simp [hj, this, ofThread]
    | ret j c r hd =>
      simp only [pts_append, vis_append_s, rets_append, invs_append, ofThread_append, SEv.pts, SEv.vis, VEv.rets,
        VEv.invs, ofThread_one, h1, h2, upd]
      by_cases hj : j = i
      · subst hj; simp [hd, doneOf, pendOf, ofThread]
      · have : i ≠ j := fun h => hj h.symm
        simp [hj, this, ofThread]
    | ext m' =>
      simp only [pts_append, vis_append_s, rets_append, invs_append, ofThread_append, SEv.pts, SEv.vis, VEv.rets,
        VEv.invs, h1, h2]
      simp [ofThread]

theorem SRun.legal {e : Endian} {s0 s : SState} {str : List SEv} (h : SRun e s0 str s)
    (hext : ∀ m m', SEv.ext m m' ∉ str) : Legal e s0.mem (SEv.pts str) s.mem := by
  induction h with
  | nil => rfl
  | snoc h hs ih =>
    rename_i tr s ev s'
    have ih := ih fun m m' hm => hext m m' (List.mem_append.2 (.inl hm))
    rw [pts_append]
    cases hs with
    | inv => simpa [SEv.pts] using ih
    | ret => simpa [SEv.pts] using ih
    | pt j c r m' hp hsem => exact ih.snoc hsem
    | ext m' => exact absurd (List.mem_append.2 (.inr (List.mem_singleton.2 rfl))) (hext _ _)

theorem SRun.prefix {e : Endian} {s0 s : SState} {str : List SEv} (h : SRun e s0 str s) :
    ∀ l1 l2, str = l1 ++ l2 → ∃ s1, SRun e s0 l1 s1 := by
  induction h with
  | nil => intro l1 l2 hl; simp at hl; rw [hl.1]; exact ⟨_, .nil⟩
  | snoc h hs ih =>
    intro l1 l2 hl
    rcases List.eq_nil_or_concat l2 with rfl | ⟨l, x, rfl⟩
    · rw [List.append_nil] at hl; subst hl; exact ⟨_, h.snoc hs⟩
    · rw [List.concat_eq_append, ← List.append_assoc] at hl
      exact ih l1 l (List.append_inj' hl rfl).1

/-- a cut of the visible history comes from a cut of the run -/
theorem svis_split : ∀ (str : List SEv) (v1 v2 : List VEv), SEv.vis str = v1 ++ v2 →
    ∃ l1 l2, str = l1 ++ l2 ∧ SEv.vis l1 = v1 ∧ SEv.vis l2 = v2 := by
  intro str
  induction str with
  | nil =>
    intro v1 v2 h
    simp [SEv.vis] at h
    exact ⟨[], [], rfl, by simp [SEv.vis, h.1], by simp [SEv.vis, h.2]⟩
  | cons x t ih =>
    intro v1 v2 h
    have vis : ∀ y, SEv.vis (x :: t) = y :: SEv.vis t → (SEv.vis [x] = [y]) → 
        ∃ l1 l2, x :: t = l1 ++ l2 ∧ SEv.vis l1 = v1 ∧ SEv.vis l2 = v2 := by
      intro y hy hx
      rw [hy] at h
      cases v1 with
      | nil => exact ⟨[], x :: t, rfl, rfl, by rw [hy]; simpa using h⟩
      | cons z v1 =>
        simp only [List.cons_append, List.cons.injEq] at h
        obtain ⟨l1, l2, h1, h2, h3⟩ := ih v1 v2 h.2
        refine ⟨x :: l1, l2, by rw [h1]; rfl, ?_, h3⟩
        rw [← List.singleton_append, vis_append_s, hx, h2, h.1]; rfl
    cases x with
    | h y => exact vis _ rfl rfl
    | ext m m' => exact vis _ rfl rfl
    | pt i c r =>
      obtain ⟨l1, l2, h1, h2, h3⟩ := ih v1 v2 h
      exact ⟨.pt i c r :: l1, l2, by rw [h1]; rfl, h2, h3⟩

/-- A finished run of the canonical object, without memory changes from outside, is linearizable in the textbook
sense. -/
theorem SRun.hw {e : Endian} {m0 : Mem} {str : List SEv} {s : SState}
    (h : SRun e ⟨m0, fun _ => .idle⟩ str s) (hq : ∀ i, s.th i = .idle)
    (hext : ∀ m m', VEv.ext m m' ∉ SEv.vis str) : HWLinearizable e m0 (SEv.vis str) s.mem := by
  refine ⟨SEv.pts str, h.legal fun m m' hm => hext m m' (ext_vis hm), ?_, ?_⟩
  · intro i
    have := (h.order i).1
    rw [hq] at this
    simpa [doneOf] using this
  · intro v1 v2 hv
    obtain ⟨l1, l2, rfl, h1, h2⟩ := svis_split str v1 v2 hv
    obtain ⟨s1, hs1⟩ := h.prefix l1 l2 rfl
    refine ⟨SEv.pts l1, SEv.pts l2, pts_append _ _, fun i => ?_⟩
    obtain ⟨g1, g2⟩ := hs1.order i
    rw [h1] at g1 g2
    exact ⟨⟨_, g1.symm⟩, ⟨_, g2.symm⟩⟩

theorem HWLinearizable.sc {e : Endian} {m0 : Mem} {v : List VEv} {m : Mem} (h : HWLinearizable e m0 v m) :
    SeqConsistent e m0 v m := by
  obtain ⟨seq, h1, h2, _⟩ := h
  exact ⟨seq, h1, h2⟩

/-- C21 in the textbook form, for finished runs without memory changes from outside. -/
def Backend.Herlihy {W : Nat} (A : Backend W) (P : Call → Prop) : Prop :=
  ∀ (m0 : Mem) (tr : List GEv) (g : GState W), GRun A P ⟨m0, fun _ => .idle⟩ tr g → (∀ i, g.th i = .idle) →
    (∀ m m', GEv.ext m m' ∉ tr) → HWLinearizable A.e m0 (GEv.vis tr) g.mem

theorem gext_vis {m m' : Mem} {tr : List GEv} (h : VEv.ext m m' ∈ GEv.vis tr) : GEv.ext m m' ∈ tr := by
  induction tr with
  | nil => simp [GEv.vis] at h
  | cons x t ih =>
    cases x with
    | h y => simp [GEv.vis] at h; exact List.mem_cons_of_mem _ (ih h)
    | own => simp [GEv.vis] at h; exact List.mem_cons_of_mem _ (ih h)
    | ext a b =>
      simp [GEv.vis] at h
      rcases h with ⟨rfl, rfl⟩ | h
      · exact List.mem_cons_self
      · exact List.mem_cons_of_mem _ (ih h)

theorem Backend.Linearizable.herlihy {W : Nat} {A : Backend W} {P : Call → Prop} (h : A.Linearizable P) :
    A.Herlihy P := by
  intro m0 tr g hr hq hext
  obtain ⟨str, s, h1, h2, h3, h4⟩ := h m0 tr g hr
  rw [← h2, ← h3]
  exact h1.hw (fun i => h4 i (hq i)) fun m m' hm => hext m m' (gext_vis (h2 ▸ hm))

end Verif
