/-
Runs of the machine of Verif/Lin/Machine.lean exist: a thread that is scheduled alone finishes.
-/
import Verif.Lin.Proof

namespace Verif

variable {W : Nat}

/-- A configuration that no thread's reservation survives (always a possible disturbance). -/
def dropResv : Thread W → Thread W
  | .idle => .idle
  | .run c B pc rs _ => .run c B pc rs none

theorem disturbed_drop (m m' : Mem) (th : Thread W) : Disturbed m m' th (dropResv th) := by
  cases th with
  | idle => exact .idle
  | run c B pc rs r => exact .run c B pc rs r none (by simp [EnvResv])

/-- `n` more steps of thread `i` alone finish its operation. -/
theorem finish_alone {A : Backend W} {P : Call → Prop} {g0 : GState W} (i : Nat) {c : Call}
    {B : Block W c.width} (n : Nat) : ∀ (tr : List GEv) (g : GState W) (pc rs r),
    GRun A P g0 tr g → g.th i = .run c B pc rs r → Finishes A.e B.code n ⟨pc, rs, g.mem, r⟩ →
    ∃ tr' g' res, GRun A P g0 (tr ++ tr' ++ [.h (.ret i c res)]) g' ∧ g'.th i = .idle ∧
      (∀ ev ∈ tr', ∃ x m m', ev = .own i x m m') ∧ ∀ j, j ≠ i → g.th j = .idle → g'.th j = .idle := by
  have fin : ∀ (tr : List GEv) (g : GState W) (rs r), GRun A P g0 tr g →
      g.th i = .run c B B.code.length rs r →
      ∃ tr' g' res, GRun A P g0 (tr ++ tr' ++ [.h (.ret i c res)]) g' ∧ g'.th i = .idle ∧
        (∀ ev ∈ tr', ∃ x m m', ev = .own i x m m') ∧ ∀ j, j ≠ i → g.th j = .idle → g'.th j = .idle := by
    intro tr g rs r hr hth
    refine ⟨[], { g with th := upd g.th i .idle }, c.result B rs, ?_, ?_, by simp, ?_⟩
    · rw [List.append_nil]; exact hr.snoc (.ret g i c B rs r hth)
    · simp [upd]
    · intro j hj h; simp [upd, hj, h]
  induction n with
  | zero =>
    intro tr g pc rs r hr hth hf
    have : pc = B.code.length := hf
    subst this
    exact fin tr g rs r hr hth
  | succ n ih =>
    intro tr g pc rs r hr hth hf
    rcases hf with hf | ⟨ins, hi, ⟨c', hq⟩, h3⟩
    · have : pc = B.code.length := hf
      subst this
      exact fin tr g rs r hr hth
    · have hq' := hq
      obtain ⟨ev, hs, _⟩ := hq
      have hstep : GStep A P g (.own i ev g.mem c'.mem)
          ⟨c'.mem, fun j => if j = i then .run c B c'.pc c'.rs c'.resv else dropResv (g.th j)⟩ := by
        refine .own g i c B pc rs r ins ev c' _ hth hi hs (by simp) ?_
        intro j hj
        simp only [if_neg hj]
        exact disturbed_drop _ _ _
      obtain ⟨tr', g', res, h1, h2, h4, h5⟩ := ih (tr ++ [.own i ev g.mem c'.mem]) _ c'.pc c'.rs c'.resv
        (hr.snoc hstep) (by simp) (h3 c' hq')
      refine ⟨.own i ev g.mem c'.mem :: tr', g', res, ?_, h2, ?_,
        fun j hj h => h5 j hj (by simp [hj, h, dropResv])⟩
      · simpa using h1
      · intro x hx
        rcases List.mem_cons.1 hx with rfl | hx
        · exact ⟨_, _, _, rfl⟩
        · exact h4 x hx

/-- Local runs of all threads, for every reachable state. -/
theorem local_runs {A : Backend W} {P : Call → Prop} {m0 : Mem} {tr : List GEv} {g : GState W}
    (h : GRun A P ⟨m0, fun _ => .idle⟩ tr g) : ∀ i c B pc rs r, g.th i = .run c B pc rs r →
      A.Runs c B ∧ ∃ t c0, c0.pc = 0 ∧ B.pre c0.rs ∧ Run A.e B.code c0 t ⟨pc, rs, g.mem, r⟩ := by
  induction h with
  | nil => intro i c B pc rs r h; cases h
  | snoc h hs ih =>
    intro j c B pc rs r hj
    cases hs with
    | inv i c' B' rs' r' hidle hp hv hB hpre =>
      by_cases hji : j = i
      · subst hji
        simp only [upd, if_true] at hj
        injection hj with h1 h2 h3 h4 h5
        subst h1; cases h2; subst h3 h4 h5
        exact ⟨hB, [], _, rfl, hpre, .nil⟩
      · simp only [upd, if_neg hji] at hj; exact ih j c B pc rs r hj
    | ret i c' B' rs' r' hrun =>
      by_cases hji : j = i
      · subst hji; simp [upd] at hj
      · simp only [upd, if_neg hji] at hj; exact ih j c B pc rs r hj
    | ext m' th' hd =>
      have hdj := hd j
      rw [show th' j = _ from hj] at hdj
      generalize hg : Thread.run c B pc rs r = x at hdj
      rename_i g
      generalize hy : g.th j = y at hdj
      cases hdj with
      | idle => cases hg
      | run c' B' pc' rs' r0 r' hr =>
        injection hg with h1 h2 h3 h4 h5
        subst h1; cases h2; subst h3 h4 h5
        obtain ⟨h1, t, c0, h2, h3, h4⟩ := ih j c B pc rs r0 hy
        exact ⟨h1, _, c0, h2, h3, Run.env h4 m' _ hr⟩
    | own i c1 B1 pc1 rs1 r1 ins ev c1' th' hrun hi hst hth hd =>
      by_cases hji : j = i
      · subst hji
        rw [show th' j = _ from hj] at hth
        injection hth with h1 h2 h3 h4 h5
        subst h1; cases h2; subst h3 h4 h5
        obtain ⟨h1, t, c0, h2, h3, h4⟩ := ih j c B pc1 rs1 r1 hrun
        exact ⟨h1, _, c0, h2, h3, h4.own hi hst⟩
      · have hdj := hd j hji
        rw [show th' j = _ from hj] at hdj
        generalize hg : Thread.run c B pc rs r = x at hdj
        rename_i g
        generalize hy : g.th j = y at hdj
        cases hdj with
        | idle => cases hg
        | run c' B' pc' rs' r0 r' hr =>
          injection hg with h1 h2 h3 h4 h5
          subst h1; cases h2; subst h3 h4 h5
          obtain ⟨h1, t, c0, h2, h3, h4⟩ := ih j c B pc rs r0 hy
          exact ⟨h1, _, c0, h2, h3, Run.env h4 c1'.mem _ hr⟩

theorem Backend.Runs.isBlock {A : Backend W} {c : Call} {B : Block W c.width} (h : A.Runs c B) :
    A.IsBlock B := by
  cases c with
  | load => exact .load h
  | store => exact .store h
  | swap => exact .swap h
  | cas => exact .cas h
  | casWeak => exact .casWeak h

/-- C20 for many threads: whatever the other threads are doing, in every reachable state every thread
that is inside an operation can finish it by its own steps alone. -/
def Backend.NonBlocking (A : Backend W) (P : Call → Prop) : Prop :=
  ∀ (m0 : Mem) (tr : List GEv) (g : GState W), GRun A P ⟨m0, fun _ => .idle⟩ tr g →
    ∀ i c B pc rs r, g.th i = .run c B pc rs r →
      ∃ tr' g' res, GRun A P ⟨m0, fun _ => .idle⟩ (tr ++ tr' ++ [.h (.ret i c res)]) g' ∧
        g'.th i = .idle ∧ (∀ ev ∈ tr', ∃ x m m', ev = GEv.own i x m m') ∧
        ∀ j, j ≠ i → g.th j = .idle → g'.th j = .idle

theorem Backend.nonBlocking {A : Backend W} (P : Call → Prop) (h6 : A.ProgressOK) : A.NonBlocking P := by
  intro m0 tr g hr i c B pc rs r hth
  obtain ⟨hB, t, c0, h0, hp, hl⟩ := local_runs hr i c B pc rs r hth
  obtain ⟨N, -, hN⟩ := h6 B hB.isBlock
  exact finish_alone i N tr g pc rs r hr hth (hN c0 t _ h0 hp hl)

/-- Runs with completed operations exist: from every reachable state, an idle thread can call an
operation for which the back end has a block, and finish it. -/
theorem Backend.can_call {A : Backend W} {P : Call → Prop} (h6 : A.ProgressOK) {m0 : Mem} {tr : List GEv}
    {g : GState W} (hr : GRun A P ⟨m0, fun _ => .idle⟩ tr g) (i : Nat) (c : Call) (hidle : g.th i = .idle)
    (hp : P c) (hv : c.Valid) (B : Block W c.width) (hB : A.Runs c B) {rs : RS W} (hpre : B.pre rs) :
    ∃ tr' g' res, GRun A P ⟨m0, fun _ => .idle⟩
      (tr ++ [.h (.inv i c)] ++ tr' ++ [.h (.ret i c res)]) g' ∧ g'.th i = .idle ∧
      ∀ j, j ≠ i → g.th j = .idle → g'.th j = .idle := by
  have h1 := hr.snoc (.inv g i c B rs none hidle hp hv hB hpre)
  obtain ⟨tr', g', res, h2, h3, _, h4⟩ := Backend.nonBlocking P h6 m0 _ _ h1 i c B 0 rs none (by simp [upd])
  exact ⟨tr', g', res, h2, h3, fun j hj h => h4 j hj (by simp [upd, hj, h])⟩

end Verif
