/-
C31 for whole `fetch_update` calls on one core with interrupts (AVR, MSP430).
-/
import Verif.Api.Updates
import Verif.Intr.Object

namespace Verif

/-- C31 for `fetch_update` on one core with interrupts: the main program and handlers nested up to depth `N` access an object
by `fetch_update` only; whenever the main program is alone and between operations, there is one chain of the successful
updates from the initial bits to the final ones. (All activations at the same depth count as one thread.) -/
def IBackend.UpdatesChain {W : Nat} (A : IBackend W) (P : Call → Prop) : Prop :=
  ∀ (w a : Nat), w % 8 = 0 → w ≠ 0 → ∀ (m0 m : Mem) (tr : List IEv), ISRun A P ⟨m0, .idle, []⟩ tr ⟨m, .idle, []⟩ →
    VRegular A.e w a (fun _ _ => True) (IEv.vis tr) →
    ∀ (N : Nat) (ups : Nat → List (FetchUpdate w a)), ByFetchUpdate N ups (fun i => threadCalls w a i (IEv.vis tr)) →
      ∃ l, OneChain N ups (load A.e m0 a w) (load A.e m a w) l

/-- C31, a counter, on one core with interrupts. -/
def IBackend.Counts {W : Nat} (A : IBackend W) (P : Call → Prop) : Prop :=
  ∀ (w a : Nat), w % 8 = 0 → w ≠ 0 → ∀ (m0 m : Mem) (tr : List IEv), ISRun A P ⟨m0, .idle, []⟩ tr ⟨m, .idle, []⟩ →
    VRegular A.e w a (fun _ _ => True) (IEv.vis tr) →
    ∀ (N : Nat) (ups : Nat → List (FetchUpdate w a)), ByFetchUpdate N ups (fun i => threadCalls w a i (IEv.vis tr)) →
      (∀ i, ∀ u ∈ ups i, u.f.Increments) →
      load A.e m a w = load A.e m0 a w + BitVec.ofNat w (total N ups) ∧ ∀ i, ∀ u ∈ ups i, ∃ prev, u.result = .ok prev

variable {W : Nat}

theorem IBackend.ObjectAlone.regSeq {A : IBackend W} {P : Call → Prop} (hl : A.ObjectAlone P) {w a : Nat} (hw : w % 8 = 0)
    (hw0 : w ≠ 0) {m0 m : Mem} {tr : List IEv} (hr : ISRun A P ⟨m0, .idle, []⟩ tr ⟨m, .idle, []⟩)
    (hreg : VRegular A.e w a (fun _ _ => True) (IEv.vis tr)) :
    ∃ seq, RegSeq w a (load A.e m0 a w) seq (load A.e m a w) ∧
      (fun i => threadCalls w a i (IEv.vis tr)) = fun i => (ofThread i seq).map (·.2) := by
  obtain ⟨otr, o, h1, h2, h3, h4⟩ := hl w a hw hw0 m0 tr _ hr hreg
  obtain ⟨h5, -, h6⟩ := h1.reg
  rw [(h3 rfl).1] at h5
  refine ⟨_, h5, funext fun i => ?_⟩
  have : o.th i = .idle := by
    rcases Nat.eq_zero_or_pos i with rfl | hi
    · exact (h3 rfl).2
    · exact h4 i hi
  rw [threadCalls_object, h6, ← h2, this]; simp [SThread.open]

theorem IBackend.ObjectAlone.updatesChain {A : IBackend W} {P : Call → Prop} (hl : A.ObjectAlone P) : A.UpdatesChain P := by
  intro w a hw hw0 m0 m tr hr hreg N ups hby
  obtain ⟨seq, h1, h2⟩ := hl.regSeq hw hw0 hr hreg
  rw [h2] at hby
  exact ⟨_, (h1.oneChain hby).1⟩

theorem IBackend.ObjectAlone.counts {A : IBackend W} {P : Call → Prop} (hl : A.ObjectAlone P) : A.Counts P := by
  intro w a hw hw0 m0 m tr hr hreg N ups hby hi
  obtain ⟨seq, h1, h2⟩ := hl.regSeq hw hw0 hr hreg
  rw [h2] at hby
  obtain ⟨h3, h4⟩ := h1.oneChain hby
  exact h3.count h4 hi

end Verif
