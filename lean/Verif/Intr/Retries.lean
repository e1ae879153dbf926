/-
C51 on one core with interrupts (AVR, MSP430): a compare-exchange loop retries only because handlers wrote.
-/
import Verif.Api.Retries
import Verif.Intr.Updates

namespace Verif

/-- C51 on one core with interrupts: whenever the main program is alone and between operations. (All activations at the same depth
count as one thread.) -/
def IBackend.RetriesPaid {W : Nat} (A : IBackend W) (P : Call → Prop) : Prop :=
  ∀ (w a : Nat), w % 8 = 0 → w ≠ 0 → ∀ (m0 m : Mem) (tr : List IEv), ISRun A P ⟨m0, .idle, []⟩ tr ⟨m, .idle, []⟩ →
    VRegular A.e w a (fun _ _ => True) (IEv.vis tr) →
    ∀ N, (∀ i, N ≤ i → threadCalls w a i (IEv.vis tr) = []) → Verif.RetriesPaid w N fun i => threadCalls w a i (IEv.vis tr)

/-- C51 for `fetch_update` on one core with interrupts. -/
def IBackend.UpdatesPaid {W : Nat} (A : IBackend W) (P : Call → Prop) : Prop :=
  ∀ (w a : Nat), w % 8 = 0 → w ≠ 0 → ∀ (m0 m : Mem) (tr : List IEv), ISRun A P ⟨m0, .idle, []⟩ tr ⟨m, .idle, []⟩ →
    VRegular A.e w a (fun _ _ => True) (IEv.vis tr) →
    ∀ (N : Nat) (ups : Nat → List (FetchUpdate w a)), ByFetchUpdate N ups (fun i => threadCalls w a i (IEv.vis tr)) →
      ∀ i, ((ups i).map fun u => overtaken u.calls).sum ≤ others N i fun j => FetchUpdate.successes (ups j)

variable {W : Nat}

theorem IBackend.ObjectAlone.retriesPaid {A : IBackend W} {P : Call → Prop} (hl : A.ObjectAlone P) : A.RetriesPaid P := by
  intro w a hw hw0 m0 m tr hr hreg N hN
  obtain ⟨seq, h1, h2⟩ := hl.regSeq hw hw0 hr hreg
  rw [h2]
  exact h1.retriesPaid fun i hi => by have := hN i hi; rw [congrFun h2 i] at this; exact this

theorem IBackend.ObjectAlone.updatesPaid {A : IBackend W} {P : Call → Prop} (hl : A.ObjectAlone P) : A.UpdatesPaid P := by
  intro w a hw hw0 m0 m tr hr hreg N ups hby
  obtain ⟨seq, h1, h2⟩ := hl.regSeq hw hw0 hr hreg
  rw [h2] at hby
  exact h1.updatesPaid hby

end Verif
