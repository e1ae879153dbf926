/-
riscv64, mips64 and loongarch64, if the compiler sign-extends the `old` operand of 32-bit compare_exchanges.

On these targets `C04_*_word_fails` and what follows from it (`C18_*_violated`, `C45_*_violated`, `C52_*_violated`) come
from register states in which the upper half of the register with `old` is not the sign extension of the lower half; the Rust
reference leaves that half undefined, and the crate does not set it. Here: on back ends whose compare_exchange blocks are
only entered with `old` sign-extended, everything the `_partial` theorems exclude holds. So the missing sign extension is
the only reason for these violations. The theorems are called `_partial` since the assumption is not the crate's
to make. Generated by tools/signext.py.
-/
import Verif.Lin.Narrow
import Verif.Weak.MixedFence
import Verif.Weak.SeqlockProof
import Verif.Weak.DekkerProof
import Verif.Weak.Barriers
import Verif.Props.Access
import Verif.Props.Weak
import Verif.Props.Coherence
import Verif.Props.DRF
import Verif.Props.FenceSC
import Verif.Props.NonMCA
import Verif.Props.Alone
import Verif.Props.MethodsLockFree
import Verif.Props.Signal
import Verif.Props.Methods
import Verif.Props.Garbage
import Verif.Props.HW

namespace Verif

namespace RiscV
/-- `atomic_compare_exchange` (l.206-253, l.310-371) as `Cas`, entered with `old` sign-extended to the width of the register. -/
inductive CasSx (e : Endian) : Ordering → Ordering → (w a : Nat) → BitVec w → BitVec w → Block 64 w → Prop
  | word (al s f) {w} (p : BitVec 64) (old new : BitVec w) (hw : WordSize 64 w)
      (hv : assertCompareExchangeOrdering s f = .ok ()) :
      CasSx e s f w p.toNat old new ((casBlock al w (lrscOrder (upgradeSuccessOrdering s f)) p old new).assuming
        ⟨al .old, 64, old.signExtend 64⟩)
  | sub (al s f) {w P} (p : BitVec P) (old new : BitVec w) (hw : SubSize w)
      (hv : assertCompareExchangeOrdering s f = .ok ()) (hal : SubPtr 64 w p) :
      CasSx e s f w p.toNat old new
        (subCasBlock e al w (lrscOrder (upgradeSuccessOrdering s f)) p old new)

/-- The back end with these compare_exchanges, strong and weak. -/
def backendSx (e : Endian) (z : Bool) : Backend 64 := (backend e 64 z).withCas (CasSx e)

theorem narrowedSx (e : Endian) (z : Bool) : (backend e 64 z).NarrowedBy (CasSx e) := by
  rintro s f w a old new B (⟨al, _, _, p, _, _, hw, hv⟩ | ⟨al, _, _, p, _, _, hw, hv, hal⟩)
  · exact ⟨_, ⟨.word al _ _ p _ _ hw hv, .word al _ _ p _ _ hw hv⟩, Block.assuming_narrows _ _⟩
  · exact ⟨_, ⟨.sub al _ _ p _ _ hw hv hal, .sub al _ _ p _ _ hw hv hal⟩, _, rfl, fun _ h => h⟩

theorem goodSx (e : Endian) (z : Bool) : Good (backendSx e z) scMons := (good' e (.inr rfl) z).withCas (narrowedSx e z)
theorem progressSx (e : Endian) (z : Bool) : (backendSx e z).ProgressOK := Backend.withCas_progress (C20_riscv e (.inr rfl) z) (narrowedSx e z)
theorem accessesSx (e : Endian) (z : Bool) : (backendSx e z).AccessesOK (gran 1 (if z then 1 else 4) 4) := Backend.withCas_accesses (C39_riscv e (.inr rfl) z) (narrowedSx e z)
theorem pairedSx (e : Endian) (z : Bool) : (backendSx e z).Paired := Backend.withCas_paired (RiscV.paired e 64 z) (narrowedSx e z)
theorem orderingsSx (e : Endian) (z : Bool) : (backendSx e z).OrderingsOK :=
  Backend.orderingsOK (goodSx e z).acquireOK (goodSx e z).releaseOK (goodSx e z).seqCstOK (goodSx e z).failureOK

/-- C04 on riscv64 for all sizes, if the compiler sign-extends `old`. -/
theorem C04_sx_riscv64_signext_partial (e : Endian) (z : Bool) : (backendSx e z).CasAtomic := by
  rintro s f w a old new B (⟨al, _, _, p, _, _, hw, hv⟩ | ⟨al, _, _, p, _, _, hw, hv, hal⟩)
  · rintro tr rs ⟨c0, c, h1, h2, h3, h4, rfl⟩
    have h5 : c0.rs.r (al .old) = old.signExtend 64 := by
      have := h2 _ List.mem_cons_self
      simpa using this
    exact cas_word_strong e (by decide) al hw _ p old new _ rfl c0 tr c h1 (fun y hy => h2 y (List.mem_cons_of_mem _ hy)) h5 h3 h4
  · exact (sub_cas_impl e al (by decide) hw _ p hal old new _ rfl).atomic fun _ _ _ _ h => h.1.1
end RiscV

/-- C04 of the method on riscv64, if the compiler sign-extends `old`. -/
theorem C04_methods_riscv64_signext_partial (e : Endian) (z : Bool) : (RiscV.backendSx e z).CasMethodAtomic fun _ => True :=
  Backend.casMethodAtomic' (RiscV.C04_sx_riscv64_signext_partial e z)
/-- C18 on riscv64, if the compiler sign-extends `old` (without that: `C18_riscv64_violated`). -/
theorem C18_riscv64_signext_partial (e : Endian) (z : Bool) : (RiscV.backendSx e z).GarbageOK fun _ => True :=
  Backend.garbageOK (RiscV.goodSx e z).loadsAtomic (RiscV.goodSx e z).storesAtomic (RiscV.goodSx e z).swapsAtomic (fun s f w a old new B _ => RiscV.C04_sx_riscv64_signext_partial e z s f w a old new B) (RiscV.goodSx e z).weakCasAtomic
/-- C21 on riscv64, if the compiler sign-extends `old`. -/
theorem C21_riscv64_signext_partial (e : Endian) (z : Bool) : (RiscV.backendSx e z).Linearizable fun _ => True :=
  Backend.linearizable_of _ (RiscV.goodSx e z).loadsAtomic (RiscV.goodSx e z).storesAtomic (RiscV.goodSx e z).swapsAtomic (fun s f w a old new B _ => RiscV.C04_sx_riscv64_signext_partial e z s f w a old new B) (RiscV.goodSx e z).weakCasAtomic (RiscV.progressSx e z)
theorem C21_hw_riscv64_signext_partial (e : Endian) (z : Bool) : (RiscV.backendSx e z).Herlihy fun _ => True := (C21_riscv64_signext_partial e z).herlihy
/-- C57 on riscv64, if the compiler sign-extends `old`. -/
theorem C57_riscv64_signext_partial (e : Endian) (z : Bool) : (RiscV.backendSx e z).SignalSafe fun _ => True :=
  Backend.signalSafe (C21_riscv64_signext_partial e z) (RiscV.progressSx e z)
/-- C41 on riscv64, if the compiler sign-extends `old`. -/
theorem C41_riscv64_signext_partial (e : Endian) (z : Bool) : (RiscV.backendSx e z).SCOnWeak Call.SeqCstOnly :=
  (RiscV.goodSx e z).scOnWeak (RiscV.C04_sx_riscv64_signext_partial e z) (RiscV.orderingsSx e z)
/-- C42 on riscv64, if the compiler sign-extends `old`. -/
theorem C42_riscv64_signext_partial (e : Endian) (z : Bool) : (RiscV.backendSx e z).Coherent fun _ => True :=
  (RiscV.goodSx e z).coherent (RiscV.C04_sx_riscv64_signext_partial e z) (RiscV.accessesSx e z)
/-- C45 on riscv64, if the compiler sign-extends `old` (without that: `C45_riscv64_violated`). -/
theorem C45_riscv64_signext_partial (e : Endian) (z : Bool) : (RiscV.backendSx e z).MethodsFinish fun _ => True :=
  Backend.methodsFinish (RiscV.progressSx e z) (Backend.weakAlone_strong fun s f w a old new B _ => RiscV.C04_sx_riscv64_signext_partial e z s f w a old new B)
/-- C49 on riscv64, if the compiler sign-extends `old`. -/
theorem C49_riscv64_signext_partial (e : Endian) (z : Bool) : (RiscV.backendSx e z).RaceFreeSC Call.SeqCstOnly :=
  (RiscV.goodSx e z).raceFreeSC (RiscV.C04_sx_riscv64_signext_partial e z) (RiscV.orderingsSx e z) (RiscV.pairedSx e z) (RiscV.accessesSx e z)
/-- C52 on riscv64, if the compiler sign-extends `old` (without that: `C52_riscv64_violated`). -/
theorem C52_riscv64_signext_partial (e : Endian) (z : Bool) (P) : (RiscV.backendSx e z).MethodsLockFree (fun _ => True) P :=
  Backend.methodsLockFree P ((RiscV.goodSx e z).writesOnce (RiscV.progressSx e z)) (RiscV.progressSx e z) (RiscV.goodSx e z).weakCasAtomic
    (Backend.quietFailure_strong fun s f w a old new B _ => RiscV.C04_sx_riscv64_signext_partial e z s f w a old new B) (C45_riscv64_signext_partial e z)
/-- C54 on riscv64, if the compiler sign-extends `old`. -/
theorem C54_riscv64_signext_partial (e : Endian) (z : Bool) : (RiscV.backendSx e z).FencesSC fun _ => True :=
  (RiscV.goodSx e z).fencesSC (RiscV.C04_sx_riscv64_signext_partial e z) (RiscV.orderingsSx e z)
/-- C59 on riscv64, if the compiler sign-extends `old`. -/
theorem C59_riscv64_signext_partial (e : Endian) (z : Bool) : (RiscV.backendSx e z).MixedHistory fun _ => True :=
  (RiscV.goodSx e z).mixedHistory ((RiscV.goodSx e z).localOps fun s f w a old new B _ => RiscV.C04_sx_riscv64_signext_partial e z s f w a old new B) (RiscV.pairedSx e z) (RiscV.accessesSx e z)
theorem C59_coherent_riscv64_signext_partial (e : Endian) (z : Bool) : (RiscV.backendSx e z).MixedCoherent fun _ => True :=
  Backend.mixedCoherent ((RiscV.goodSx e z).localOps fun s f w a old new B _ => RiscV.C04_sx_riscv64_signext_partial e z s f w a old new B) (RiscV.accessesSx e z)
/-- C60 on riscv64, if the compiler sign-extends `old`. -/
theorem C60_riscv64_signext_partial (e : Endian) (z : Bool) : (RiscV.backendSx e z).MixedHistoryFenced fun _ => True :=
  (RiscV.goodSx e z).mixedHistoryFenced ((RiscV.goodSx e z).localOps fun s f w a old new B _ => RiscV.C04_sx_riscv64_signext_partial e z s f w a old new B) (RiscV.pairedSx e z) (RiscV.accessesSx e z)
/-- C61 on riscv64, if the compiler sign-extends `old`. -/
theorem C61_riscv64_signext_partial (e : Endian) (z : Bool) : (RiscV.backendSx e z).SeqlockReads fun _ => True :=
  (RiscV.goodSx e z).seqlockReads ((RiscV.goodSx e z).localOps fun s f w a old new B _ => RiscV.C04_sx_riscv64_signext_partial e z s f w a old new B) (RiscV.pairedSx e z) (RiscV.accessesSx e z)
/-- C62 on riscv64, if the compiler sign-extends `old`. -/
theorem C62_riscv64_signext_partial (e : Endian) (z : Bool) : (RiscV.backendSx e z).FencedStoresSeen fun _ => True :=
  (RiscV.goodSx e z).fencedStoresSeen ((RiscV.goodSx e z).localOps fun s f w a old new B _ => RiscV.C04_sx_riscv64_signext_partial e z s f w a old new B) (RiscV.pairedSx e z) (RiscV.accessesSx e z)

/-- The assumption can be met: a 32-bit compare_exchange of a negative value runs to its end. -/
example : ∃ (B : Block 64 32) (tr : List TEv) (rs : RS 64), (RiscV.backendSx .little false).Cas .seqCst .acquire 32 0x1000 0x80000000#32 5#32 B ∧
    B.Completed (RiscV.backendSx .little false).e tr rs := by
  have hB := RiscV.CasSx.word (e := .little) (Alloc.std RiscV.casKind) .seqCst .acquire 0x1000#64 0x80000000#32 5#32 (.inl rfl) rfl
  have hp := RiscV.progressSx .little false _ (.cas hB)
  obtain ⟨tr, rs, h⟩ := hp.completed (rs := ⟨fun i => if i = (Alloc.std RiscV.casKind) .dst then 0x1000#64
    else if i = (Alloc.std RiscV.casKind) .old then 0xffffffff80000000#64 else 5#64, false, 0⟩) (by
      intro x hx
      simp only [Block.assuming, RiscV.casBlock, List.mem_cons, List.not_mem_nil, or_false] at hx
      rcases hx with rfl | rfl | rfl | rfl <;> simp)
  exact ⟨_, tr, rs, hB, h⟩

namespace Mips
/-- `atomic_compare_exchange` (l.147-197, l.251-313) as `Cas`, entered with `old` sign-extended to the width of the register. -/
inductive CasSx (e : Endian) : Ordering → Ordering → (w a : Nat) → BitVec w → BitVec w → Block 64 w → Prop
  | word (al s f) {w} (p : BitVec 64) (old new : BitVec w) (hw : WordSize 64 w)
      (hv : assertCompareExchangeOrdering s f = .ok ()) :
      CasSx e s f w p.toNat old new ((casBlock al w (rmwFences (upgradeSuccessOrdering s f)) p old new).assuming
        ⟨al .old, 64, old.signExtend 64⟩)
  | sub (al s f) {w P} (p : BitVec P) (old new : BitVec w) (hw : SubSize w)
      (hv : assertCompareExchangeOrdering s f = .ok ()) (hal : SubPtr 64 w p) :
      CasSx e s f w p.toNat old new
        (subCasBlock e al w (rmwFences (upgradeSuccessOrdering s f)) p old new)

/-- The back end with these compare_exchanges, strong and weak. -/
def backendSx (e : Endian) : Backend 64 := (backend e 64).withCas (CasSx e)

theorem narrowedSx (e : Endian) : (backend e 64).NarrowedBy (CasSx e) := by
  rintro s f w a old new B (⟨al, _, _, p, _, _, hw, hv⟩ | ⟨al, _, _, p, _, _, hw, hv, hal⟩)
  · exact ⟨_, ⟨.word al _ _ p _ _ hw hv, .word al _ _ p _ _ hw hv⟩, Block.assuming_narrows _ _⟩
  · exact ⟨_, ⟨.sub al _ _ p _ _ hw hv hal, .sub al _ _ p _ _ hw hv hal⟩, _, rfl, fun _ h => h⟩

theorem goodSx (e : Endian) : Good (backendSx e) scMons := (good' e (.inr rfl)).withCas (narrowedSx e)
theorem progressSx (e : Endian) : (backendSx e).ProgressOK := Backend.withCas_progress (C20_mips e (.inr rfl)) (narrowedSx e)
theorem accessesSx (e : Endian) : (backendSx e).AccessesOK (gran 1 4 4) := Backend.withCas_accesses (C39_mips e (.inr rfl)) (narrowedSx e)
theorem pairedSx (e : Endian) : (backendSx e).Paired := Backend.withCas_paired (Mips.paired e 64) (narrowedSx e)
theorem orderingsSx (e : Endian) : (backendSx e).OrderingsOK :=
  Backend.orderingsOK (goodSx e).acquireOK (goodSx e).releaseOK (goodSx e).seqCstOK (goodSx e).failureOK

/-- C04 on mips64 for all sizes, if the compiler sign-extends `old`. -/
theorem C04_sx_mips64_signext_partial (e : Endian) : (backendSx e).CasAtomic := by
  rintro s f w a old new B (⟨al, _, _, p, _, _, hw, hv⟩ | ⟨al, _, _, p, _, _, hw, hv, hal⟩)
  · rintro tr rs ⟨c0, c, h1, h2, h3, h4, rfl⟩
    have h5 : c0.rs.r (al .old) = old.signExtend 64 := by
      have := h2 _ List.mem_cons_self
      simpa using this
    exact cas_word_strong e (by decide) al hw _ p old new _ rfl c0 tr c h1 (fun y hy => h2 y (List.mem_cons_of_mem _ hy)) h5 h3 h4
  · exact (sub_cas_impl e al (by decide) hw _ p hal old new _ rfl).atomic fun _ _ _ _ h => h.1.1
end Mips

/-- C04 of the method on mips64, if the compiler sign-extends `old`. -/
theorem C04_methods_mips64_signext_partial (e : Endian) : (Mips.backendSx e).CasMethodAtomic fun _ => True :=
  Backend.casMethodAtomic' (Mips.C04_sx_mips64_signext_partial e)
/-- C18 on mips64, if the compiler sign-extends `old` (without that: `C18_mips64_violated`). -/
theorem C18_mips64_signext_partial (e : Endian) : (Mips.backendSx e).GarbageOK fun _ => True :=
  Backend.garbageOK (Mips.goodSx e).loadsAtomic (Mips.goodSx e).storesAtomic (Mips.goodSx e).swapsAtomic (fun s f w a old new B _ => Mips.C04_sx_mips64_signext_partial e s f w a old new B) (Mips.goodSx e).weakCasAtomic
/-- C21 on mips64, if the compiler sign-extends `old`. -/
theorem C21_mips64_signext_partial (e : Endian) : (Mips.backendSx e).Linearizable fun _ => True :=
  Backend.linearizable_of _ (Mips.goodSx e).loadsAtomic (Mips.goodSx e).storesAtomic (Mips.goodSx e).swapsAtomic (fun s f w a old new B _ => Mips.C04_sx_mips64_signext_partial e s f w a old new B) (Mips.goodSx e).weakCasAtomic (Mips.progressSx e)
theorem C21_hw_mips64_signext_partial (e : Endian) : (Mips.backendSx e).Herlihy fun _ => True := (C21_mips64_signext_partial e).herlihy
/-- C57 on mips64, if the compiler sign-extends `old`. -/
theorem C57_mips64_signext_partial (e : Endian) : (Mips.backendSx e).SignalSafe fun _ => True :=
  Backend.signalSafe (C21_mips64_signext_partial e) (Mips.progressSx e)
/-- C41 on mips64, if the compiler sign-extends `old`. -/
theorem C41_mips64_signext_partial (e : Endian) : (Mips.backendSx e).SCOnWeak Call.SeqCstOnly :=
  (Mips.goodSx e).scOnWeak (Mips.C04_sx_mips64_signext_partial e) (Mips.orderingsSx e)
/-- C42 on mips64, if the compiler sign-extends `old`. -/
theorem C42_mips64_signext_partial (e : Endian) : (Mips.backendSx e).Coherent fun _ => True :=
  (Mips.goodSx e).coherent (Mips.C04_sx_mips64_signext_partial e) (Mips.accessesSx e)
/-- C45 on mips64, if the compiler sign-extends `old` (without that: `C45_mips64_violated`). -/
theorem C45_mips64_signext_partial (e : Endian) : (Mips.backendSx e).MethodsFinish fun _ => True :=
  Backend.methodsFinish (Mips.progressSx e) (Backend.weakAlone_strong fun s f w a old new B _ => Mips.C04_sx_mips64_signext_partial e s f w a old new B)
/-- C49 on mips64, if the compiler sign-extends `old`. -/
theorem C49_mips64_signext_partial (e : Endian) : (Mips.backendSx e).RaceFreeSC Call.SeqCstOnly :=
  (Mips.goodSx e).raceFreeSC (Mips.C04_sx_mips64_signext_partial e) (Mips.orderingsSx e) (Mips.pairedSx e) (Mips.accessesSx e)
/-- C52 on mips64, if the compiler sign-extends `old` (without that: `C52_mips64_violated`). -/
theorem C52_mips64_signext_partial (e : Endian) (P) : (Mips.backendSx e).MethodsLockFree (fun _ => True) P :=
  Backend.methodsLockFree P ((Mips.goodSx e).writesOnce (Mips.progressSx e)) (Mips.progressSx e) (Mips.goodSx e).weakCasAtomic
    (Backend.quietFailure_strong fun s f w a old new B _ => Mips.C04_sx_mips64_signext_partial e s f w a old new B) (C45_mips64_signext_partial e)
/-- C54 on mips64, if the compiler sign-extends `old`. -/
theorem C54_mips64_signext_partial (e : Endian) : (Mips.backendSx e).FencesSC fun _ => True :=
  (Mips.goodSx e).fencesSC (Mips.C04_sx_mips64_signext_partial e) (Mips.orderingsSx e)
/-- C59 on mips64, if the compiler sign-extends `old`. -/
theorem C59_mips64_signext_partial (e : Endian) : (Mips.backendSx e).MixedHistory fun _ => True :=
  (Mips.goodSx e).mixedHistory ((Mips.goodSx e).localOps fun s f w a old new B _ => Mips.C04_sx_mips64_signext_partial e s f w a old new B) (Mips.pairedSx e) (Mips.accessesSx e)
theorem C59_coherent_mips64_signext_partial (e : Endian) : (Mips.backendSx e).MixedCoherent fun _ => True :=
  Backend.mixedCoherent ((Mips.goodSx e).localOps fun s f w a old new B _ => Mips.C04_sx_mips64_signext_partial e s f w a old new B) (Mips.accessesSx e)
/-- C60 on mips64, if the compiler sign-extends `old`. -/
theorem C60_mips64_signext_partial (e : Endian) : (Mips.backendSx e).MixedHistoryFenced fun _ => True :=
  (Mips.goodSx e).mixedHistoryFenced ((Mips.goodSx e).localOps fun s f w a old new B _ => Mips.C04_sx_mips64_signext_partial e s f w a old new B) (Mips.pairedSx e) (Mips.accessesSx e)
/-- C61 on mips64, if the compiler sign-extends `old`. -/
theorem C61_mips64_signext_partial (e : Endian) : (Mips.backendSx e).SeqlockReads fun _ => True :=
  (Mips.goodSx e).seqlockReads ((Mips.goodSx e).localOps fun s f w a old new B _ => Mips.C04_sx_mips64_signext_partial e s f w a old new B) (Mips.pairedSx e) (Mips.accessesSx e)
/-- C62 on mips64, if the compiler sign-extends `old`. -/
theorem C62_mips64_signext_partial (e : Endian) : (Mips.backendSx e).FencedStoresSeen fun _ => True :=
  (Mips.goodSx e).fencedStoresSeen ((Mips.goodSx e).localOps fun s f w a old new B _ => Mips.C04_sx_mips64_signext_partial e s f w a old new B) (Mips.pairedSx e) (Mips.accessesSx e)

theorem Mips.barriersSx (e : Endian) : (Mips.backendSx e).BarriersOnly := Backend.withCas_barriersOnly (Mips.barriersOnly e 64) (Mips.narrowedSx e)
/-- Without multi-copy atomicity. -/
theorem C41_nonmca_mips64_signext_partial (e : Endian) : (Mips.backendSx e).SCOnNonMCA Call.SeqCstOnly :=
  (Mips.goodSx e).scOnNonMCA (Mips.C04_sx_mips64_signext_partial e) (Mips.accessesSx e) (.inr (by decide))
theorem C49_nonmca_mips64_signext_partial (e : Endian) : (Mips.backendSx e).RaceFreeSCNonMCA Call.SeqCstOnly :=
  (Mips.goodSx e).raceFreeSCNonMCA (Mips.C04_sx_mips64_signext_partial e) (Mips.orderingsSx e) (Mips.pairedSx e) (Mips.accessesSx e) (Mips.barriersSx e) rfl (.inr (by decide))
theorem C54_nonmca_mips64_signext_partial (e : Endian) : (Mips.backendSx e).FencesSCOnNonMCA fun _ => True :=
  (Mips.goodSx e).fencesSCOnNonMCA (Mips.C04_sx_mips64_signext_partial e) (Mips.accessesSx e) (.inr (by decide))
theorem C59_nonmca_mips64_signext_partial (e : Endian) : (Mips.backendSx e).MixedHistoryNonMCA fun _ => True :=
  (Mips.goodSx e).mixedHistoryNonMCA ((Mips.goodSx e).localOps fun s f w a old new B _ => Mips.C04_sx_mips64_signext_partial e s f w a old new B) (Mips.pairedSx e) (Mips.accessesSx e) (Mips.barriersSx e) rfl
theorem C60_nonmca_mips64_signext_partial (e : Endian) : (Mips.backendSx e).MixedHistoryFencedNonMCA fun _ => True :=
  (Mips.goodSx e).mixedHistoryFencedNonMCA ((Mips.goodSx e).localOps fun s f w a old new B _ => Mips.C04_sx_mips64_signext_partial e s f w a old new B) (Mips.pairedSx e) (Mips.accessesSx e) (Mips.barriersSx e) rfl
theorem C61_nonmca_mips64_signext_partial (e : Endian) : (Mips.backendSx e).SeqlockReadsNonMCA fun _ => True :=
  (Mips.goodSx e).seqlockReadsNonMCA ((Mips.goodSx e).localOps fun s f w a old new B _ => Mips.C04_sx_mips64_signext_partial e s f w a old new B) (Mips.pairedSx e) (Mips.accessesSx e) (Mips.barriersSx e) rfl
theorem C62_nonmca_mips64_signext_partial (e : Endian) : (Mips.backendSx e).FencedStoresSeenNonMCA fun _ => True :=
  (Mips.goodSx e).fencedStoresSeenNonMCA ((Mips.goodSx e).localOps fun s f w a old new B _ => Mips.C04_sx_mips64_signext_partial e s f w a old new B) (Mips.pairedSx e) (Mips.accessesSx e) (Mips.barriersSx e) rfl

/-- The assumption can be met: a 32-bit compare_exchange of a negative value runs to its end. -/
example : ∃ (B : Block 64 32) (tr : List TEv) (rs : RS 64), (Mips.backendSx .big).Cas .seqCst .acquire 32 0x1000 0x80000000#32 5#32 B ∧
    B.Completed (Mips.backendSx .big).e tr rs := by
  have hB := Mips.CasSx.word (e := .big) (Alloc.std Mips.casKind) .seqCst .acquire 0x1000#64 0x80000000#32 5#32 (.inl rfl) rfl
  have hp := Mips.progressSx .big _ (.cas hB)
  obtain ⟨tr, rs, h⟩ := hp.completed (rs := ⟨fun i => if i = (Alloc.std Mips.casKind) .dst then 0x1000#64
    else if i = (Alloc.std Mips.casKind) .old then 0xffffffff80000000#64 else 5#64, false, 0⟩) (by
      intro x hx
      simp only [Block.assuming, Mips.casBlock, List.mem_cons, List.not_mem_nil, or_false] at hx
      rcases hx with rfl | rfl | rfl | rfl <;> simp)
  exact ⟨_, tr, rs, hB, h⟩

namespace LoongArch
/-- `atomic_compare_exchange` (l.121-168, l.250-310) as `Cas`, entered with `old` sign-extended to the width of the register. -/
inductive CasSx (e : Endian) : Ordering → Ordering → (w a : Nat) → BitVec w → BitVec w → Block 64 w → Prop
  | word (al s) {f w} (p : BitVec 64) (old new : BitVec w) (hw : WordSize 64 w) {ff} (hf : failFence f = some ff) :
      CasSx e s f w p.toNat old new ((casBlock al w ff p old new).assuming ⟨al .old, 64, old.signExtend 64⟩)
  | sub (al s) {f w P} (p : BitVec P) (old new : BitVec w) (hw : SubSize w) {ff} (hf : failFence f = some ff)
      (hal : SubPtr 64 w p) : CasSx e s f w p.toNat old new (subCasBlock e al w ff p old new)

/-- The back end with these compare_exchanges, strong and weak. -/
def backendSx (e : Endian) : Backend 64 := (backend e 64).withCas (CasSx e)

theorem narrowedSx (e : Endian) : (backend e 64).NarrowedBy (CasSx e) := by
  rintro s f w a old new B (⟨al, _, p, _, _, hw, hv⟩ | ⟨al, _, p, _, _, hw, hv, hal⟩)
  · exact ⟨_, ⟨.word al _ p _ _ hw hv, .word al _ p _ _ hw hv⟩, Block.assuming_narrows _ _⟩
  · exact ⟨_, ⟨.sub al _ p _ _ hw hv hal, .sub al _ p _ _ hw hv hal⟩, _, rfl, fun _ h => h⟩

theorem goodSx (e : Endian) : Good (backendSx e) scMons := (good' e).withCas (narrowedSx e)
theorem progressSx (e : Endian) : (backendSx e).ProgressOK := Backend.withCas_progress (C20_loongarch e) (narrowedSx e)
theorem accessesSx (e : Endian) : (backendSx e).AccessesOK (gran 1 4 4) := Backend.withCas_accesses (C39_loongarch e) (narrowedSx e)
theorem pairedSx (e : Endian) : (backendSx e).Paired := Backend.withCas_paired (LoongArch.paired e 64) (narrowedSx e)
theorem orderingsSx (e : Endian) : (backendSx e).OrderingsOK :=
  Backend.orderingsOK (goodSx e).acquireOK (goodSx e).releaseOK (goodSx e).seqCstOK (goodSx e).failureOK

/-- C04 on loongarch64 for all sizes, if the compiler sign-extends `old`. -/
theorem C04_sx_loongarch64_signext_partial (e : Endian) : (backendSx e).CasAtomic := by
  rintro s f w a old new B (⟨al, _, p, _, _, hw, hv⟩ | ⟨al, _, p, _, _, hw, hv, hal⟩)
  · rintro tr rs ⟨c0, c, h1, h2, h3, h4, rfl⟩
    have h5 : c0.rs.r (al .old) = old.signExtend 64 := by
      have := h2 _ List.mem_cons_self
      simpa using this
    exact cas_word_strong e (by decide) al hw _ p old new _ rfl c0 tr c h1 (fun y hy => h2 y (List.mem_cons_of_mem _ hy)) h5 h3 h4
  · exact (sub_cas_impl e al (by decide) hw _ p hal old new _ rfl).atomic fun _ _ _ _ h => h.1.1
end LoongArch

/-- C04 of the method on loongarch64, if the compiler sign-extends `old`. -/
theorem C04_methods_loongarch64_signext_partial (e : Endian) : (LoongArch.backendSx e).CasMethodAtomic fun _ => True :=
  Backend.casMethodAtomic' (LoongArch.C04_sx_loongarch64_signext_partial e)
/-- C18 on loongarch64, if the compiler sign-extends `old` (without that: `C18_loongarch64_violated`). -/
theorem C18_loongarch64_signext_partial (e : Endian) : (LoongArch.backendSx e).GarbageOK fun _ => True :=
  Backend.garbageOK (LoongArch.goodSx e).loadsAtomic (LoongArch.goodSx e).storesAtomic (LoongArch.goodSx e).swapsAtomic (fun s f w a old new B _ => LoongArch.C04_sx_loongarch64_signext_partial e s f w a old new B) (LoongArch.goodSx e).weakCasAtomic
/-- C21 on loongarch64, if the compiler sign-extends `old`. -/
theorem C21_loongarch64_signext_partial (e : Endian) : (LoongArch.backendSx e).Linearizable fun _ => True :=
  Backend.linearizable_of _ (LoongArch.goodSx e).loadsAtomic (LoongArch.goodSx e).storesAtomic (LoongArch.goodSx e).swapsAtomic (fun s f w a old new B _ => LoongArch.C04_sx_loongarch64_signext_partial e s f w a old new B) (LoongArch.goodSx e).weakCasAtomic (LoongArch.progressSx e)
theorem C21_hw_loongarch64_signext_partial (e : Endian) : (LoongArch.backendSx e).Herlihy fun _ => True := (C21_loongarch64_signext_partial e).herlihy
/-- C57 on loongarch64, if the compiler sign-extends `old`. -/
theorem C57_loongarch64_signext_partial (e : Endian) : (LoongArch.backendSx e).SignalSafe fun _ => True :=
  Backend.signalSafe (C21_loongarch64_signext_partial e) (LoongArch.progressSx e)
/-- C41 on loongarch64, if the compiler sign-extends `old`. -/
theorem C41_loongarch64_signext_partial (e : Endian) : (LoongArch.backendSx e).SCOnWeak Call.SeqCstOnly :=
  (LoongArch.goodSx e).scOnWeak (LoongArch.C04_sx_loongarch64_signext_partial e) (LoongArch.orderingsSx e)
/-- C42 on loongarch64, if the compiler sign-extends `old`. -/
theorem C42_loongarch64_signext_partial (e : Endian) : (LoongArch.backendSx e).Coherent fun _ => True :=
  (LoongArch.goodSx e).coherent (LoongArch.C04_sx_loongarch64_signext_partial e) (LoongArch.accessesSx e)
/-- C45 on loongarch64, if the compiler sign-extends `old` (without that: `C45_loongarch64_violated`). -/
theorem C45_loongarch64_signext_partial (e : Endian) : (LoongArch.backendSx e).MethodsFinish fun _ => True :=
  Backend.methodsFinish (LoongArch.progressSx e) (Backend.weakAlone_strong fun s f w a old new B _ => LoongArch.C04_sx_loongarch64_signext_partial e s f w a old new B)
/-- C49 on loongarch64, if the compiler sign-extends `old`. -/
theorem C49_loongarch64_signext_partial (e : Endian) : (LoongArch.backendSx e).RaceFreeSC Call.SeqCstOnly :=
  (LoongArch.goodSx e).raceFreeSC (LoongArch.C04_sx_loongarch64_signext_partial e) (LoongArch.orderingsSx e) (LoongArch.pairedSx e) (LoongArch.accessesSx e)
/-- C52 on loongarch64, if the compiler sign-extends `old` (without that: `C52_loongarch64_violated`). -/
theorem C52_loongarch64_signext_partial (e : Endian) (P) : (LoongArch.backendSx e).MethodsLockFree (fun _ => True) P :=
  Backend.methodsLockFree P ((LoongArch.goodSx e).writesOnce (LoongArch.progressSx e)) (LoongArch.progressSx e) (LoongArch.goodSx e).weakCasAtomic
    (Backend.quietFailure_strong fun s f w a old new B _ => LoongArch.C04_sx_loongarch64_signext_partial e s f w a old new B) (C45_loongarch64_signext_partial e)
/-- C54 on loongarch64, if the compiler sign-extends `old`. -/
theorem C54_loongarch64_signext_partial (e : Endian) : (LoongArch.backendSx e).FencesSC fun _ => True :=
  (LoongArch.goodSx e).fencesSC (LoongArch.C04_sx_loongarch64_signext_partial e) (LoongArch.orderingsSx e)
/-- C59 on loongarch64, if the compiler sign-extends `old`. -/
theorem C59_loongarch64_signext_partial (e : Endian) : (LoongArch.backendSx e).MixedHistory fun _ => True :=
  (LoongArch.goodSx e).mixedHistory ((LoongArch.goodSx e).localOps fun s f w a old new B _ => LoongArch.C04_sx_loongarch64_signext_partial e s f w a old new B) (LoongArch.pairedSx e) (LoongArch.accessesSx e)
theorem C59_coherent_loongarch64_signext_partial (e : Endian) : (LoongArch.backendSx e).MixedCoherent fun _ => True :=
  Backend.mixedCoherent ((LoongArch.goodSx e).localOps fun s f w a old new B _ => LoongArch.C04_sx_loongarch64_signext_partial e s f w a old new B) (LoongArch.accessesSx e)
/-- C60 on loongarch64, if the compiler sign-extends `old`. -/
theorem C60_loongarch64_signext_partial (e : Endian) : (LoongArch.backendSx e).MixedHistoryFenced fun _ => True :=
  (LoongArch.goodSx e).mixedHistoryFenced ((LoongArch.goodSx e).localOps fun s f w a old new B _ => LoongArch.C04_sx_loongarch64_signext_partial e s f w a old new B) (LoongArch.pairedSx e) (LoongArch.accessesSx e)
/-- C61 on loongarch64, if the compiler sign-extends `old`. -/
theorem C61_loongarch64_signext_partial (e : Endian) : (LoongArch.backendSx e).SeqlockReads fun _ => True :=
  (LoongArch.goodSx e).seqlockReads ((LoongArch.goodSx e).localOps fun s f w a old new B _ => LoongArch.C04_sx_loongarch64_signext_partial e s f w a old new B) (LoongArch.pairedSx e) (LoongArch.accessesSx e)
/-- C62 on loongarch64, if the compiler sign-extends `old`. -/
theorem C62_loongarch64_signext_partial (e : Endian) : (LoongArch.backendSx e).FencedStoresSeen fun _ => True :=
  (LoongArch.goodSx e).fencedStoresSeen ((LoongArch.goodSx e).localOps fun s f w a old new B _ => LoongArch.C04_sx_loongarch64_signext_partial e s f w a old new B) (LoongArch.pairedSx e) (LoongArch.accessesSx e)

/-- The assumption can be met: a 32-bit compare_exchange of a negative value runs to its end. -/
example : ∃ (B : Block 64 32) (tr : List TEv) (rs : RS 64), (LoongArch.backendSx .little).Cas .seqCst .acquire 32 0x1000 0x80000000#32 5#32 B ∧
    B.Completed (LoongArch.backendSx .little).e tr rs := by
  have hB := LoongArch.CasSx.word (e := .little) (Alloc.std LoongArch.casKind) .seqCst (f := .acquire) 0x1000#64 0x80000000#32 5#32 (.inl rfl) rfl
  have hp := LoongArch.progressSx .little _ (.cas hB)
  obtain ⟨tr, rs, h⟩ := hp.completed (rs := ⟨fun i => if i = (Alloc.std LoongArch.casKind) .dst then 0x1000#64
    else if i = (Alloc.std LoongArch.casKind) .old then 0xffffffff80000000#64 else 5#64, false, 0⟩) (by
      intro x hx
      simp only [Block.assuming, LoongArch.casBlock, List.mem_cons, List.not_mem_nil, or_false] at hx
      rcases hx with rfl | rfl | rfl | rfl <;> simp)
  exact ⟨_, tr, rs, hB, h⟩

end Verif
