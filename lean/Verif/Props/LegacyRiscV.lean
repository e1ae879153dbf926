/-
Properties of the RISC-V back end for old compilers (src/arch_legacy/riscv.rs).
-/
import Verif.Proofs.LegacyRiscV
import Verif.Core.Progress
set_option linter.unusedSimpArgs false
set_option linter.unusedSectionVars false
namespace Verif.LegacyRiscV
open RiscV (fenceRW_RW fenceR_RW fenceRW_W sfx sfxAq sfxRl sfxAqRl noFence)
variable {W : Nat}

/-- Monitors of SeqCst operations. -/
def scMons : List Mon :=
  [ ((({} : Mon).onFence fenceRW_RW).onRd .plain).onFence fenceR_RW,
    ((({} : Mon).onFence fenceRW_W).onWr .plain).onFence fenceRW_RW,
    (({} : Mon).onRd sfxAqRl).onWr sfxAqRl,
    (({} : Mon).onRd sfxAqRl).onWr sfxRl,
    ({} : Mon).onRd sfxAqRl ]

theorem rd_ord {o : Ordering} {f : Pairs × Pairs} (h : loadFences o = some f) :
    RdOrd Pairs.none scMons o (((({} : Mon).onFence f.2).onRd .plain).onFence f.1) := by
  cases o <;> simp [loadFences] at h <;> subst h <;> decide +revert

theorem wr_ord {o : Ordering} {f : Pairs × Pairs} (h : storeFences o = some f) :
    WrOrd Pairs.none scMons o (((({} : Mon).onFence f.2).onWr .plain).onFence f.1) := by
  cases o <;> simp [storeFences] at h <;> subst h <;> decide +revert

theorem amo_ord (o : Ordering) :
    RmwOrd Pairs.none scMons o ((({} : Mon).onRd (amoOrder o)).onWr (amoOrder o)) := by
  cases o <;> decide

theorem lrsc_ord (o : Ordering) :
    RmwOrd Pairs.none scMons o ((({} : Mon).onRd (lrscOrder o).1).onWr (lrscOrder o).2) := by
  cases o <;> decide

theorem cas_ord {s f : Ordering} (hv : assertCompareExchangeOrdering s f = .ok ()) (ok : Bool) :
    CasOrd Pairs.none scMons s f ok (if ok then
      (({} : Mon).onRd (lrscOrder (upgradeSuccessOrdering s f)).1).onWr
        (lrscOrder (upgradeSuccessOrdering s f)).2
      else ({} : Mon).onRd (lrscOrder (upgradeSuccessOrdering s f)).1) := by
  cases s <;> cases f <;> simp [assertCompareExchangeOrdering] at hv <;> cases ok <;> decide

theorem good (e : Endian) (hW : 32 ≤ W) : Good (backend e W) scMons where
  load := by
    rintro o w a B ⟨al, po, p, hw, hf⟩
    exact (load_impl e al (size_le hW hw) _ po p _ rfl).mono (fun _ h => h)
      (by rintro m m' rs M ⟨h, rfl⟩; exact ⟨h, rd_ord hf⟩)
  store := by
    rintro o w a v B ⟨al, pv, p, val, hw, hf⟩
    exact (store_impl e al (size_le hW hw) _ pv p v _ rfl).mono (fun _ h => h)
      (by rintro m m' rs M ⟨h, rfl⟩; exact ⟨h, wr_ord hf⟩)
  swap := by
    rintro o w a v B (⟨al, o, po, pv, p, val, hw, hb⟩ | ⟨al, o, po, pv, p, val, hw, hal, hb⟩)
    · exact (swap_impl e al (size_le hW (.inr hw)) _ po pv p v hb _ rfl).mono (fun _ h => h)
        (by rintro m m' rs M ⟨h, rfl⟩; exact ⟨h, amo_ord _⟩)
    · exact (sub_swap_impl e al hW hw _ po pv p hal v hb _ rfl).mono (fun _ h => h)
        (by rintro m m' rs M ⟨h, rfl⟩; exact ⟨h, lrsc_ord _⟩)
  cas := by
    rintro s f w a old new B (⟨al, _, _, po, pold, pnew, p, _, _, hw, hv, hb⟩ | ⟨al, _, _, po, pold, pnew, p, _, _, hw, hv, hal, hb⟩)
    · exact (cas_impl e al (by rcases hw with rfl | ⟨rfl, _⟩ <;> rfl) (size_le hW (.inr hw))
        (by rcases hw with rfl | ⟨rfl, _⟩ <;> decide) _ po pold pnew p old new hb _ rfl).mono (fun _ h => h)
        (by rintro m m' rs M ⟨⟨h, _⟩, rfl⟩; exact ⟨h.weak, cas_ord hv _⟩)
    · exact (sub_cas_impl e al hW hw _ po pold pnew p hal old new hb _ rfl).mono (fun _ h => h)
        (by rintro m m' rs M ⟨⟨h, _⟩, rfl⟩; exact ⟨h.weak, cas_ord hv _⟩)
  casWeak := by
    rintro s f w a old new B (⟨al, _, _, po, pold, pnew, p, _, _, hw, hv, hb⟩ | ⟨al, _, _, po, pold, pnew, p, _, _, hw, hv, hal, hb⟩)
    · exact (cas_impl e al (by rcases hw with rfl | ⟨rfl, _⟩ <;> rfl) (size_le hW (.inr hw))
        (by rcases hw with rfl | ⟨rfl, _⟩ <;> decide) _ po pold pnew p old new hb _ rfl).mono (fun _ h => h)
        (by rintro m m' rs M ⟨⟨h, _⟩, rfl⟩; exact ⟨h.weak, cas_ord hv _⟩)
    · exact (sub_cas_impl e al hW hw _ po pold pnew p hal old new hb _ rfl).mono (fun _ h => h)
        (by rintro m m' rs M ⟨⟨h, _⟩, rfl⟩; exact ⟨h.weak, cas_ord hv _⟩)
  ord := by show ∀ M ∈ scMons, ∀ M' ∈ scMons, Ordered Pairs.none M M' = true; decide

theorem contract (e : Endian) : (backend e W).ContractOK := by
  intro w B hB
  cases hB with
  | load h => obtain ⟨al, po, p, hw, hf⟩ := h; contract_tac
  | store h => obtain ⟨al, pv, p, val, hw, hf⟩ := h; contract_tac
  | swap h =>
    obtain ⟨al, o, po, pv, p, val, hw, hb⟩ | ⟨al, o, po, pv, p, val, hw, hal, hb⟩ := h
    · contract_tac
    · contract_tac
  | cas h =>
    obtain ⟨al, _, _, po, pold, pnew, p, _, _, hw, hv, hb⟩ | ⟨al, _, _, po, pold, pnew, p, _, _, hw, hv, hal, hb⟩ := h
    · contract_tac
    · contract_tac
  | casWeak h =>
    obtain ⟨al, _, _, po, pold, pnew, p, _, _, hw, hv, hb⟩ | ⟨al, _, _, po, pold, pnew, p, _, _, hw, hv, hal, hb⟩ := h
    · contract_tac
    · contract_tac

theorem assumes (e : Endian) (hW : 32 ≤ W) : (backend e W).AssumesOK := by
  have hcas : ∀ {s f w a old new B}, Cas (W := W) e s f w a old new B → ∀ tr rs,
      B.Completed e tr rs → B.assumes rs := by
    rintro s f w a old new B (⟨al, _, _, po, pold, pnew, p, _, _, hw, hv, hb⟩ | ⟨al, _, _, po, pold, pnew, p, _, _, hw, hv, hal, hb⟩) tr rs hr
    · obtain ⟨_, _, h⟩ := (cas_impl e al (by rcases hw with rfl | ⟨rfl, _⟩ <;> rfl)
        (size_le hW (.inr hw)) (by rcases hw with rfl | ⟨rfl, _⟩ <;> decide) _ po pold pnew p old new hb _ rfl).completed hr
      exact h.1.2
    · obtain ⟨_, _, h⟩ := (sub_cas_impl e al hW hw _ po pold pnew p hal old new hb _ rfl).completed hr
      exact h.1.2
  intro w B tr rs hB hr
  cases hB with
  | load h => obtain ⟨al, po, p, hw, hf⟩ := h; exact trivial
  | store h => obtain ⟨al, pv, p, val, hw, hf⟩ := h; exact trivial
  | swap h =>
    obtain ⟨al, o, po, pv, p, val, hw, hb⟩ | ⟨al, o, po, pv, p, val, hw, hal, hb⟩ := h
    · exact trivial
    · exact trivial
  | cas h => exact hcas h tr rs hr
  | casWeak h => exact hcas h tr rs hr

theorem progress (e : Endian) : (backend e W).ProgressOK := by
  have hcas : ∀ {s f w a old new B}, Cas (W := W) e s f w a old new B → B.Progress e := by
    rintro s f w a old new B (⟨al, _, _, po, pold, pnew, p, _, _, hw, hv, hb⟩ | ⟨al, _, _, po, pold, pnew, p, _, _, hw, hv, hal, hb⟩)
    · progress_loop 20 2
    · progress_loop 30 5
  intro w B hB
  cases hB with
  | load h => obtain ⟨al, po, p, hw, hf⟩ := h; progress_straight
  | store h => obtain ⟨al, pv, p, val, hw, hf⟩ := h; progress_straight
  | swap h =>
    obtain ⟨al, o, po, pv, p, val, hw, hb⟩ | ⟨al, o, po, pv, p, val, hw, hal, hb⟩ := h
    · progress_straight
    · progress_loop 20 3
  | cas h => exact hcas h
  | casWeak h => exact hcas h

theorem total (e : Endian) (hW : 32 ≤ W) :
    (backend e W).Total W (fun w => SubSize w ∨ WordSize W w) (fun w => SubSize w ∨ WordSize W w) where
  load o w p hw _ ho := by
    cases o <;> simp [assertLoadOrdering] at ho <;> exact ⟨_, .mk (Alloc.std _) 0#W p hw rfl⟩
  store o w p v hw _ ho := by
    cases o <;> simp [assertStoreOrdering] at ho <;> exact ⟨_, .mk (Alloc.std _) 0#W p v hw rfl⟩
  swap o w p v hw hal := by
    rcases hw with hw | hw
    · exact ⟨_, .lrsc (Alloc.std _) o 0#W 1#W p v hw (.native hal) (buffers hW).1⟩
    · exact ⟨_, .amo (Alloc.std _) o 0#W 1#W p v hw (buffers hW).1⟩
  cas s f w p old new hw hal hv := by
    rcases hw with hw | hw
    · exact ⟨_, .sub (Alloc.std _) s f 0#W 1#W 2#W p old new hw hv (.native hal) (buffers hW).2⟩
    · exact ⟨_, .word (Alloc.std _) s f 0#W 1#W 2#W p old new hw hv (buffers hW).2⟩
  casWeak s f w p old new hw hal hv := by
    rcases hw with hw | hw
    · exact ⟨_, .sub (Alloc.std _) s f 0#W 1#W 2#W p old new hw hv (.native hal) (buffers hW).2⟩
    · exact ⟨_, .word (Alloc.std _) s f 0#W 1#W 2#W p old new hw hv (buffers hW).2⟩

/-! ### The properties -/

section Properties
variable (e : Endian) (hW : W = 32 ∨ W = 64)
include hW

theorem good' : Good (backend e W) scMons := good e (by omega)
theorem C01_legacy_riscv : (backend e W).LoadsAtomic := (good' e hW).loadsAtomic
theorem C02_legacy_riscv : (backend e W).StoresAtomic := (good' e hW).storesAtomic
theorem C03_legacy_riscv : (backend e W).SwapsAtomic := (good' e hW).swapsAtomic
/-- The old back end loads `old` with a sign-extending load, so even the 32-bit strong `compare_exchange` on riscv64
is exact (unlike src/arch/riscv.rs, `RiscV.C04_riscv64_word_fails`). -/
theorem C04_legacy_riscv : (backend e W).CasAtomic := by
  have hW : 32 ≤ W := by omega
  rintro s f w a old new B (⟨al, _, _, po, pold, pnew, p, _, _, hw, hv, hb⟩ |
    ⟨al, _, _, po, pold, pnew, p, _, _, hw, hv, hal, hb⟩)
  · exact (cas_impl e al (by rcases hw with rfl | ⟨rfl, _⟩ <;> rfl) (size_le hW (.inr hw))
      (by rcases hw with rfl | ⟨rfl, _⟩ <;> decide) _ po pold pnew p old new hb _ rfl).atomic fun _ _ _ _ h => h.1.1
  · exact (sub_cas_impl e al hW hw _ po pold pnew p hal old new hb _ rfl).atomic fun _ _ _ _ h => h.1.1
theorem C05_legacy_riscv : (backend e W).WeakCasAtomic := (good' e hW).weakCasAtomic
theorem C06_legacy_riscv : (backend e W).NeighboursOK := (good' e hW).neighbours
theorem C13_legacy_riscv : (backend e W).AcquireOK := (good' e hW).acquireOK
theorem C14_legacy_riscv : (backend e W).ReleaseOK := (good' e hW).releaseOK
theorem C15_legacy_riscv : (backend e W).SeqCstOK := (good' e hW).seqCstOK
theorem C16_legacy_riscv : (backend e W).FailureOK := (good' e hW).failureOK
theorem C17_legacy_riscv : (backend e W).ContractOK := contract e
theorem C19_legacy_riscv : (backend e W).AssumesOK := assumes e (by omega)
theorem C20_legacy_riscv : (backend e W).ProgressOK := progress e
theorem C11_legacy_riscv : (backend e W).Total W (fun w => SubSize w ∨ WordSize W w)
    (fun w => SubSize w ∨ WordSize W w) := total e (by omega)
end Properties

/-! ### The hypotheses are satisfiable: concrete blocks with completed runs -/

example : ∃ B tr rs, (backend .little 64).Cas .seqCst .acquire 16 0x1002 0x12#16 0x34#16 B ∧
    B.Completed .little tr rs := by
  have hB := Cas.sub (W := 64) (e := .little) (Alloc.std _) .seqCst .acquire (0x7fff0000#64) (0x7fff0010#64) (0x7fff0020#64)
    (0x1002#64) 0x12#16 0x34#16 (.inr rfl) rfl (.native rfl) (by decide)
  obtain ⟨tr, rs, h⟩ := (progress .little _ (Backend.IsBlock.cas hB)).completed'
    (by simp [subCasBlock]) (by simp [subCasBlock])
  exact ⟨_, tr, rs, hB, h⟩

end Verif.LegacyRiscV
