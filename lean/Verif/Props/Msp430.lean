/-
Properties of the MSP430 back end (src/arch/msp430.rs).
-/
import Verif.Proofs.Msp430
import Verif.Intr.Certs
import Verif.Core.Progress
import Verif.Api.Proof

namespace Verif.Msp430

theorem certs : ICerts backend where
  load o w a B hB := by obtain ⟨al, p, hw, hv⟩ := hB; exact load_cert al hw p
  store o w a v B hB := by obtain ⟨al, p, _, hw, hv⟩ := hB; exact store_cert al hw p _
  swap o w a v B hB := by obtain ⟨al, _, p, _, hw⟩ := hB; exact swap_cert al hw p _
  cas s f w a old new B hB := by obtain ⟨al, p, _, _, hw, hv⟩ := hB; exact cas_cert al hw p _ _
  casWeak s f w a old new B hB := by
    obtain ⟨al, p, _, _, hw, hv⟩ := hB
    obtain ⟨C⟩ := cas_cert al hw p old new
    exact ⟨C.mono fun _ _ _ _ h => h.weak⟩

theorem status {w : Nat} (B : Block 16 w) (hB : backend.IsBlock B) : B.StatusOK ien sr := by
  cases hB with
  | load h => obtain ⟨al, p, hw, hv⟩ := h; exact load_status al _ p
  | store h => obtain ⟨al, p, _, hw, hv⟩ := h; exact store_status al _ p _
  | swap h => obtain ⟨al, _, p, _, hw⟩ := h; exact swap_status al _ p _
  | cas h => obtain ⟨al, p, _, _, hw, hv⟩ := h; exact cas_status al _ p _ _
  | casWeak h => obtain ⟨al, p, _, _, hw, hv⟩ := h; exact cas_status al _ p _ _

theorem contract : backend.ContractOK := by
  intro w B hB c0 tr c hr
  refine frame_of (e := backend.e) (S := B.outs) ?_ c0 tr c hr.toRun
  cases hB with
  | load h => obtain ⟨al, p, hw, hv⟩ := h; frame_tac
  | store h => obtain ⟨al, p, _, hw, hv⟩ := h; frame_tac
  | swap h => obtain ⟨al, _, p, _, hw⟩ := h; frame_tac
  | cas h => obtain ⟨al, p, _, _, hw, hv⟩ := h; frame_tac
  | casWeak h => obtain ⟨al, p, _, _, hw, hv⟩ := h; frame_tac

theorem progress : backend.ProgressOK := by
  intro w B hB
  cases hB with
  | load h => obtain ⟨al, p, hw, hv⟩ := h; progress_straight
  | store h => obtain ⟨al, p, _, hw, hv⟩ := h; progress_straight
  | swap h => obtain ⟨al, _, p, _, hw⟩ := h; progress_straight
  | cas h => obtain ⟨al, p, _, _, hw, hv⟩ := h; progress_straight
  | casWeak h => obtain ⟨al, p, _, _, hw, hv⟩ := h; progress_straight

theorem total : backend.Total 16 SubSize SubSize where
  load o w p hw _ ho := ⟨_, .mk (Alloc.std _) p hw ho⟩
  store o w p v hw _ ho := ⟨_, .mk (Alloc.std _) p v hw ho⟩
  swap o w p v hw _ := ⟨_, .mk (Alloc.std _) o p v hw⟩
  cas s f w p old new hw _ hv := ⟨_, .mk (Alloc.std _) p old new hw hv⟩
  casWeak s f w p old new hw _ hv := ⟨_, .mk (Alloc.std _) p old new hw hv⟩

/-! ### The properties -/

theorem C01_msp430 : backend.LoadsAtomic := certs.loadsAtomic
theorem C02_msp430 : backend.StoresAtomic := certs.storesAtomic
theorem C03_msp430 : backend.SwapsAtomic := certs.swapsAtomic
theorem C04_msp430 : backend.CasAtomic := certs.casAtomic
theorem C05_msp430 : backend.WeakCasAtomic := certs.weakCasAtomic
theorem C06_msp430 : backend.NeighboursOK := certs.neighboursOK
theorem C10_msp430 : backend.PanicsOK := Backend.panicsOK _
theorem C11_msp430 : backend.Total 16 SubSize SubSize := total
theorem C17_msp430 : backend.ContractOK := contract
theorem C20_msp430 : backend.ProgressOK := progress
theorem C21_msp430 (P) : backend.Linearizable P := IBackend.linearizable_of P certs.certified
theorem C23_msp430_atomic : backend.AllAtomic := ⟨C01_msp430, C02_msp430, C03_msp430, C04_msp430, C05_msp430⟩
theorem C23_msp430_restores : backend.StatusRestored sr := IBackend.statusRestored status
theorem C23_msp430_nests : backend.NestsOK := IBackend.nestsOK status
theorem C31_msp430 (P) : backend.NoLostUpdates P := (C21_msp430 P).noLostUpdates
theorem C36_msp430 (P) : backend.SwapConserves P := (C21_msp430 P).swapConserves

/-- The interrupt-enable bit is restored. -/
theorem C23_msp430_gie {w : Nat} (B : Block 16 w) (hB : backend.IsBlock B) (tr rs0 rs)
    (h : B.ICompleted .little ien tr rs0 rs) : gie (rs.r sr) = gie (rs0.r sr) := by
  rw [C23_msp430_restores B hB tr rs0 rs h]

/-! ### The hypotheses are satisfiable: a byte swap, interrupted after `dint` (whose effect is delayed) -/

/-- registers with dst = 0x1002 and interrupts enabled -/
def exRegs : RS 16 := ⟨fun j => if j = 0 then 0x8#16 else if j = Alloc.std kind .dst + 2 then 0x1002#16
  else 0#16, false, 0⟩

example : ∃ B tr rs, backend.Swap .acqRel 8 0x1002 0#8 B ∧ B.ICompleted .little ien tr exRegs rs ∧
    (∃ m m', TEv.env m m' ∈ tr) := by
  have r0 := IRun.nil (e := .little) (ien := ien) (P := (swapBlock (Alloc.std _) 8 0x1002#16 0#8).code)
    (c0 := ⟨0, exRegs, fun _ => 0#8, none⟩)
  have r1 := r0.own (i := mov_from_sr (rg (Alloc.std kind) .tmp)) rfl (Step.op _ _ ⟨0⟩)
  have r2 := r1.own (i := dint) rfl (Step.op _ _ ⟨0⟩)
  have r3 := r2.irq (by decide) (fun _ => 1#8)
  have r4 := r3.own (i := nop) rfl (Step.op _ _ ⟨0⟩)
  have r5 := r4.own (i := mov_ld 8 (rg (Alloc.std kind) .dst) (rg (Alloc.std kind) .out)) rfl
    (Step.ld _ _ _ _ _)
  have r6 := r5.own (i := mov_st 8 (rg (Alloc.std kind) .val) (rg (Alloc.std kind) .dst)) rfl
    (Step.st _ _ _ _ _)
  have r7 := r6.own (i := nop) rfl (Step.op _ _ ⟨0⟩)
  have r8 := r7.own (i := mov_to_sr (rg (Alloc.std kind) .tmp)) rfl (Step.op _ _ ⟨0⟩)
  have r9 := r8.own (i := nop) rfl (Step.op _ _ ⟨0⟩)
  refine ⟨_, _, _, .mk (Alloc.std _) .acqRel 0x1002#16 0#8 (.inl rfl), ⟨_, _, rfl, ?_, r9, rfl, rfl, rfl⟩, ?_⟩
  · intro x hx
    simp only [swapBlock, List.mem_cons, List.not_mem_nil, or_false] at hx
    rcases hx with rfl | rfl <;> decide
  · exact ⟨_, _, List.mem_append_left _ (List.mem_append_left _ (List.mem_append_left _ (List.mem_append_left _
      (List.mem_append_left _ (List.mem_append_left _ (List.mem_append_right _ (List.mem_singleton.2 rfl)))))))⟩

end Verif.Msp430
