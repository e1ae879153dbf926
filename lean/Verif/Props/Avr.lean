/-
Properties of the AVR back end (src/arch/avr.rs).
-/
import Verif.Proofs.Avr
import Verif.Intr.Certs
import Verif.Core.Progress
import Verif.Api.Proof

namespace Verif.Avr

theorem certs : ICerts backend where
  load o w a B hB := by
    cases hB with
    | b al p hv => exact load8_cert al p
    | h al ro p hp hv => exact load16_cert al ro p hp
  store o w a v B hB := by
    cases hB with
    | b al p _ hv => exact store8_cert al p _
    | h al wo p _ hp hv => exact store16_cert al wo p _ hp
  swap o w a v B hB := by
    cases hB with
    | b al _ p _ => exact swap8_cert al p _
    | h al ro wo _ p _ hp => exact swap16_cert al ro wo p _ hp
  cas s f w a old new B hB := by
    cases hB with
    | b al p _ _ hv => exact cas8_cert al p _ _
    | h al ro wo p _ _ hp hv => exact cas16_cert al ro wo p _ _ hp
  casWeak s f w a old new B hB := by
    cases hB with
    | b al p _ _ hv => obtain ⟨C⟩ := cas8_cert al p _ _; exact ⟨C.mono fun _ _ _ _ h => h.weak⟩
    | h al ro wo p _ _ hp hv => obtain ⟨C⟩ := cas16_cert al ro wo p _ _ hp; exact ⟨C.mono fun _ _ _ _ h => h.weak⟩

theorem status {w : Nat} (B : Block 8 w) (hB : backend.IsBlock B) : B.StatusOK ien sreg := by
  cases hB with
  | load h => cases h with
    | b al p hv => exact load8_status al p
    | h al ro p hp hv => exact load16_status al ro p
  | store h => cases h with
    | b al p _ hv => exact store8_status al p _
    | h al wo p _ hp hv => exact store16_status al wo p _
  | swap h => cases h with
    | b al _ p _ => exact swap8_status al p _
    | h al ro wo _ p _ hp => exact swap16_status al ro wo p _
  | cas h => cases h with
    | b al p _ _ hv => exact cas8_status al p _ _
    | h al ro wo p _ _ hp hv => exact cas16_status al ro wo p _ _
  | casWeak h => cases h with
    | b al p _ _ hv => exact cas8_status al p _ _
    | h al ro wo p _ _ hp hv => exact cas16_status al ro wo p _ _

set_option maxHeartbeats 1000000 in
theorem cas16_frame (al ro wo p old new) : ∀ i ∈ (cas16Block al ro wo p old new).code,
    i.Frame (cas16Block al ro wo p old new).outs := by
  cases ro <;> cases wo <;> frame_tac
theorem swap16_frame (al ro wo p v) : ∀ i ∈ (swap16Block al ro wo p v).code,
    i.Frame (swap16Block al ro wo p v).outs := by
  cases ro <;> cases wo <;> frame_tac

theorem contract : backend.ContractOK := by
  intro w B hB c0 tr c hr
  refine frame_of (e := backend.e) (S := B.outs) ?_ c0 tr c hr.toRun
  cases hB with
  | load h => cases h with
    | b al p hv => frame_tac
    | h al ro p hp hv => cases ro <;> frame_tac
  | store h => cases h with
    | b al p _ hv => frame_tac
    | h al wo p _ hp hv => cases wo <;> frame_tac
  | swap h => cases h with
    | b al _ p _ => frame_tac
    | h al ro wo _ p _ hp => exact swap16_frame al ro wo p _
  | cas h => cases h with
    | b al p _ _ hv => frame_tac
    | h al ro wo p _ _ hp hv => exact cas16_frame al ro wo p _ _
  | casWeak h => cases h with
    | b al p _ _ hv => frame_tac
    | h al ro wo p _ _ hp hv => exact cas16_frame al ro wo p _ _

theorem progress : backend.ProgressOK := by
  intro w B hB
  cases hB with
  | load h => cases h with
    | b al p hv => progress_straight
    | h al ro p hp hv => cases ro <;> progress_straight
  | store h => cases h with
    | b al p _ hv => progress_straight
    | h al wo p _ hp hv => cases wo <;> progress_straight
  | swap h => cases h with
    | b al _ p _ => progress_straight
    | h al ro wo _ p _ hp => cases ro <;> cases wo <;> progress_straight
  | cas h => cases h with
    | b al p _ _ hv => progress_straight
    | h al ro wo p _ _ hp hv => cases ro <;> cases wo <;> progress_straight
  | casWeak h => cases h with
    | b al p _ _ hv => progress_straight
    | h al ro wo p _ _ hp hv => cases ro <;> cases wo <;> progress_straight

theorem total : backend.Total 16 SubSize SubSize where
  load o w p hw hp ho := by
    rcases hw with rfl | rfl
    · exact ⟨_, .b (Alloc.std _) p ho⟩
    · exact ⟨_, .h (Alloc.std _) true p hp ho⟩
  store o w p v hw hp ho := by
    rcases hw with rfl | rfl
    · exact ⟨_, .b (Alloc.std _) p v ho⟩
    · exact ⟨_, .h (Alloc.std _) true p v hp ho⟩
  swap o w p v hw hp := by
    rcases hw with rfl | rfl
    · exact ⟨_, .b (Alloc.std _) o p v⟩
    · exact ⟨_, .h (Alloc.std _) true true o p v hp⟩
  cas s f w p old new hw hp hv := by
    rcases hw with rfl | rfl
    · exact ⟨_, .b (Alloc.std _) p old new hv⟩
    · exact ⟨_, .h (Alloc.std _) true true p old new hp hv⟩
  casWeak s f w p old new hw hp hv := by
    rcases hw with rfl | rfl
    · exact ⟨_, .b (Alloc.std _) p old new hv⟩
    · exact ⟨_, .h (Alloc.std _) true true p old new hp hv⟩

/-! ### The properties -/

theorem C01_avr : backend.LoadsAtomic := certs.loadsAtomic
theorem C02_avr : backend.StoresAtomic := certs.storesAtomic
theorem C03_avr : backend.SwapsAtomic := certs.swapsAtomic
theorem C04_avr : backend.CasAtomic := certs.casAtomic
theorem C05_avr : backend.WeakCasAtomic := certs.weakCasAtomic
theorem C06_avr : backend.NeighboursOK := certs.neighboursOK
theorem C10_avr : backend.PanicsOK := Backend.panicsOK _
theorem C11_avr : backend.Total 16 SubSize SubSize := total
theorem C17_avr : backend.ContractOK := contract
theorem C20_avr : backend.ProgressOK := progress
theorem C21_avr (P) : backend.Linearizable P := IBackend.linearizable_of P certs.certified
theorem C23_avr_atomic : backend.AllAtomic := ⟨C01_avr, C02_avr, C03_avr, C04_avr, C05_avr⟩
theorem C23_avr_restores : backend.StatusRestored sreg := IBackend.statusRestored status
theorem C23_avr_nests : backend.NestsOK := IBackend.nestsOK status
theorem C31_avr (P) : backend.NoLostUpdates P := (C21_avr P).noLostUpdates
theorem C36_avr (P) : backend.SwapConserves P := (C21_avr P).swapConserves

/-- The interrupt-enable bit is restored. -/
theorem C23_avr_ien {w : Nat} (B : Block 8 w) (hB : backend.IsBlock B) (tr rs0 rs)
    (h : B.ICompleted .little ien tr rs0 rs) : ien rs = ien rs0 := by
  simp only [ien, C23_avr_restores B hB tr rs0 rs h]

/-- C32 (AVR): `xor8(a, b) == 0` and `xor8(a1, b1) | xor8(a2, b2) == 0` are equality of the values (l.76-86). -/
theorem C32_avr (a b : BitVec 8) (c d : BitVec 16) :
    (a ^^^ b = 0#8 ↔ a = b) ∧ (((lo8 c ^^^ lo8 d) ||| (hi8 c ^^^ hi8 d)) = 0#8 ↔ c = d) :=
  ⟨BitVec.xor_eq_zero_iff, cmp16_zero c d⟩

/-! ### The hypotheses are satisfiable: an 8-bit swap, interrupted before `cli` -/

/-- registers with Z = 0x1002 and interrupts enabled -/
def exRegs : RS 8 := ⟨fun j => if j = 0 then 0x80#8 else if j = Alloc.std kind .x0 + 2 then 0x02#8
  else if j = Alloc.std kind .x1 + 2 then 0x10#8 else 0#8, false, 0⟩

example : ∃ B tr rs, backend.Swap .acqRel 8 0x1002 0#8 B ∧ B.ICompleted .little ien tr exRegs rs ∧
    (∃ m m', TEv.env m m' ∈ tr) := by
  have r0 := IRun.nil (e := .little) (ien := ien) (P := (swap8Block (Alloc.std _) 0x1002#16 0#8).code)
    (c0 := ⟨0, exRegs, fun _ => 0#8, none⟩)
  have r1 := r0.own (i := in_sreg (rg (Alloc.std kind) .tmp)) rfl (Step.op _ _ ⟨0⟩)
  have r2 := r1.irq (by decide) (fun _ => 1#8)
  have r3 := r2.own (i := cli) rfl (Step.op _ _ ⟨0⟩)
  have r4 := r3.own (i := ld (rg (Alloc.std kind) .out_lo) (rg (Alloc.std kind) .x0) (rg (Alloc.std kind) .x1)) rfl
    (Step.ld _ _ _ _ _)
  have r5 := r4.own (i := st (rg (Alloc.std kind) .x0) (rg (Alloc.std kind) .x1) (rg (Alloc.std kind) .val_lo)) rfl
    (Step.st _ _ _ _ _)
  have r6 := r5.own (i := out_sreg (rg (Alloc.std kind) .tmp)) rfl (Step.op _ _ ⟨0⟩)
  refine ⟨_, _, _, .b (Alloc.std _) .acqRel 0x1002#16 0#8, ⟨_, _, rfl, ?_, r6, rfl, rfl, rfl⟩, ?_⟩
  · intro x hx
    simp only [swap8Block, List.mem_cons, List.not_mem_nil, or_false] at hx
    rcases hx with rfl | rfl | rfl <;> decide
  · exact ⟨_, _, List.mem_append_left _ (List.mem_append_left _ (List.mem_append_left _
      (List.mem_append_left _ (List.mem_append_right _ (List.mem_singleton.2 rfl)))))⟩

end Verif.Avr
