/-
C48: the hypotheses can be met. An execution with two critical sections, in every model of memory used for C48, for several back ends
(with read-modify-write instructions, load-linked/store-conditional loops, barriers, annotated accesses).
-/
import Verif.Weak.LockSample
import Verif.Props.Lock

namespace Verif
open LockSample

/-- some registers hold the arguments -/
theorem Backend.startable_of {W : Nat} {A : Backend W} {c : Call} {B : Block W c.width} (hB : A.Runs c B) (hd : (B.args.map Arg.reg).Nodup)
    (hn : ∀ x ∈ B.args, x.n ≤ W) : A.Startable c := ⟨B, hB, _, argRegs_pre hd hn⟩

/-- C48: two critical sections on riscv32. -/
theorem C48_example_riscv32 (e : Endian) (z : Bool) : Met (RiscV.backend e 32 z) := by
  refine met (RiscV.good' e (by decide) z) (RiscV.progress e z) (C39_riscv e (by decide) z) ⟨by decide, by cases z <;> decide, by decide⟩ ?_ ?_ ?_ ?_
  · exact Backend.startable_of (RiscV.Swap.amo (Alloc.std _) .acquire 0x1000#32 1#32 (.inl (.inl rfl))) (by simp [RiscV.swapBlock]) (by simp [RiscV.swapBlock])
  · exact Backend.startable_of (RiscV.Store.mk (o := .release) (Alloc.std _) 0x1000#32 0#32 (.inr (.inl rfl)) rfl) (by simp [RiscV.storeBlock]) (by simp [RiscV.storeBlock])
  · exact Backend.startable_of (RiscV.Store.mk (o := .relaxed) (Alloc.std _) 0x2000#32 7#32 (.inr (.inl rfl)) rfl) (by simp [RiscV.storeBlock]) (by simp [RiscV.storeBlock])
  · exact Backend.startable_of (RiscV.Load.mk (o := .relaxed) (Alloc.std _) 0x2000#32 (.inr (.inl rfl)) rfl) (by simp [RiscV.loadBlock]) (by simp [RiscV.loadBlock])

/-- C48: two critical sections on mips32. -/
theorem C48_example_mips32 (e : Endian) : Met (Mips.backend e 32) := by
  refine met (Mips.good' e (by decide)) (Mips.progress e (by decide)) (C39_mips e (by decide)) (by decide) ?_ ?_ ?_ ?_
  · exact Backend.startable_of (Mips.Swap.word (Alloc.std _) .acquire 0x1000#32 1#32 (.inl rfl)) (by simp [Mips.swapBlock]) (by simp [Mips.swapBlock])
  · exact Backend.startable_of (Mips.Store.mk (o := .release) (Alloc.std _) 0x1000#32 0#32 (.inr (.inl rfl)) rfl) (by simp [Mips.storeBlock]) (by simp [Mips.storeBlock])
  · exact Backend.startable_of (Mips.Store.mk (o := .relaxed) (Alloc.std _) 0x2000#32 7#32 (.inr (.inl rfl)) rfl) (by simp [Mips.storeBlock]) (by simp [Mips.storeBlock])
  · exact Backend.startable_of (Mips.Load.mk (o := .relaxed) (Alloc.std _) 0x2000#32 (.inr (.inl rfl)) rfl) (by simp [Mips.loadBlock]) (by simp [Mips.loadBlock])

/-- C48: two critical sections on riscv64. -/
theorem C48_example_riscv64 (e : Endian) (z : Bool) : Met (RiscV.backend e 64 z) := by
  refine met (RiscV.good' e (by decide) z) (RiscV.progress e z) (C39_riscv e (by decide) z) ⟨by decide, by cases z <;> decide, by decide⟩ ?_ ?_ ?_ ?_
  · exact Backend.startable_of (RiscV.Swap.amo (Alloc.std _) .acquire 0x1000#64 1#32 (.inl (.inl rfl))) (by simp [RiscV.swapBlock]) (by simp [RiscV.swapBlock])
  · exact Backend.startable_of (RiscV.Store.mk (o := .release) (Alloc.std _) 0x1000#64 0#32 (.inr (.inl rfl)) rfl) (by simp [RiscV.storeBlock]) (by simp [RiscV.storeBlock])
  · exact Backend.startable_of (RiscV.Store.mk (o := .relaxed) (Alloc.std _) 0x2000#64 7#32 (.inr (.inl rfl)) rfl) (by simp [RiscV.storeBlock]) (by simp [RiscV.storeBlock])
  · exact Backend.startable_of (RiscV.Load.mk (o := .relaxed) (Alloc.std _) 0x2000#64 (.inr (.inl rfl)) rfl) (by simp [RiscV.loadBlock]) (by simp [RiscV.loadBlock])

/-- C48: two critical sections on mips64. -/
theorem C48_example_mips64 (e : Endian) : Met (Mips.backend e 64) := by
  refine met (Mips.good' e (by decide)) (Mips.progress e (by decide)) (C39_mips e (by decide)) (by decide) ?_ ?_ ?_ ?_
  · exact Backend.startable_of (Mips.Swap.word (Alloc.std _) .acquire 0x1000#64 1#32 (.inl rfl)) (by simp [Mips.swapBlock]) (by simp [Mips.swapBlock])
  · exact Backend.startable_of (Mips.Store.mk (o := .release) (Alloc.std _) 0x1000#64 0#32 (.inr (.inl rfl)) rfl) (by simp [Mips.storeBlock]) (by simp [Mips.storeBlock])
  · exact Backend.startable_of (Mips.Store.mk (o := .relaxed) (Alloc.std _) 0x2000#64 7#32 (.inr (.inl rfl)) rfl) (by simp [Mips.storeBlock]) (by simp [Mips.storeBlock])
  · exact Backend.startable_of (Mips.Load.mk (o := .relaxed) (Alloc.std _) 0x2000#64 (.inr (.inl rfl)) rfl) (by simp [Mips.loadBlock]) (by simp [Mips.loadBlock])

/-- C48: two critical sections on arm. -/
theorem C48_example_arm (e : Endian) : Met (Arm.backend e ⟨true, true⟩) := by
  refine met (Arm.good e _) (Arm.progress e _) (C39_arm e _) (by decide) ?_ ?_ ?_ ?_
  · exact Backend.startable_of (Arm.Swap.word (Alloc.std _) .acquire 0x1000#32 1#32 (.inr rfl)) (by simp [Arm.swapBlock]) (by simp [Arm.swapBlock])
  · exact Backend.startable_of (Arm.Store.word (o := .release) (Alloc.std _) 0x1000#32 0#32 (.inr rfl) rfl) (by simp [Arm.storeBlock]) (by simp [Arm.storeBlock])
  · exact Backend.startable_of (Arm.Store.word (o := .relaxed) (Alloc.std _) 0x2000#32 7#32 (.inr rfl) rfl) (by simp [Arm.storeBlock]) (by simp [Arm.storeBlock])
  · exact Backend.startable_of (Arm.Load.word (o := .relaxed) (Alloc.std _) 0x2000#32 (.inr rfl) rfl) (by simp [Arm.loadBlock]) (by simp [Arm.loadBlock])

/-- C48: two critical sections on powerpc64. -/
theorem C48_example_powerpc64 (e : Endian) (c : PowerPC.Conf) : Met (PowerPC.backend e 64 c) := by
  refine met (PowerPC.good e (by decide) c) (PowerPC.progress e c) (C39_powerpc e (by decide) c) ⟨by decide, by cases c.partword <;> decide, by cases c.partword <;> decide⟩ ?_ ?_ ?_ ?_
  · exact Backend.startable_of (PowerPC.Swap.word (Alloc.std _) .acquire 0x1000#64 1#32 (.inr (.inl rfl))) (by simp [PowerPC.swapBlock]) (by simp [PowerPC.swapBlock])
  · exact Backend.startable_of (PowerPC.Store.word (o := .release) (Alloc.std _) 0x1000#64 0#32 (.inr (.inl rfl)) rfl) (by simp [PowerPC.storeBlock]) (by simp [PowerPC.storeBlock])
  · exact Backend.startable_of (PowerPC.Store.word (o := .relaxed) (Alloc.std _) 0x2000#64 7#32 (.inr (.inl rfl)) rfl) (by simp [PowerPC.storeBlock]) (by simp [PowerPC.storeBlock])
  · exact Backend.startable_of (PowerPC.Load.rlx (o := .relaxed) (Alloc.std _) 0x2000#64 (.inr (.inl rfl)) rfl) (by simp [PowerPC.loadBlock]) (by simp [PowerPC.loadBlock])

/-- C48: two critical sections on aarch64. -/
theorem C48_example_aarch64 (e : Endian) : Met (AArch64.backend e ⟨false, false, false, false, false, false⟩) := by
  refine met (AArch64.good e _) (AArch64.progress e _) (C39_aarch64 e _) (by decide) ?_ ?_ ?_ ?_
  · exact Backend.startable_of (AArch64.Swap.word (Alloc.std _) .acquire rfl 0x1000#64 1#32 (.inr (.inl rfl))) (by simp [AArch64.swapBlock]) (by simp [AArch64.swapBlock])
  · exact Backend.startable_of (AArch64.Store.word (o := .release) (Alloc.std _) 0x1000#64 0#32 (.inr (.inl rfl)) rfl) (by simp [AArch64.storeBlock]) (by simp [AArch64.storeBlock])
  · exact Backend.startable_of (AArch64.Store.word (o := .relaxed) (Alloc.std _) 0x2000#64 7#32 (.inr (.inl rfl)) rfl) (by simp [AArch64.storeBlock]) (by simp [AArch64.storeBlock])
  · exact Backend.startable_of (AArch64.Load.word (o := .relaxed) (Alloc.std _) 0x2000#64 (.inr (.inl rfl)) rfl) (by simp [AArch64.loadBlock]) (by simp [AArch64.loadBlock])

/-- C48: two critical sections on x86_64. -/
theorem C48_example_x86_64 (b : Bool) : Met (X86.backend64 ⟨64, .inr rfl, b⟩) := by
  refine met (X86.good64 _) (X86.progress64 _) (C39_x86_64 _) (by decide) ?_ ?_ ?_ ?_
  · exact Backend.startable_of (X86.Swap64.word (c := ⟨64, .inr rfl, b⟩) (Alloc.std _) .acquire 0x1000#64 1#32 (.inr (.inl rfl))) (by simp [X86.swapBlock]) (by simp [X86.swapBlock])
  · exact Backend.startable_of (X86.Store64.mov (c := ⟨64, .inr rfl, b⟩) (o := .release) (Alloc.std _) 0x1000#64 0#32 (.inr (.inl rfl)) rfl) (by simp [X86.storeBlock]) (by simp [X86.storeBlock])
  · exact Backend.startable_of (X86.Store64.mov (c := ⟨64, .inr rfl, b⟩) (o := .relaxed) (Alloc.std _) 0x2000#64 7#32 (.inr (.inl rfl)) rfl) (by simp [X86.storeBlock]) (by simp [X86.storeBlock])
  · exact Backend.startable_of (X86.Load64.word (c := ⟨64, .inr rfl, b⟩) (Alloc.std _) .relaxed 0x2000#64 (.inr (.inl rfl))) (by simp [X86.loadBlock]) (by simp [X86.loadBlock])

end Verif
