/-
C49: the hypotheses can be met. An execution without data races in which two threads exchange data through a flag, in every model of
memory used for C49, for several back ends.
-/
import Verif.Weak.DRFSample
import Verif.Props.DRF
import Verif.Props.LockLitmus

namespace Verif
open DRFSample

/-- C49: two threads exchange data on riscv32. -/
theorem C49_example_riscv32 (e : Endian) (z : Bool) : Met (RiscV.backend e 32 z) :=
  met (RiscV.good' e (by decide) z) (RiscV.paired e 32 z) (RiscV.progress e z) (C39_riscv e (by decide) z)
    (Backend.startable_of (RiscV.Store.mk (o := .seqCst) (Alloc.std _) 0x1000#32 1#32 (.inr (.inl rfl)) rfl) (by simp [RiscV.storeBlock]) (by simp [RiscV.storeBlock]))
    (Backend.startable_of (RiscV.Load.mk (o := .seqCst) (Alloc.std _) 0x1000#32 (.inr (.inl rfl)) rfl) (by simp [RiscV.loadBlock]) (by simp [RiscV.loadBlock]))

/-- C49: two threads exchange data on mips32. -/
theorem C49_example_mips32 (e : Endian) : Met (Mips.backend e 32) :=
  met (Mips.good' e (by decide)) (Mips.paired e 32) (Mips.progress e (by decide)) (C39_mips e (by decide))
    (Backend.startable_of (Mips.Store.mk (o := .seqCst) (Alloc.std _) 0x1000#32 1#32 (.inr (.inl rfl)) rfl) (by simp [Mips.storeBlock]) (by simp [Mips.storeBlock]))
    (Backend.startable_of (Mips.Load.mk (o := .seqCst) (Alloc.std _) 0x1000#32 (.inr (.inl rfl)) rfl) (by simp [Mips.loadBlock]) (by simp [Mips.loadBlock]))

/-- C49: two threads exchange data on riscv64. -/
theorem C49_example_riscv64 (e : Endian) (z : Bool) : Met (RiscV.backend e 64 z) :=
  met (RiscV.good' e (by decide) z) (RiscV.paired e 64 z) (RiscV.progress e z) (C39_riscv e (by decide) z)
    (Backend.startable_of (RiscV.Store.mk (o := .seqCst) (Alloc.std _) 0x1000#64 1#32 (.inr (.inl rfl)) rfl) (by simp [RiscV.storeBlock]) (by simp [RiscV.storeBlock]))
    (Backend.startable_of (RiscV.Load.mk (o := .seqCst) (Alloc.std _) 0x1000#64 (.inr (.inl rfl)) rfl) (by simp [RiscV.loadBlock]) (by simp [RiscV.loadBlock]))

/-- C49: two threads exchange data on mips64. -/
theorem C49_example_mips64 (e : Endian) : Met (Mips.backend e 64) :=
  met (Mips.good' e (by decide)) (Mips.paired e 64) (Mips.progress e (by decide)) (C39_mips e (by decide))
    (Backend.startable_of (Mips.Store.mk (o := .seqCst) (Alloc.std _) 0x1000#64 1#32 (.inr (.inl rfl)) rfl) (by simp [Mips.storeBlock]) (by simp [Mips.storeBlock]))
    (Backend.startable_of (Mips.Load.mk (o := .seqCst) (Alloc.std _) 0x1000#64 (.inr (.inl rfl)) rfl) (by simp [Mips.loadBlock]) (by simp [Mips.loadBlock]))

/-- C49: two threads exchange data on arm. -/
theorem C49_example_arm (e : Endian) : Met (Arm.backend e ⟨true, true⟩) :=
  met (Arm.good e _) (Arm.paired e _) (Arm.progress e _) (C39_arm e _)
    (Backend.startable_of (Arm.Store.word (o := .seqCst) (Alloc.std _) 0x1000#32 1#32 (.inr rfl) rfl) (by simp [Arm.storeBlock]) (by simp [Arm.storeBlock]))
    (Backend.startable_of (Arm.Load.word (o := .seqCst) (Alloc.std _) 0x1000#32 (.inr rfl) rfl) (by simp [Arm.loadBlock]) (by simp [Arm.loadBlock]))

/-- C49: two threads exchange data on powerpc64. -/
theorem C49_example_powerpc64 (e : Endian) (c : PowerPC.Conf) : Met (PowerPC.backend e 64 c) :=
  met (PowerPC.good e (by decide) c) (PowerPC.paired e 64 c) (PowerPC.progress e c) (C39_powerpc e (by decide) c)
    (Backend.startable_of (PowerPC.Store.word (o := .seqCst) (Alloc.std _) 0x1000#64 1#32 (.inr (.inl rfl)) rfl) (by simp [PowerPC.storeBlock]) (by simp [PowerPC.storeBlock]))
    (Backend.startable_of (PowerPC.Load.acq (o := .seqCst) (Alloc.std _) 0x1000#64 (.inr (.inl rfl)) rfl) (by simp [PowerPC.loadAcqBlock]) (by simp [PowerPC.loadAcqBlock]))

/-- C49: two threads exchange data on aarch64. -/
theorem C49_example_aarch64 (e : Endian) : Met (AArch64.backend e ⟨false, false, false, false, false, false⟩) :=
  met (AArch64.good e _) (AArch64.paired e _) (AArch64.progress e _) (C39_aarch64 e _)
    (Backend.startable_of (AArch64.Store.word (o := .seqCst) (Alloc.std _) 0x1000#64 1#32 (.inr (.inl rfl)) rfl) (by simp [AArch64.storeBlock]) (by simp [AArch64.storeBlock]))
    (Backend.startable_of (AArch64.Load.word (o := .seqCst) (Alloc.std _) 0x1000#64 (.inr (.inl rfl)) rfl) (by simp [AArch64.loadBlock]) (by simp [AArch64.loadBlock]))

/-- C49: two threads exchange data on x86_64. -/
theorem C49_example_x86_64 (b : Bool) : Met (X86.backend64 ⟨64, .inr rfl, b⟩) :=
  met (X86.good64 _) (X86.paired64 _) (X86.progress64 _) (C39_x86_64 _)
    (Backend.startable_of (X86.Store64.xchg (c := ⟨64, .inr rfl, b⟩) (o := .seqCst) (Alloc.std _) 0x1000#64 1#32 (.inr (.inl rfl)) rfl) (by simp [X86.swapBlock]) (by simp [X86.swapBlock]))
    (Backend.startable_of (X86.Load64.word (c := ⟨64, .inr rfl, b⟩) (Alloc.std _) .seqCst 0x1000#64 (.inr (.inl rfl))) (by simp [X86.loadBlock]) (by simp [X86.loadBlock]))

end Verif
