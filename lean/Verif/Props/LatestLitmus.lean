/-
C50: the hypotheses can be met. An execution without data races in which two threads exchange data through a flag, in every model of
memory used for C50, for several back ends.
-/
import Verif.Weak.LatestSample
import Verif.Props.Latest
import Verif.Props.LockLitmus

namespace Verif
open LatestSample

/-- C50: two threads exchange data on riscv32. -/
theorem C50_example_riscv32 (e : Endian) (z : Bool) : Met (RiscV.backend e 32 z) :=
  met (RiscV.good' e (by decide) z) (RiscV.paired e 32 z) (RiscV.progress e z) (C39_riscv e (by decide) z)
    (Backend.startable_of (RiscV.Store.mk (o := .release) (Alloc.std _) 0x1000#32 1#32 (.inr (.inl rfl)) rfl) (by simp [RiscV.storeBlock]) (by simp [RiscV.storeBlock]))
    (Backend.startable_of (RiscV.Load.mk (o := .acquire) (Alloc.std _) 0x1000#32 (.inr (.inl rfl)) rfl) (by simp [RiscV.loadBlock]) (by simp [RiscV.loadBlock]))

/-- C50: two threads exchange data on mips32. -/
theorem C50_example_mips32 (e : Endian) : Met (Mips.backend e 32) :=
  met (Mips.good' e (by decide)) (Mips.paired e 32) (Mips.progress e (by decide)) (C39_mips e (by decide))
    (Backend.startable_of (Mips.Store.mk (o := .release) (Alloc.std _) 0x1000#32 1#32 (.inr (.inl rfl)) rfl) (by simp [Mips.storeBlock]) (by simp [Mips.storeBlock]))
    (Backend.startable_of (Mips.Load.mk (o := .acquire) (Alloc.std _) 0x1000#32 (.inr (.inl rfl)) rfl) (by simp [Mips.loadBlock]) (by simp [Mips.loadBlock]))

/-- C50: two threads exchange data on riscv64. -/
theorem C50_example_riscv64 (e : Endian) (z : Bool) : Met (RiscV.backend e 64 z) :=
  met (RiscV.good' e (by decide) z) (RiscV.paired e 64 z) (RiscV.progress e z) (C39_riscv e (by decide) z)
    (Backend.startable_of (RiscV.Store.mk (o := .release) (Alloc.std _) 0x1000#64 1#32 (.inr (.inl rfl)) rfl) (by simp [RiscV.storeBlock]) (by simp [RiscV.storeBlock]))
    (Backend.startable_of (RiscV.Load.mk (o := .acquire) (Alloc.std _) 0x1000#64 (.inr (.inl rfl)) rfl) (by simp [RiscV.loadBlock]) (by simp [RiscV.loadBlock]))

/-- C50: two threads exchange data on mips64. -/
theorem C50_example_mips64 (e : Endian) : Met (Mips.backend e 64) :=
  met (Mips.good' e (by decide)) (Mips.paired e 64) (Mips.progress e (by decide)) (C39_mips e (by decide))
    (Backend.startable_of (Mips.Store.mk (o := .release) (Alloc.std _) 0x1000#64 1#32 (.inr (.inl rfl)) rfl) (by simp [Mips.storeBlock]) (by simp [Mips.storeBlock]))
    (Backend.startable_of (Mips.Load.mk (o := .acquire) (Alloc.std _) 0x1000#64 (.inr (.inl rfl)) rfl) (by simp [Mips.loadBlock]) (by simp [Mips.loadBlock]))

/-- C50: two threads exchange data on arm. -/
theorem C50_example_arm (e : Endian) : Met (Arm.backend e ⟨true, true⟩) :=
  met (Arm.good e _) (Arm.paired e _) (Arm.progress e _) (C39_arm e _)
    (Backend.startable_of (Arm.Store.word (o := .release) (Alloc.std _) 0x1000#32 1#32 (.inr rfl) rfl) (by simp [Arm.storeBlock]) (by simp [Arm.storeBlock]))
    (Backend.startable_of (Arm.Load.word (o := .acquire) (Alloc.std _) 0x1000#32 (.inr rfl) rfl) (by simp [Arm.loadBlock]) (by simp [Arm.loadBlock]))

/-- C50: two threads exchange data on powerpc64. -/
theorem C50_example_powerpc64 (e : Endian) (c : PowerPC.Conf) : Met (PowerPC.backend e 64 c) :=
  met (PowerPC.good e (by decide) c) (PowerPC.paired e 64 c) (PowerPC.progress e c) (C39_powerpc e (by decide) c)
    (Backend.startable_of (PowerPC.Store.word (o := .release) (Alloc.std _) 0x1000#64 1#32 (.inr (.inl rfl)) rfl) (by simp [PowerPC.storeBlock]) (by simp [PowerPC.storeBlock]))
    (Backend.startable_of (PowerPC.Load.acq (o := .acquire) (Alloc.std _) 0x1000#64 (.inr (.inl rfl)) rfl) (by simp [PowerPC.loadAcqBlock]) (by simp [PowerPC.loadAcqBlock]))

/-- C50: two threads exchange data on aarch64. -/
theorem C50_example_aarch64 (e : Endian) : Met (AArch64.backend e ⟨false, false, false, false, false, false⟩) :=
  met (AArch64.good e _) (AArch64.paired e _) (AArch64.progress e _) (C39_aarch64 e _)
    (Backend.startable_of (AArch64.Store.word (o := .release) (Alloc.std _) 0x1000#64 1#32 (.inr (.inl rfl)) rfl) (by simp [AArch64.storeBlock]) (by simp [AArch64.storeBlock]))
    (Backend.startable_of (AArch64.Load.word (o := .acquire) (Alloc.std _) 0x1000#64 (.inr (.inl rfl)) rfl) (by simp [AArch64.loadBlock]) (by simp [AArch64.loadBlock]))

/-- C50: two threads exchange data on x86_64. -/
theorem C50_example_x86_64 (b : Bool) : Met (X86.backend64 ⟨64, .inr rfl, b⟩) :=
  met (X86.good64 _) (X86.paired64 _) (X86.progress64 _) (C39_x86_64 _)
    (Backend.startable_of (X86.Store64.mov (c := ⟨64, .inr rfl, b⟩) (o := .release) (Alloc.std _) 0x1000#64 1#32 (.inr (.inl rfl)) rfl) (by simp [X86.storeBlock]) (by simp [X86.storeBlock]))
    (Backend.startable_of (X86.Load64.word (c := ⟨64, .inr rfl, b⟩) (Alloc.std _) .acquire 0x1000#64 (.inr (.inl rfl))) (by simp [X86.loadBlock]) (by simp [X86.loadBlock]))

end Verif
