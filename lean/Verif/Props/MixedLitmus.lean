/-
C59: the hypotheses can be met. An execution in which two threads access one object with operations and with ordinary instructions, in every
model of memory used for C59, for several back ends.
-/
import Verif.Weak.MixedSample
import Verif.Props.Mixed
import Verif.Props.LockLitmus

namespace Verif
open MixedSample

/-- C59: operations and ordinary accesses to one object on riscv32. -/
theorem C59_example_riscv32 (e : Endian) (z : Bool) : Met (RiscV.backend e 32 z) :=
  met (RiscV.good' e (by decide) z) (RiscV.progress e z)
    (Backend.startable_of (RiscV.Store.mk (o := .release) (Alloc.std _) 0x1000#32 1#32 (.inr (.inl rfl)) rfl) (by simp [RiscV.storeBlock]) (by simp [RiscV.storeBlock]))
    (Backend.startable_of (RiscV.Load.mk (o := .acquire) (Alloc.std _) 0x1000#32 (.inr (.inl rfl)) rfl) (by simp [RiscV.loadBlock]) (by simp [RiscV.loadBlock]))

/-- C59: operations and ordinary accesses to one object on mips32. -/
theorem C59_example_mips32 (e : Endian) : Met (Mips.backend e 32) :=
  met (Mips.good' e (by decide)) (Mips.progress e (by decide))
    (Backend.startable_of (Mips.Store.mk (o := .release) (Alloc.std _) 0x1000#32 1#32 (.inr (.inl rfl)) rfl) (by simp [Mips.storeBlock]) (by simp [Mips.storeBlock]))
    (Backend.startable_of (Mips.Load.mk (o := .acquire) (Alloc.std _) 0x1000#32 (.inr (.inl rfl)) rfl) (by simp [Mips.loadBlock]) (by simp [Mips.loadBlock]))

/-- C59: operations and ordinary accesses to one object on riscv64. -/
theorem C59_example_riscv64 (e : Endian) (z : Bool) : Met (RiscV.backend e 64 z) :=
  met (RiscV.good' e (by decide) z) (RiscV.progress e z)
    (Backend.startable_of (RiscV.Store.mk (o := .release) (Alloc.std _) 0x1000#64 1#32 (.inr (.inl rfl)) rfl) (by simp [RiscV.storeBlock]) (by simp [RiscV.storeBlock]))
    (Backend.startable_of (RiscV.Load.mk (o := .acquire) (Alloc.std _) 0x1000#64 (.inr (.inl rfl)) rfl) (by simp [RiscV.loadBlock]) (by simp [RiscV.loadBlock]))

/-- C59: operations and ordinary accesses to one object on mips64. -/
theorem C59_example_mips64 (e : Endian) : Met (Mips.backend e 64) :=
  met (Mips.good' e (by decide)) (Mips.progress e (by decide))
    (Backend.startable_of (Mips.Store.mk (o := .release) (Alloc.std _) 0x1000#64 1#32 (.inr (.inl rfl)) rfl) (by simp [Mips.storeBlock]) (by simp [Mips.storeBlock]))
    (Backend.startable_of (Mips.Load.mk (o := .acquire) (Alloc.std _) 0x1000#64 (.inr (.inl rfl)) rfl) (by simp [Mips.loadBlock]) (by simp [Mips.loadBlock]))

/-- C59: operations and ordinary accesses to one object on arm. -/
theorem C59_example_arm (e : Endian) : Met (Arm.backend e ⟨true, true⟩) :=
  met (Arm.good e _) (Arm.progress e _)
    (Backend.startable_of (Arm.Store.word (o := .release) (Alloc.std _) 0x1000#32 1#32 (.inr rfl) rfl) (by simp [Arm.storeBlock]) (by simp [Arm.storeBlock]))
    (Backend.startable_of (Arm.Load.word (o := .acquire) (Alloc.std _) 0x1000#32 (.inr rfl) rfl) (by simp [Arm.loadBlock]) (by simp [Arm.loadBlock]))

/-- C59: operations and ordinary accesses to one object on powerpc64. -/
theorem C59_example_powerpc64 (e : Endian) (c : PowerPC.Conf) : Met (PowerPC.backend e 64 c) :=
  met (PowerPC.good e (by decide) c) (PowerPC.progress e c)
    (Backend.startable_of (PowerPC.Store.word (o := .release) (Alloc.std _) 0x1000#64 1#32 (.inr (.inl rfl)) rfl) (by simp [PowerPC.storeBlock]) (by simp [PowerPC.storeBlock]))
    (Backend.startable_of (PowerPC.Load.acq (o := .acquire) (Alloc.std _) 0x1000#64 (.inr (.inl rfl)) rfl) (by simp [PowerPC.loadAcqBlock]) (by simp [PowerPC.loadAcqBlock]))

/-- C59: operations and ordinary accesses to one object on aarch64. -/
theorem C59_example_aarch64 (e : Endian) : Met (AArch64.backend e ⟨false, false, false, false, false, false⟩) :=
  met (AArch64.good e _) (AArch64.progress e _)
    (Backend.startable_of (AArch64.Store.word (o := .release) (Alloc.std _) 0x1000#64 1#32 (.inr (.inl rfl)) rfl) (by simp [AArch64.storeBlock]) (by simp [AArch64.storeBlock]))
    (Backend.startable_of (AArch64.Load.word (o := .acquire) (Alloc.std _) 0x1000#64 (.inr (.inl rfl)) rfl) (by simp [AArch64.loadBlock]) (by simp [AArch64.loadBlock]))

/-- C59: operations and ordinary accesses to one object on x86_64. -/
theorem C59_example_x86_64 (b : Bool) : Met (X86.backend64 ⟨64, .inr rfl, b⟩) :=
  met (X86.good64 _) (X86.progress64 _)
    (Backend.startable_of (X86.Store64.mov (c := ⟨64, .inr rfl, b⟩) (o := .release) (Alloc.std _) 0x1000#64 1#32 (.inr (.inl rfl)) rfl) (by simp [X86.storeBlock]) (by simp [X86.storeBlock]))
    (Backend.startable_of (X86.Load64.word (c := ⟨64, .inr rfl, b⟩) (Alloc.std _) .acquire 0x1000#64 (.inr (.inl rfl))) (by simp [X86.loadBlock]) (by simp [X86.loadBlock]))

end Verif
