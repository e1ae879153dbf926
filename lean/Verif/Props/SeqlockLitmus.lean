/-
C61: the hypotheses can be met. A writer that stores an odd version, data and an even version, and a reader that gets the data, in every model of
memory used for C61, for several back ends. Generated by tools/seqlock.py.
-/
import Verif.Weak.SeqlockSample
import Verif.Props.Seqlock
import Verif.Props.LockLitmus

namespace Verif
open SeqlockSample

/-- C61: a seqlock on riscv32. -/
theorem C61_example_riscv32 (e : Endian) (z : Bool) : Met (RiscV.backend e 32 z) :=
  met' (RiscV.good' e (by decide) z) (RiscV.progress e z)
    (Backend.startable_of (RiscV.Store.mk (o := .relaxed) (Alloc.std _) 0x1000#32 1#32 (.inr (.inl rfl)) rfl) (by simp [RiscV.storeBlock]) (by simp [RiscV.storeBlock]))
    (Backend.startable_of (RiscV.Store.mk (o := .relaxed) (Alloc.std _) 0x2000#32 7#32 (.inr (.inl rfl)) rfl) (by simp [RiscV.storeBlock]) (by simp [RiscV.storeBlock]))
    (Backend.startable_of (RiscV.Store.mk (o := .release) (Alloc.std _) 0x1000#32 2#32 (.inr (.inl rfl)) rfl) (by simp [RiscV.storeBlock]) (by simp [RiscV.storeBlock]))
    (Backend.startable_of (RiscV.Load.mk (o := .acquire) (Alloc.std _) 0x1000#32 (.inr (.inl rfl)) rfl) (by simp [RiscV.loadBlock]) (by simp [RiscV.loadBlock]))
    (Backend.startable_of (RiscV.Load.mk (o := .relaxed) (Alloc.std _) 0x2000#32 (.inr (.inl rfl)) rfl) (by simp [RiscV.loadBlock]) (by simp [RiscV.loadBlock]))
    (Backend.startable_of (RiscV.Load.mk (o := .relaxed) (Alloc.std _) 0x1000#32 (.inr (.inl rfl)) rfl) (by simp [RiscV.loadBlock]) (by simp [RiscV.loadBlock]))

/-- C61: a seqlock on mips32. -/
theorem C61_example_mips32 (e : Endian) : Met (Mips.backend e 32) :=
  met' (Mips.good' e (by decide)) (Mips.progress e (by decide))
    (Backend.startable_of (Mips.Store.mk (o := .relaxed) (Alloc.std _) 0x1000#32 1#32 (.inr (.inl rfl)) rfl) (by simp [Mips.storeBlock]) (by simp [Mips.storeBlock]))
    (Backend.startable_of (Mips.Store.mk (o := .relaxed) (Alloc.std _) 0x2000#32 7#32 (.inr (.inl rfl)) rfl) (by simp [Mips.storeBlock]) (by simp [Mips.storeBlock]))
    (Backend.startable_of (Mips.Store.mk (o := .release) (Alloc.std _) 0x1000#32 2#32 (.inr (.inl rfl)) rfl) (by simp [Mips.storeBlock]) (by simp [Mips.storeBlock]))
    (Backend.startable_of (Mips.Load.mk (o := .acquire) (Alloc.std _) 0x1000#32 (.inr (.inl rfl)) rfl) (by simp [Mips.loadBlock]) (by simp [Mips.loadBlock]))
    (Backend.startable_of (Mips.Load.mk (o := .relaxed) (Alloc.std _) 0x2000#32 (.inr (.inl rfl)) rfl) (by simp [Mips.loadBlock]) (by simp [Mips.loadBlock]))
    (Backend.startable_of (Mips.Load.mk (o := .relaxed) (Alloc.std _) 0x1000#32 (.inr (.inl rfl)) rfl) (by simp [Mips.loadBlock]) (by simp [Mips.loadBlock]))

/-- C61: a seqlock on riscv64. -/
theorem C61_example_riscv64 (e : Endian) (z : Bool) : Met (RiscV.backend e 64 z) :=
  met' (RiscV.good' e (by decide) z) (RiscV.progress e z)
    (Backend.startable_of (RiscV.Store.mk (o := .relaxed) (Alloc.std _) 0x1000#64 1#32 (.inr (.inl rfl)) rfl) (by simp [RiscV.storeBlock]) (by simp [RiscV.storeBlock]))
    (Backend.startable_of (RiscV.Store.mk (o := .relaxed) (Alloc.std _) 0x2000#64 7#32 (.inr (.inl rfl)) rfl) (by simp [RiscV.storeBlock]) (by simp [RiscV.storeBlock]))
    (Backend.startable_of (RiscV.Store.mk (o := .release) (Alloc.std _) 0x1000#64 2#32 (.inr (.inl rfl)) rfl) (by simp [RiscV.storeBlock]) (by simp [RiscV.storeBlock]))
    (Backend.startable_of (RiscV.Load.mk (o := .acquire) (Alloc.std _) 0x1000#64 (.inr (.inl rfl)) rfl) (by simp [RiscV.loadBlock]) (by simp [RiscV.loadBlock]))
    (Backend.startable_of (RiscV.Load.mk (o := .relaxed) (Alloc.std _) 0x2000#64 (.inr (.inl rfl)) rfl) (by simp [RiscV.loadBlock]) (by simp [RiscV.loadBlock]))
    (Backend.startable_of (RiscV.Load.mk (o := .relaxed) (Alloc.std _) 0x1000#64 (.inr (.inl rfl)) rfl) (by simp [RiscV.loadBlock]) (by simp [RiscV.loadBlock]))

/-- C61: a seqlock on mips64. -/
theorem C61_example_mips64 (e : Endian) : Met (Mips.backend e 64) :=
  met' (Mips.good' e (by decide)) (Mips.progress e (by decide))
    (Backend.startable_of (Mips.Store.mk (o := .relaxed) (Alloc.std _) 0x1000#64 1#32 (.inr (.inl rfl)) rfl) (by simp [Mips.storeBlock]) (by simp [Mips.storeBlock]))
    (Backend.startable_of (Mips.Store.mk (o := .relaxed) (Alloc.std _) 0x2000#64 7#32 (.inr (.inl rfl)) rfl) (by simp [Mips.storeBlock]) (by simp [Mips.storeBlock]))
    (Backend.startable_of (Mips.Store.mk (o := .release) (Alloc.std _) 0x1000#64 2#32 (.inr (.inl rfl)) rfl) (by simp [Mips.storeBlock]) (by simp [Mips.storeBlock]))
    (Backend.startable_of (Mips.Load.mk (o := .acquire) (Alloc.std _) 0x1000#64 (.inr (.inl rfl)) rfl) (by simp [Mips.loadBlock]) (by simp [Mips.loadBlock]))
    (Backend.startable_of (Mips.Load.mk (o := .relaxed) (Alloc.std _) 0x2000#64 (.inr (.inl rfl)) rfl) (by simp [Mips.loadBlock]) (by simp [Mips.loadBlock]))
    (Backend.startable_of (Mips.Load.mk (o := .relaxed) (Alloc.std _) 0x1000#64 (.inr (.inl rfl)) rfl) (by simp [Mips.loadBlock]) (by simp [Mips.loadBlock]))

/-- C61: a seqlock on arm. -/
theorem C61_example_arm (e : Endian) : Met (Arm.backend e ⟨true, true⟩) :=
  met' (Arm.good e _) (Arm.progress e _)
    (Backend.startable_of (Arm.Store.word (o := .relaxed) (Alloc.std _) 0x1000#32 1#32 (.inr rfl) rfl) (by simp [Arm.storeBlock]) (by simp [Arm.storeBlock]))
    (Backend.startable_of (Arm.Store.word (o := .relaxed) (Alloc.std _) 0x2000#32 7#32 (.inr rfl) rfl) (by simp [Arm.storeBlock]) (by simp [Arm.storeBlock]))
    (Backend.startable_of (Arm.Store.word (o := .release) (Alloc.std _) 0x1000#32 2#32 (.inr rfl) rfl) (by simp [Arm.storeBlock]) (by simp [Arm.storeBlock]))
    (Backend.startable_of (Arm.Load.word (o := .acquire) (Alloc.std _) 0x1000#32 (.inr rfl) rfl) (by simp [Arm.loadBlock]) (by simp [Arm.loadBlock]))
    (Backend.startable_of (Arm.Load.word (o := .relaxed) (Alloc.std _) 0x2000#32 (.inr rfl) rfl) (by simp [Arm.loadBlock]) (by simp [Arm.loadBlock]))
    (Backend.startable_of (Arm.Load.word (o := .relaxed) (Alloc.std _) 0x1000#32 (.inr rfl) rfl) (by simp [Arm.loadBlock]) (by simp [Arm.loadBlock]))

/-- C61: a seqlock on powerpc64. -/
theorem C61_example_powerpc64 (e : Endian) (c : PowerPC.Conf) : Met (PowerPC.backend e 64 c) :=
  met' (PowerPC.good e (by decide) c) (PowerPC.progress e c)
    (Backend.startable_of (PowerPC.Store.word (o := .relaxed) (Alloc.std _) 0x1000#64 1#32 (.inr (.inl rfl)) rfl) (by simp [PowerPC.storeBlock]) (by simp [PowerPC.storeBlock]))
    (Backend.startable_of (PowerPC.Store.word (o := .relaxed) (Alloc.std _) 0x2000#64 7#32 (.inr (.inl rfl)) rfl) (by simp [PowerPC.storeBlock]) (by simp [PowerPC.storeBlock]))
    (Backend.startable_of (PowerPC.Store.word (o := .release) (Alloc.std _) 0x1000#64 2#32 (.inr (.inl rfl)) rfl) (by simp [PowerPC.storeBlock]) (by simp [PowerPC.storeBlock]))
    (Backend.startable_of (PowerPC.Load.acq (o := .acquire) (Alloc.std _) 0x1000#64 (.inr (.inl rfl)) rfl) (by simp [PowerPC.loadAcqBlock]) (by simp [PowerPC.loadAcqBlock]))
    (Backend.startable_of (PowerPC.Load.rlx (o := .relaxed) (Alloc.std _) 0x2000#64 (.inr (.inl rfl)) rfl) (by simp [PowerPC.loadBlock]) (by simp [PowerPC.loadBlock]))
    (Backend.startable_of (PowerPC.Load.rlx (o := .relaxed) (Alloc.std _) 0x1000#64 (.inr (.inl rfl)) rfl) (by simp [PowerPC.loadBlock]) (by simp [PowerPC.loadBlock]))

/-- C61: a seqlock on aarch64. -/
theorem C61_example_aarch64 (e : Endian) : Met (AArch64.backend e ⟨false, false, false, false, false, false⟩) :=
  met' (AArch64.good e _) (AArch64.progress e _)
    (Backend.startable_of (AArch64.Store.word (o := .relaxed) (Alloc.std _) 0x1000#64 1#32 (.inr (.inl rfl)) rfl) (by simp [AArch64.storeBlock]) (by simp [AArch64.storeBlock]))
    (Backend.startable_of (AArch64.Store.word (o := .relaxed) (Alloc.std _) 0x2000#64 7#32 (.inr (.inl rfl)) rfl) (by simp [AArch64.storeBlock]) (by simp [AArch64.storeBlock]))
    (Backend.startable_of (AArch64.Store.word (o := .release) (Alloc.std _) 0x1000#64 2#32 (.inr (.inl rfl)) rfl) (by simp [AArch64.storeBlock]) (by simp [AArch64.storeBlock]))
    (Backend.startable_of (AArch64.Load.word (o := .acquire) (Alloc.std _) 0x1000#64 (.inr (.inl rfl)) rfl) (by simp [AArch64.loadBlock]) (by simp [AArch64.loadBlock]))
    (Backend.startable_of (AArch64.Load.word (o := .relaxed) (Alloc.std _) 0x2000#64 (.inr (.inl rfl)) rfl) (by simp [AArch64.loadBlock]) (by simp [AArch64.loadBlock]))
    (Backend.startable_of (AArch64.Load.word (o := .relaxed) (Alloc.std _) 0x1000#64 (.inr (.inl rfl)) rfl) (by simp [AArch64.loadBlock]) (by simp [AArch64.loadBlock]))

/-- C61: a seqlock on x86_64. -/
theorem C61_example_x86_64 (b : Bool) : Met (X86.backend64 ⟨64, .inr rfl, b⟩) :=
  met' (X86.good64 _) (X86.progress64 _)
    (Backend.startable_of (X86.Store64.mov (c := ⟨64, .inr rfl, b⟩) (o := .relaxed) (Alloc.std _) 0x1000#64 1#32 (.inr (.inl rfl)) rfl) (by simp [X86.storeBlock]) (by simp [X86.storeBlock]))
    (Backend.startable_of (X86.Store64.mov (c := ⟨64, .inr rfl, b⟩) (o := .relaxed) (Alloc.std _) 0x2000#64 7#32 (.inr (.inl rfl)) rfl) (by simp [X86.storeBlock]) (by simp [X86.storeBlock]))
    (Backend.startable_of (X86.Store64.mov (c := ⟨64, .inr rfl, b⟩) (o := .release) (Alloc.std _) 0x1000#64 2#32 (.inr (.inl rfl)) rfl) (by simp [X86.storeBlock]) (by simp [X86.storeBlock]))
    (Backend.startable_of (X86.Load64.word (c := ⟨64, .inr rfl, b⟩) (Alloc.std _) .acquire 0x1000#64 (.inr (.inl rfl))) (by simp [X86.loadBlock]) (by simp [X86.loadBlock]))
    (Backend.startable_of (X86.Load64.word (c := ⟨64, .inr rfl, b⟩) (Alloc.std _) .relaxed 0x2000#64 (.inr (.inl rfl))) (by simp [X86.loadBlock]) (by simp [X86.loadBlock]))
    (Backend.startable_of (X86.Load64.word (c := ⟨64, .inr rfl, b⟩) (Alloc.std _) .relaxed 0x1000#64 (.inr (.inl rfl))) (by simp [X86.loadBlock]) (by simp [X86.loadBlock]))

/-- C61 on PowerPC: `SolelyStored` holds of the execution of the example: 32-bit loads contain no instruction that writes. -/
theorem C61_example_sole_powerpc (e : Endian) (c : PowerPC.Conf) (o : Ordering) (a : Nat) (B : Block 64 32)
    (h : (PowerPC.backend e 64 c).Load o 32 a B) : B.ReadOnly := by
  have key : ∀ w a (B : Block 64 w), w ≤ 64 → (PowerPC.backend e 64 c).Load o w a B → B.ReadOnly := by
    rintro w a B h64 (⟨al, p, hw, hf⟩ | ⟨al, p, hw, hf⟩ | ⟨al, hq, p, hf⟩ | ⟨al, hq, p, hf⟩)
    · readonly
    · readonly
    · exact absurd h64 (by decide)
    · exact absurd h64 (by decide)
  exact key 32 a B (by decide) h
/-- C61 on arm: likewise. -/
theorem C61_example_sole_arm (e : Endian) (o : Ordering) (a : Nat) (B : Block 32 32)
    (h : (Arm.backend e ⟨true, true⟩).Load o 32 a B) : B.ReadOnly := by
  have key : ∀ w a (B : Block 32 w), w ≤ 32 → (Arm.backend e ⟨true, true⟩).Load o w a B → B.ReadOnly := by
    rintro w a B h32 (⟨al, p, hw, hf⟩ | ⟨al, p, hf⟩)
    · readonly
    · exact absurd h32 (by decide)
  exact key 32 a B (by decide) h

end Verif
