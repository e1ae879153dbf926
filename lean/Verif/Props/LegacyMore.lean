/-
Properties of the back ends of src/arch_legacy that follow from C01-C05, C13-C16 and C20: C21, C20 (many threads), C09,
C10, C31, C36, the methods of `AtomicMaybeUninit`, C40, C30, C38 and the orderings over whole threads. Generated by
tools/legacy.py.
-/
import Verif.Props.Lin
import Verif.Lin.SC
import Verif.Lin.Abandon
import Verif.Lin.Complete
import Verif.Api.MethodProof
import Verif.Weak.Proof
import Verif.Props.LegacyRiscV
import Verif.Props.LegacyLoongArch
import Verif.Props.LegacyArm
import Verif.Props.LegacyArmv8
import Verif.Props.LegacyAArch64
import Verif.Props.LegacyX86
import Verif.Props.LegacyArmLinux

namespace Verif

/-! ### riscv -/

theorem C01_methods_legacy_riscv (e : Endian) {W : Nat} (hW : W = 32 ∨ W = 64) : (LegacyRiscV.backend e W).MethodsAtomic :=
  Backend.methodsAtomic (LegacyRiscV.C01_legacy_riscv e hW) (LegacyRiscV.C02_legacy_riscv e hW) (LegacyRiscV.C03_legacy_riscv e hW)
theorem C04_methods_legacy_riscv (e : Endian) {W : Nat} (hW : W = 32 ∨ W = 64) : (LegacyRiscV.backend e W).CasMethodAtomic (fun _ => True) := Backend.casMethodAtomic' (LegacyRiscV.C04_legacy_riscv e hW)
theorem C05_methods_legacy_riscv (e : Endian) {W : Nat} (hW : W = 32 ∨ W = 64) : (LegacyRiscV.backend e W).WeakCasMethodAtomic := Backend.weakCasMethodAtomic (LegacyRiscV.C05_legacy_riscv e hW)
theorem C13_methods_legacy_riscv (e : Endian) {W : Nat} (hW : W = 32 ∨ W = 64) : (LegacyRiscV.backend e W).MethodsOrdered :=
  Backend.methodsOrdered (LegacyRiscV.C13_legacy_riscv e hW) (LegacyRiscV.C14_legacy_riscv e hW) (LegacyRiscV.C15_legacy_riscv e hW) (LegacyRiscV.C16_legacy_riscv e hW)
theorem C09_legacy_riscv (e : Endian) {W : Nat} (hW : W = 32 ∨ W = 64) : (LegacyRiscV.backend e W).FetchUpdateOK := Backend.fetchUpdateOK (LegacyRiscV.C01_legacy_riscv e hW) (LegacyRiscV.C05_legacy_riscv e hW)
theorem C10_legacy_riscv (e : Endian) {W : Nat} (hW : W = 32 ∨ W = 64) : (LegacyRiscV.backend e W).PanicsOK := Backend.panicsOK _
theorem C15_orderings_legacy_riscv (e : Endian) {W : Nat} (hW : W = 32 ∨ W = 64) : (LegacyRiscV.backend e W).OrderingsOK :=
  Backend.orderingsOK (LegacyRiscV.C13_legacy_riscv e hW) (LegacyRiscV.C14_legacy_riscv e hW) (LegacyRiscV.C15_legacy_riscv e hW) (LegacyRiscV.C16_legacy_riscv e hW)
theorem C30_legacy_riscv (e : Endian) {W : Nat} (hW : W = 32 ∨ W = 64) : (LegacyRiscV.backend e W).MessagePassing := Backend.messagePassing (LegacyRiscV.C13_legacy_riscv e hW) (LegacyRiscV.C14_legacy_riscv e hW) (LegacyRiscV.C16_legacy_riscv e hW)
theorem C30_seen_legacy_riscv (e : Endian) {W : Nat} (hW : W = 32 ∨ W = 64) : (LegacyRiscV.backend e W).MessageSeen := Backend.messageSeen (C30_legacy_riscv e hW)
theorem C38_legacy_riscv (e : Endian) {W : Nat} (hW : W = 32 ∨ W = 64) : (LegacyRiscV.backend e W).CasTableOK := (C15_orderings_legacy_riscv e hW).casTable
theorem C21_legacy_riscv (e : Endian) {W : Nat} (hW : W = 32 ∨ W = 64) : (LegacyRiscV.backend e W).Linearizable (fun _ => True) :=
  Backend.linearizable_of _ (LegacyRiscV.C01_legacy_riscv e hW) (LegacyRiscV.C02_legacy_riscv e hW) (LegacyRiscV.C03_legacy_riscv e hW)
    (fun s f w a old new B _ => LegacyRiscV.C04_legacy_riscv e hW s f w a old new B) (LegacyRiscV.C05_legacy_riscv e hW) (LegacyRiscV.C20_legacy_riscv e hW)
theorem C21_hw_legacy_riscv (e : Endian) {W : Nat} (hW : W = 32 ∨ W = 64) : (LegacyRiscV.backend e W).Herlihy (fun _ => True) := (C21_legacy_riscv e hW).herlihy
theorem C20_threads_legacy_riscv (e : Endian) {W : Nat} (hW : W = 32 ∨ W = 64) (P) : (LegacyRiscV.backend e W).NonBlocking P := Backend.nonBlocking P (LegacyRiscV.C20_legacy_riscv e hW)
theorem C31_legacy_riscv (e : Endian) {W : Nat} (hW : W = 32 ∨ W = 64) : (LegacyRiscV.backend e W).NoLostUpdates (fun _ => True) := (C21_legacy_riscv e hW).noLostUpdates
theorem C36_legacy_riscv (e : Endian) {W : Nat} (hW : W = 32 ∨ W = 64) : (LegacyRiscV.backend e W).SwapConserves (fun _ => True) := (C21_legacy_riscv e hW).swapConserves
theorem C40_legacy_riscv (e : Endian) {W : Nat} (hW : W = 32 ∨ W = 64) : (LegacyRiscV.backend e W).AllOrNothing :=
  Backend.allOrNothing' (LegacyRiscV.C01_legacy_riscv e hW) (LegacyRiscV.C02_legacy_riscv e hW) (LegacyRiscV.C03_legacy_riscv e hW) (LegacyRiscV.C04_legacy_riscv e hW) (LegacyRiscV.C05_legacy_riscv e hW) (LegacyRiscV.C20_legacy_riscv e hW)
theorem C06_always_legacy_riscv (e : Endian) {W : Nat} (hW : W = 32 ∨ W = 64) : (LegacyRiscV.backend e W).NeighboursAlways := (C40_legacy_riscv e hW).neighbours

/-! ### loongarch -/

theorem C01_methods_legacy_loongarch (e : Endian) : (LegacyLoongArch.backend e 64).MethodsAtomic :=
  Backend.methodsAtomic (LegacyLoongArch.C01_legacy_loongarch e) (LegacyLoongArch.C02_legacy_loongarch e) (LegacyLoongArch.C03_legacy_loongarch e)
theorem C04_methods_legacy_loongarch (e : Endian) : (LegacyLoongArch.backend e 64).CasMethodAtomic (fun _ => True) := Backend.casMethodAtomic' (LegacyLoongArch.C04_legacy_loongarch e)
theorem C05_methods_legacy_loongarch (e : Endian) : (LegacyLoongArch.backend e 64).WeakCasMethodAtomic := Backend.weakCasMethodAtomic (LegacyLoongArch.C05_legacy_loongarch e)
theorem C13_methods_legacy_loongarch (e : Endian) : (LegacyLoongArch.backend e 64).MethodsOrdered :=
  Backend.methodsOrdered (LegacyLoongArch.C13_legacy_loongarch e) (LegacyLoongArch.C14_legacy_loongarch e) (LegacyLoongArch.C15_legacy_loongarch e) (LegacyLoongArch.C16_legacy_loongarch e)
theorem C09_legacy_loongarch (e : Endian) : (LegacyLoongArch.backend e 64).FetchUpdateOK := Backend.fetchUpdateOK (LegacyLoongArch.C01_legacy_loongarch e) (LegacyLoongArch.C05_legacy_loongarch e)
theorem C10_legacy_loongarch (e : Endian) : (LegacyLoongArch.backend e 64).PanicsOK := Backend.panicsOK _
theorem C15_orderings_legacy_loongarch (e : Endian) : (LegacyLoongArch.backend e 64).OrderingsOK :=
  Backend.orderingsOK (LegacyLoongArch.C13_legacy_loongarch e) (LegacyLoongArch.C14_legacy_loongarch e) (LegacyLoongArch.C15_legacy_loongarch e) (LegacyLoongArch.C16_legacy_loongarch e)
theorem C30_legacy_loongarch (e : Endian) : (LegacyLoongArch.backend e 64).MessagePassing := Backend.messagePassing (LegacyLoongArch.C13_legacy_loongarch e) (LegacyLoongArch.C14_legacy_loongarch e) (LegacyLoongArch.C16_legacy_loongarch e)
theorem C30_seen_legacy_loongarch (e : Endian) : (LegacyLoongArch.backend e 64).MessageSeen := Backend.messageSeen (C30_legacy_loongarch e)
theorem C38_legacy_loongarch (e : Endian) : (LegacyLoongArch.backend e 64).CasTableOK := (C15_orderings_legacy_loongarch e).casTable
theorem C21_legacy_loongarch (e : Endian) : (LegacyLoongArch.backend e 64).Linearizable (fun _ => True) :=
  Backend.linearizable_of _ (LegacyLoongArch.C01_legacy_loongarch e) (LegacyLoongArch.C02_legacy_loongarch e) (LegacyLoongArch.C03_legacy_loongarch e)
    (fun s f w a old new B _ => LegacyLoongArch.C04_legacy_loongarch e s f w a old new B) (LegacyLoongArch.C05_legacy_loongarch e) (LegacyLoongArch.C20_legacy_loongarch e)
theorem C21_hw_legacy_loongarch (e : Endian) : (LegacyLoongArch.backend e 64).Herlihy (fun _ => True) := (C21_legacy_loongarch e).herlihy
theorem C20_threads_legacy_loongarch (e : Endian) (P) : (LegacyLoongArch.backend e 64).NonBlocking P := Backend.nonBlocking P (LegacyLoongArch.C20_legacy_loongarch e)
theorem C31_legacy_loongarch (e : Endian) : (LegacyLoongArch.backend e 64).NoLostUpdates (fun _ => True) := (C21_legacy_loongarch e).noLostUpdates
theorem C36_legacy_loongarch (e : Endian) : (LegacyLoongArch.backend e 64).SwapConserves (fun _ => True) := (C21_legacy_loongarch e).swapConserves
theorem C40_legacy_loongarch (e : Endian) : (LegacyLoongArch.backend e 64).AllOrNothing :=
  Backend.allOrNothing' (LegacyLoongArch.C01_legacy_loongarch e) (LegacyLoongArch.C02_legacy_loongarch e) (LegacyLoongArch.C03_legacy_loongarch e) (LegacyLoongArch.C04_legacy_loongarch e) (LegacyLoongArch.C05_legacy_loongarch e) (LegacyLoongArch.C20_legacy_loongarch e)
theorem C06_always_legacy_loongarch (e : Endian) : (LegacyLoongArch.backend e 64).NeighboursAlways := (C40_legacy_loongarch e).neighbours

/-! ### arm -/

theorem C01_methods_legacy_arm (e : Endian) (c : Arm.Conf) : (LegacyArm.backend e c).MethodsAtomic :=
  Backend.methodsAtomic (LegacyArm.C01_legacy_arm e c) (LegacyArm.C02_legacy_arm e c) (LegacyArm.C03_legacy_arm e c)
theorem C04_methods_legacy_arm (e : Endian) (c : Arm.Conf) : (LegacyArm.backend e c).CasMethodAtomic (fun _ => True) := Backend.casMethodAtomic' (LegacyArm.C04_legacy_arm e c)
theorem C05_methods_legacy_arm (e : Endian) (c : Arm.Conf) : (LegacyArm.backend e c).WeakCasMethodAtomic := Backend.weakCasMethodAtomic (LegacyArm.C05_legacy_arm e c)
theorem C13_methods_legacy_arm (e : Endian) (c : Arm.Conf) : (LegacyArm.backend e c).MethodsOrdered :=
  Backend.methodsOrdered (LegacyArm.C13_legacy_arm e c) (LegacyArm.C14_legacy_arm e c) (LegacyArm.C15_legacy_arm e c) (LegacyArm.C16_legacy_arm e c)
theorem C09_legacy_arm (e : Endian) (c : Arm.Conf) : (LegacyArm.backend e c).FetchUpdateOK := Backend.fetchUpdateOK (LegacyArm.C01_legacy_arm e c) (LegacyArm.C05_legacy_arm e c)
theorem C10_legacy_arm (e : Endian) (c : Arm.Conf) : (LegacyArm.backend e c).PanicsOK := Backend.panicsOK _
theorem C15_orderings_legacy_arm (e : Endian) (c : Arm.Conf) : (LegacyArm.backend e c).OrderingsOK :=
  Backend.orderingsOK (LegacyArm.C13_legacy_arm e c) (LegacyArm.C14_legacy_arm e c) (LegacyArm.C15_legacy_arm e c) (LegacyArm.C16_legacy_arm e c)
theorem C30_legacy_arm (e : Endian) (c : Arm.Conf) : (LegacyArm.backend e c).MessagePassing := Backend.messagePassing (LegacyArm.C13_legacy_arm e c) (LegacyArm.C14_legacy_arm e c) (LegacyArm.C16_legacy_arm e c)
theorem C30_seen_legacy_arm (e : Endian) (c : Arm.Conf) : (LegacyArm.backend e c).MessageSeen := Backend.messageSeen (C30_legacy_arm e c)
theorem C38_legacy_arm (e : Endian) (c : Arm.Conf) : (LegacyArm.backend e c).CasTableOK := (C15_orderings_legacy_arm e c).casTable
theorem C21_legacy_arm (e : Endian) (c : Arm.Conf) : (LegacyArm.backend e c).Linearizable (fun _ => True) :=
  Backend.linearizable_of _ (LegacyArm.C01_legacy_arm e c) (LegacyArm.C02_legacy_arm e c) (LegacyArm.C03_legacy_arm e c)
    (fun s f w a old new B _ => LegacyArm.C04_legacy_arm e c s f w a old new B) (LegacyArm.C05_legacy_arm e c) (LegacyArm.C20_legacy_arm e c)
theorem C21_hw_legacy_arm (e : Endian) (c : Arm.Conf) : (LegacyArm.backend e c).Herlihy (fun _ => True) := (C21_legacy_arm e c).herlihy
theorem C20_threads_legacy_arm (e : Endian) (c : Arm.Conf) (P) : (LegacyArm.backend e c).NonBlocking P := Backend.nonBlocking P (LegacyArm.C20_legacy_arm e c)
theorem C31_legacy_arm (e : Endian) (c : Arm.Conf) : (LegacyArm.backend e c).NoLostUpdates (fun _ => True) := (C21_legacy_arm e c).noLostUpdates
theorem C36_legacy_arm (e : Endian) (c : Arm.Conf) : (LegacyArm.backend e c).SwapConserves (fun _ => True) := (C21_legacy_arm e c).swapConserves
theorem C40_legacy_arm (e : Endian) (c : Arm.Conf) : (LegacyArm.backend e c).AllOrNothing :=
  Backend.allOrNothing' (LegacyArm.C01_legacy_arm e c) (LegacyArm.C02_legacy_arm e c) (LegacyArm.C03_legacy_arm e c) (LegacyArm.C04_legacy_arm e c) (LegacyArm.C05_legacy_arm e c) (LegacyArm.C20_legacy_arm e c)
theorem C06_always_legacy_arm (e : Endian) (c : Arm.Conf) : (LegacyArm.backend e c).NeighboursAlways := (C40_legacy_arm e c).neighbours

/-! ### armv8 -/

theorem C01_methods_legacy_armv8 (e : Endian) (c : Armv8.Conf) : (LegacyArmv8.backend e c).MethodsAtomic :=
  Backend.methodsAtomic (LegacyArmv8.C01_legacy_armv8 e c) (LegacyArmv8.C02_legacy_armv8 e c) (LegacyArmv8.C03_legacy_armv8 e c)
theorem C04_methods_legacy_armv8 (e : Endian) (c : Armv8.Conf) : (LegacyArmv8.backend e c).CasMethodAtomic (fun _ => True) := Backend.casMethodAtomic' (LegacyArmv8.C04_legacy_armv8 e c)
theorem C05_methods_legacy_armv8 (e : Endian) (c : Armv8.Conf) : (LegacyArmv8.backend e c).WeakCasMethodAtomic := Backend.weakCasMethodAtomic (LegacyArmv8.C05_legacy_armv8 e c)
theorem C13_methods_legacy_armv8 (e : Endian) (c : Armv8.Conf) : (LegacyArmv8.backend e c).MethodsOrdered :=
  Backend.methodsOrdered (LegacyArmv8.C13_legacy_armv8 e c) (LegacyArmv8.C14_legacy_armv8 e c) (LegacyArmv8.C15_legacy_armv8 e c) (LegacyArmv8.C16_legacy_armv8 e c)
theorem C09_legacy_armv8 (e : Endian) (c : Armv8.Conf) : (LegacyArmv8.backend e c).FetchUpdateOK := Backend.fetchUpdateOK (LegacyArmv8.C01_legacy_armv8 e c) (LegacyArmv8.C05_legacy_armv8 e c)
theorem C10_legacy_armv8 (e : Endian) (c : Armv8.Conf) : (LegacyArmv8.backend e c).PanicsOK := Backend.panicsOK _
theorem C15_orderings_legacy_armv8 (e : Endian) (c : Armv8.Conf) : (LegacyArmv8.backend e c).OrderingsOK :=
  Backend.orderingsOK (LegacyArmv8.C13_legacy_armv8 e c) (LegacyArmv8.C14_legacy_armv8 e c) (LegacyArmv8.C15_legacy_armv8 e c) (LegacyArmv8.C16_legacy_armv8 e c)
theorem C30_legacy_armv8 (e : Endian) (c : Armv8.Conf) : (LegacyArmv8.backend e c).MessagePassing := Backend.messagePassing (LegacyArmv8.C13_legacy_armv8 e c) (LegacyArmv8.C14_legacy_armv8 e c) (LegacyArmv8.C16_legacy_armv8 e c)
theorem C30_seen_legacy_armv8 (e : Endian) (c : Armv8.Conf) : (LegacyArmv8.backend e c).MessageSeen := Backend.messageSeen (C30_legacy_armv8 e c)
theorem C38_legacy_armv8 (e : Endian) (c : Armv8.Conf) : (LegacyArmv8.backend e c).CasTableOK := (C15_orderings_legacy_armv8 e c).casTable
theorem C21_legacy_armv8 (e : Endian) (c : Armv8.Conf) : (LegacyArmv8.backend e c).Linearizable (fun _ => True) :=
  Backend.linearizable_of _ (LegacyArmv8.C01_legacy_armv8 e c) (LegacyArmv8.C02_legacy_armv8 e c) (LegacyArmv8.C03_legacy_armv8 e c)
    (fun s f w a old new B _ => LegacyArmv8.C04_legacy_armv8 e c s f w a old new B) (LegacyArmv8.C05_legacy_armv8 e c) (LegacyArmv8.C20_legacy_armv8 e c)
theorem C21_hw_legacy_armv8 (e : Endian) (c : Armv8.Conf) : (LegacyArmv8.backend e c).Herlihy (fun _ => True) := (C21_legacy_armv8 e c).herlihy
theorem C20_threads_legacy_armv8 (e : Endian) (c : Armv8.Conf) (P) : (LegacyArmv8.backend e c).NonBlocking P := Backend.nonBlocking P (LegacyArmv8.C20_legacy_armv8 e c)
theorem C31_legacy_armv8 (e : Endian) (c : Armv8.Conf) : (LegacyArmv8.backend e c).NoLostUpdates (fun _ => True) := (C21_legacy_armv8 e c).noLostUpdates
theorem C36_legacy_armv8 (e : Endian) (c : Armv8.Conf) : (LegacyArmv8.backend e c).SwapConserves (fun _ => True) := (C21_legacy_armv8 e c).swapConserves
theorem C40_legacy_armv8 (e : Endian) (c : Armv8.Conf) : (LegacyArmv8.backend e c).AllOrNothing :=
  Backend.allOrNothing' (LegacyArmv8.C01_legacy_armv8 e c) (LegacyArmv8.C02_legacy_armv8 e c) (LegacyArmv8.C03_legacy_armv8 e c) (LegacyArmv8.C04_legacy_armv8 e c) (LegacyArmv8.C05_legacy_armv8 e c) (LegacyArmv8.C20_legacy_armv8 e c)
theorem C06_always_legacy_armv8 (e : Endian) (c : Armv8.Conf) : (LegacyArmv8.backend e c).NeighboursAlways := (C40_legacy_armv8 e c).neighbours

/-! ### aarch64 -/

theorem C01_methods_legacy_aarch64 (e : Endian) (c : AArch64.Conf) : (LegacyAArch64.backend e c).MethodsAtomic :=
  Backend.methodsAtomic (LegacyAArch64.C01_legacy_aarch64 e c) (LegacyAArch64.C02_legacy_aarch64 e c) (LegacyAArch64.C03_legacy_aarch64 e c)
theorem C04_methods_legacy_aarch64 (e : Endian) (c : AArch64.Conf) : (LegacyAArch64.backend e c).CasMethodAtomic (fun _ => True) := Backend.casMethodAtomic' (LegacyAArch64.C04_legacy_aarch64 e c)
theorem C05_methods_legacy_aarch64 (e : Endian) (c : AArch64.Conf) : (LegacyAArch64.backend e c).WeakCasMethodAtomic := Backend.weakCasMethodAtomic (LegacyAArch64.C05_legacy_aarch64 e c)
theorem C13_methods_legacy_aarch64 (e : Endian) (c : AArch64.Conf) : (LegacyAArch64.backend e c).MethodsOrdered :=
  Backend.methodsOrdered (LegacyAArch64.C13_legacy_aarch64 e c) (LegacyAArch64.C14_legacy_aarch64 e c) (LegacyAArch64.C15_legacy_aarch64 e c) (LegacyAArch64.C16_legacy_aarch64 e c)
theorem C09_legacy_aarch64 (e : Endian) (c : AArch64.Conf) : (LegacyAArch64.backend e c).FetchUpdateOK := Backend.fetchUpdateOK (LegacyAArch64.C01_legacy_aarch64 e c) (LegacyAArch64.C05_legacy_aarch64 e c)
theorem C10_legacy_aarch64 (e : Endian) (c : AArch64.Conf) : (LegacyAArch64.backend e c).PanicsOK := Backend.panicsOK _
theorem C15_orderings_legacy_aarch64 (e : Endian) (c : AArch64.Conf) : (LegacyAArch64.backend e c).OrderingsOK :=
  Backend.orderingsOK (LegacyAArch64.C13_legacy_aarch64 e c) (LegacyAArch64.C14_legacy_aarch64 e c) (LegacyAArch64.C15_legacy_aarch64 e c) (LegacyAArch64.C16_legacy_aarch64 e c)
theorem C30_legacy_aarch64 (e : Endian) (c : AArch64.Conf) : (LegacyAArch64.backend e c).MessagePassing := Backend.messagePassing (LegacyAArch64.C13_legacy_aarch64 e c) (LegacyAArch64.C14_legacy_aarch64 e c) (LegacyAArch64.C16_legacy_aarch64 e c)
theorem C30_seen_legacy_aarch64 (e : Endian) (c : AArch64.Conf) : (LegacyAArch64.backend e c).MessageSeen := Backend.messageSeen (C30_legacy_aarch64 e c)
theorem C38_legacy_aarch64 (e : Endian) (c : AArch64.Conf) : (LegacyAArch64.backend e c).CasTableOK := (C15_orderings_legacy_aarch64 e c).casTable
theorem C21_legacy_aarch64 (e : Endian) (c : AArch64.Conf) : (LegacyAArch64.backend e c).Linearizable (fun _ => True) :=
  Backend.linearizable_of _ (LegacyAArch64.C01_legacy_aarch64 e c) (LegacyAArch64.C02_legacy_aarch64 e c) (LegacyAArch64.C03_legacy_aarch64 e c)
    (fun s f w a old new B _ => LegacyAArch64.C04_legacy_aarch64 e c s f w a old new B) (LegacyAArch64.C05_legacy_aarch64 e c) (LegacyAArch64.C20_legacy_aarch64 e c)
theorem C21_hw_legacy_aarch64 (e : Endian) (c : AArch64.Conf) : (LegacyAArch64.backend e c).Herlihy (fun _ => True) := (C21_legacy_aarch64 e c).herlihy
theorem C20_threads_legacy_aarch64 (e : Endian) (c : AArch64.Conf) (P) : (LegacyAArch64.backend e c).NonBlocking P := Backend.nonBlocking P (LegacyAArch64.C20_legacy_aarch64 e c)
theorem C31_legacy_aarch64 (e : Endian) (c : AArch64.Conf) : (LegacyAArch64.backend e c).NoLostUpdates (fun _ => True) := (C21_legacy_aarch64 e c).noLostUpdates
theorem C36_legacy_aarch64 (e : Endian) (c : AArch64.Conf) : (LegacyAArch64.backend e c).SwapConserves (fun _ => True) := (C21_legacy_aarch64 e c).swapConserves
theorem C40_legacy_aarch64 (e : Endian) (c : AArch64.Conf) : (LegacyAArch64.backend e c).AllOrNothing :=
  Backend.allOrNothing' (LegacyAArch64.C01_legacy_aarch64 e c) (LegacyAArch64.C02_legacy_aarch64 e c) (LegacyAArch64.C03_legacy_aarch64 e c) (LegacyAArch64.C04_legacy_aarch64 e c) (LegacyAArch64.C05_legacy_aarch64 e c) (LegacyAArch64.C20_legacy_aarch64 e c)
theorem C06_always_legacy_aarch64 (e : Endian) (c : AArch64.Conf) : (LegacyAArch64.backend e c).NeighboursAlways := (C40_legacy_aarch64 e c).neighbours

/-! ### x86 -/

theorem C01_methods_legacy_x86 (c : LegacyX86.Conf32) : (LegacyX86.backend32 c).MethodsAtomic :=
  Backend.methodsAtomic (LegacyX86.C01_legacy_x86 c) (LegacyX86.C02_legacy_x86 c) (LegacyX86.C03_legacy_x86 c)
theorem C04_methods_legacy_x86 (c : LegacyX86.Conf32) : (LegacyX86.backend32 c).CasMethodAtomic (fun _ => True) := Backend.casMethodAtomic' (LegacyX86.C04_legacy_x86 c)
theorem C05_methods_legacy_x86 (c : LegacyX86.Conf32) : (LegacyX86.backend32 c).WeakCasMethodAtomic := Backend.weakCasMethodAtomic (LegacyX86.C05_legacy_x86 c)
theorem C13_methods_legacy_x86 (c : LegacyX86.Conf32) : (LegacyX86.backend32 c).MethodsOrdered :=
  Backend.methodsOrdered (LegacyX86.C13_legacy_x86 c) (LegacyX86.C14_legacy_x86 c) (LegacyX86.C15_legacy_x86 c) (LegacyX86.C16_legacy_x86 c)
theorem C09_legacy_x86 (c : LegacyX86.Conf32) : (LegacyX86.backend32 c).FetchUpdateOK := Backend.fetchUpdateOK (LegacyX86.C01_legacy_x86 c) (LegacyX86.C05_legacy_x86 c)
theorem C10_legacy_x86 (c : LegacyX86.Conf32) : (LegacyX86.backend32 c).PanicsOK := Backend.panicsOK _
theorem C15_orderings_legacy_x86 (c : LegacyX86.Conf32) : (LegacyX86.backend32 c).OrderingsOK :=
  Backend.orderingsOK (LegacyX86.C13_legacy_x86 c) (LegacyX86.C14_legacy_x86 c) (LegacyX86.C15_legacy_x86 c) (LegacyX86.C16_legacy_x86 c)
theorem C30_legacy_x86 (c : LegacyX86.Conf32) : (LegacyX86.backend32 c).MessagePassing := Backend.messagePassing (LegacyX86.C13_legacy_x86 c) (LegacyX86.C14_legacy_x86 c) (LegacyX86.C16_legacy_x86 c)
theorem C30_seen_legacy_x86 (c : LegacyX86.Conf32) : (LegacyX86.backend32 c).MessageSeen := Backend.messageSeen (C30_legacy_x86 c)
theorem C38_legacy_x86 (c : LegacyX86.Conf32) : (LegacyX86.backend32 c).CasTableOK := (C15_orderings_legacy_x86 c).casTable
theorem C21_legacy_x86 (c : LegacyX86.Conf32) : (LegacyX86.backend32 c).Linearizable (fun _ => True) :=
  Backend.linearizable_of _ (LegacyX86.C01_legacy_x86 c) (LegacyX86.C02_legacy_x86 c) (LegacyX86.C03_legacy_x86 c)
    (fun s f w a old new B _ => LegacyX86.C04_legacy_x86 c s f w a old new B) (LegacyX86.C05_legacy_x86 c) (LegacyX86.C20_legacy_x86 c)
theorem C21_hw_legacy_x86 (c : LegacyX86.Conf32) : (LegacyX86.backend32 c).Herlihy (fun _ => True) := (C21_legacy_x86 c).herlihy
theorem C20_threads_legacy_x86 (c : LegacyX86.Conf32) (P) : (LegacyX86.backend32 c).NonBlocking P := Backend.nonBlocking P (LegacyX86.C20_legacy_x86 c)
theorem C31_legacy_x86 (c : LegacyX86.Conf32) : (LegacyX86.backend32 c).NoLostUpdates (fun _ => True) := (C21_legacy_x86 c).noLostUpdates
theorem C36_legacy_x86 (c : LegacyX86.Conf32) : (LegacyX86.backend32 c).SwapConserves (fun _ => True) := (C21_legacy_x86 c).swapConserves
theorem C40_legacy_x86 (c : LegacyX86.Conf32) : (LegacyX86.backend32 c).AllOrNothing :=
  Backend.allOrNothing' (LegacyX86.C01_legacy_x86 c) (LegacyX86.C02_legacy_x86 c) (LegacyX86.C03_legacy_x86 c) (LegacyX86.C04_legacy_x86 c) (LegacyX86.C05_legacy_x86 c) (LegacyX86.C20_legacy_x86 c)
theorem C06_always_legacy_x86 (c : LegacyX86.Conf32) : (LegacyX86.backend32 c).NeighboursAlways := (C40_legacy_x86 c).neighbours

/-! ### x86_64 -/

theorem C01_methods_legacy_x86_64 (c : X86.Conf64) : (LegacyX86.backend64 c).MethodsAtomic :=
  Backend.methodsAtomic (LegacyX86.C01_legacy_x86_64 c) (LegacyX86.C02_legacy_x86_64 c) (LegacyX86.C03_legacy_x86_64 c)
theorem C04_methods_legacy_x86_64 (c : X86.Conf64) : (LegacyX86.backend64 c).CasMethodAtomic (fun _ => True) := Backend.casMethodAtomic' (LegacyX86.C04_legacy_x86_64 c)
theorem C05_methods_legacy_x86_64 (c : X86.Conf64) : (LegacyX86.backend64 c).WeakCasMethodAtomic := Backend.weakCasMethodAtomic (LegacyX86.C05_legacy_x86_64 c)
theorem C13_methods_legacy_x86_64 (c : X86.Conf64) : (LegacyX86.backend64 c).MethodsOrdered :=
  Backend.methodsOrdered (LegacyX86.C13_legacy_x86_64 c) (LegacyX86.C14_legacy_x86_64 c) (LegacyX86.C15_legacy_x86_64 c) (LegacyX86.C16_legacy_x86_64 c)
theorem C09_legacy_x86_64 (c : X86.Conf64) : (LegacyX86.backend64 c).FetchUpdateOK := Backend.fetchUpdateOK (LegacyX86.C01_legacy_x86_64 c) (LegacyX86.C05_legacy_x86_64 c)
theorem C10_legacy_x86_64 (c : X86.Conf64) : (LegacyX86.backend64 c).PanicsOK := Backend.panicsOK _
theorem C15_orderings_legacy_x86_64 (c : X86.Conf64) : (LegacyX86.backend64 c).OrderingsOK :=
  Backend.orderingsOK (LegacyX86.C13_legacy_x86_64 c) (LegacyX86.C14_legacy_x86_64 c) (LegacyX86.C15_legacy_x86_64 c) (LegacyX86.C16_legacy_x86_64 c)
theorem C30_legacy_x86_64 (c : X86.Conf64) : (LegacyX86.backend64 c).MessagePassing := Backend.messagePassing (LegacyX86.C13_legacy_x86_64 c) (LegacyX86.C14_legacy_x86_64 c) (LegacyX86.C16_legacy_x86_64 c)
theorem C30_seen_legacy_x86_64 (c : X86.Conf64) : (LegacyX86.backend64 c).MessageSeen := Backend.messageSeen (C30_legacy_x86_64 c)
theorem C38_legacy_x86_64 (c : X86.Conf64) : (LegacyX86.backend64 c).CasTableOK := (C15_orderings_legacy_x86_64 c).casTable
theorem C21_legacy_x86_64 (c : X86.Conf64) : (LegacyX86.backend64 c).Linearizable (fun _ => True) :=
  Backend.linearizable_of _ (LegacyX86.C01_legacy_x86_64 c) (LegacyX86.C02_legacy_x86_64 c) (LegacyX86.C03_legacy_x86_64 c)
    (fun s f w a old new B _ => LegacyX86.C04_legacy_x86_64 c s f w a old new B) (LegacyX86.C05_legacy_x86_64 c) (LegacyX86.C20_legacy_x86_64 c)
theorem C21_hw_legacy_x86_64 (c : X86.Conf64) : (LegacyX86.backend64 c).Herlihy (fun _ => True) := (C21_legacy_x86_64 c).herlihy
theorem C20_threads_legacy_x86_64 (c : X86.Conf64) (P) : (LegacyX86.backend64 c).NonBlocking P := Backend.nonBlocking P (LegacyX86.C20_legacy_x86_64 c)
theorem C31_legacy_x86_64 (c : X86.Conf64) : (LegacyX86.backend64 c).NoLostUpdates (fun _ => True) := (C21_legacy_x86_64 c).noLostUpdates
theorem C36_legacy_x86_64 (c : X86.Conf64) : (LegacyX86.backend64 c).SwapConserves (fun _ => True) := (C21_legacy_x86_64 c).swapConserves
theorem C40_legacy_x86_64 (c : X86.Conf64) : (LegacyX86.backend64 c).AllOrNothing :=
  Backend.allOrNothing' (LegacyX86.C01_legacy_x86_64 c) (LegacyX86.C02_legacy_x86_64 c) (LegacyX86.C03_legacy_x86_64 c) (LegacyX86.C04_legacy_x86_64 c) (LegacyX86.C05_legacy_x86_64 c) (LegacyX86.C20_legacy_x86_64 c)
theorem C06_always_legacy_x86_64 (c : X86.Conf64) : (LegacyX86.backend64 c).NeighboursAlways := (C40_legacy_x86_64 c).neighbours

/-! ### arm_linux -/

theorem C01_methods_legacy_arm_linux (e : Endian) (c : ArmLinux.Conf) : (LegacyArmLinux.backend e c).MethodsAtomic :=
  Backend.methodsAtomic (LegacyArmLinux.C01_legacy_arm_linux e c) (LegacyArmLinux.C02_legacy_arm_linux e c) (LegacyArmLinux.C03_legacy_arm_linux e c)
theorem C04_methods_legacy_arm_linux (e : Endian) (c : ArmLinux.Conf) : (LegacyArmLinux.backend e c).CasMethodAtomic (fun _ => True) := Backend.casMethodAtomic' (LegacyArmLinux.C04_legacy_arm_linux e c)
theorem C05_methods_legacy_arm_linux (e : Endian) (c : ArmLinux.Conf) : (LegacyArmLinux.backend e c).WeakCasMethodAtomic := Backend.weakCasMethodAtomic (LegacyArmLinux.C05_legacy_arm_linux e c)
theorem C13_methods_legacy_arm_linux (e : Endian) (c : ArmLinux.Conf) : (LegacyArmLinux.backend e c).MethodsOrdered :=
  Backend.methodsOrdered (LegacyArmLinux.C13_legacy_arm_linux e c) (LegacyArmLinux.C14_legacy_arm_linux e c) (LegacyArmLinux.C15_legacy_arm_linux e c) (LegacyArmLinux.C16_legacy_arm_linux e c)
theorem C09_legacy_arm_linux (e : Endian) (c : ArmLinux.Conf) : (LegacyArmLinux.backend e c).FetchUpdateOK := Backend.fetchUpdateOK (LegacyArmLinux.C01_legacy_arm_linux e c) (LegacyArmLinux.C05_legacy_arm_linux e c)
theorem C10_legacy_arm_linux (e : Endian) (c : ArmLinux.Conf) : (LegacyArmLinux.backend e c).PanicsOK := Backend.panicsOK _
theorem C15_orderings_legacy_arm_linux (e : Endian) (c : ArmLinux.Conf) : (LegacyArmLinux.backend e c).OrderingsOK :=
  Backend.orderingsOK (LegacyArmLinux.C13_legacy_arm_linux e c) (LegacyArmLinux.C14_legacy_arm_linux e c) (LegacyArmLinux.C15_legacy_arm_linux e c) (LegacyArmLinux.C16_legacy_arm_linux e c)
theorem C30_legacy_arm_linux (e : Endian) (c : ArmLinux.Conf) : (LegacyArmLinux.backend e c).MessagePassing := Backend.messagePassing (LegacyArmLinux.C13_legacy_arm_linux e c) (LegacyArmLinux.C14_legacy_arm_linux e c) (LegacyArmLinux.C16_legacy_arm_linux e c)
theorem C30_seen_legacy_arm_linux (e : Endian) (c : ArmLinux.Conf) : (LegacyArmLinux.backend e c).MessageSeen := Backend.messageSeen (C30_legacy_arm_linux e c)
theorem C38_legacy_arm_linux (e : Endian) (c : ArmLinux.Conf) : (LegacyArmLinux.backend e c).CasTableOK := (C15_orderings_legacy_arm_linux e c).casTable
theorem C21_legacy_arm_linux (e : Endian) (v : Int) : (LegacyArmLinux.backend e ⟨v, false⟩).Linearizable (fun _ => True) :=
  Backend.linearizable_of _ (LegacyArmLinux.C01_legacy_arm_linux e ⟨v, false⟩) (LegacyArmLinux.C02_legacy_arm_linux e ⟨v, false⟩) (LegacyArmLinux.C03_legacy_arm_linux e ⟨v, false⟩)
    (fun s f w a old new B _ => LegacyArmLinux.C04_legacy_arm_linux e ⟨v, false⟩ s f w a old new B) (LegacyArmLinux.C05_legacy_arm_linux e ⟨v, false⟩) (LegacyArmLinux.C20_legacy_arm_linux e v)
theorem C21_hw_legacy_arm_linux (e : Endian) (v : Int) : (LegacyArmLinux.backend e ⟨v, false⟩).Herlihy (fun _ => True) := (C21_legacy_arm_linux e v).herlihy
theorem C20_threads_legacy_arm_linux (e : Endian) (v : Int) (P) : (LegacyArmLinux.backend e ⟨v, false⟩).NonBlocking P := Backend.nonBlocking P (LegacyArmLinux.C20_legacy_arm_linux e v)
theorem C31_legacy_arm_linux (e : Endian) (v : Int) : (LegacyArmLinux.backend e ⟨v, false⟩).NoLostUpdates (fun _ => True) := (C21_legacy_arm_linux e v).noLostUpdates
theorem C36_legacy_arm_linux (e : Endian) (v : Int) : (LegacyArmLinux.backend e ⟨v, false⟩).SwapConserves (fun _ => True) := (C21_legacy_arm_linux e v).swapConserves
theorem C40_legacy_arm_linux (e : Endian) (v : Int) : (LegacyArmLinux.backend e ⟨v, false⟩).AllOrNothing :=
  Backend.allOrNothing' (LegacyArmLinux.C01_legacy_arm_linux e ⟨v, false⟩) (LegacyArmLinux.C02_legacy_arm_linux e ⟨v, false⟩) (LegacyArmLinux.C03_legacy_arm_linux e ⟨v, false⟩) (LegacyArmLinux.C04_legacy_arm_linux e ⟨v, false⟩) (LegacyArmLinux.C05_legacy_arm_linux e ⟨v, false⟩) (LegacyArmLinux.C20_legacy_arm_linux e v)
theorem C06_always_legacy_arm_linux (e : Endian) (v : Int) : (LegacyArmLinux.backend e ⟨v, false⟩).NeighboursAlways := (C40_legacy_arm_linux e v).neighbours

end Verif
