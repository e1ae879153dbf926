/-
C18 (undefined upper bits of narrow inputs do not matter) for the back ends of src/arch_legacy: their blocks load the values
through pointers, but the registers of the outputs and temporaries still start with arbitrary contents. Generated by
tools/legacygarbage.py.
-/
import Verif.Props.Garbage
import Verif.Props.LegacyRiscV
import Verif.Props.LegacyLoongArch
import Verif.Props.LegacyArm
import Verif.Props.LegacyArmv8
import Verif.Props.LegacyAArch64
import Verif.Props.LegacyX86
import Verif.Props.LegacyArmLinux

namespace Verif

theorem C18_legacy_riscv (e : Endian) {W : Nat} (hW : W = 32 ∨ W = 64) : (LegacyRiscV.backend e W).GarbageOK fun _ => True :=
  Backend.garbageOK' (LegacyRiscV.C01_legacy_riscv e hW) (LegacyRiscV.C02_legacy_riscv e hW) (LegacyRiscV.C03_legacy_riscv e hW) (LegacyRiscV.C04_legacy_riscv e hW) (LegacyRiscV.C05_legacy_riscv e hW)

theorem C18_legacy_loongarch (e : Endian) : (LegacyLoongArch.backend e 64).GarbageOK fun _ => True :=
  Backend.garbageOK' (LegacyLoongArch.C01_legacy_loongarch e) (LegacyLoongArch.C02_legacy_loongarch e) (LegacyLoongArch.C03_legacy_loongarch e) (LegacyLoongArch.C04_legacy_loongarch e) (LegacyLoongArch.C05_legacy_loongarch e)

theorem C18_legacy_arm (e : Endian) (c : Arm.Conf) : (LegacyArm.backend e c).GarbageOK fun _ => True :=
  Backend.garbageOK' (LegacyArm.C01_legacy_arm e c) (LegacyArm.C02_legacy_arm e c) (LegacyArm.C03_legacy_arm e c) (LegacyArm.C04_legacy_arm e c) (LegacyArm.C05_legacy_arm e c)

theorem C18_legacy_armv8 (e : Endian) (c : Armv8.Conf) : (LegacyArmv8.backend e c).GarbageOK fun _ => True :=
  Backend.garbageOK' (LegacyArmv8.C01_legacy_armv8 e c) (LegacyArmv8.C02_legacy_armv8 e c) (LegacyArmv8.C03_legacy_armv8 e c) (LegacyArmv8.C04_legacy_armv8 e c) (LegacyArmv8.C05_legacy_armv8 e c)

theorem C18_legacy_aarch64 (e : Endian) (c : AArch64.Conf) : (LegacyAArch64.backend e c).GarbageOK fun _ => True :=
  Backend.garbageOK' (LegacyAArch64.C01_legacy_aarch64 e c) (LegacyAArch64.C02_legacy_aarch64 e c) (LegacyAArch64.C03_legacy_aarch64 e c) (LegacyAArch64.C04_legacy_aarch64 e c) (LegacyAArch64.C05_legacy_aarch64 e c)

theorem C18_legacy_x86 (c : LegacyX86.Conf32) : (LegacyX86.backend32 c).GarbageOK fun _ => True :=
  Backend.garbageOK' (LegacyX86.C01_legacy_x86 c) (LegacyX86.C02_legacy_x86 c) (LegacyX86.C03_legacy_x86 c) (LegacyX86.C04_legacy_x86 c) (LegacyX86.C05_legacy_x86 c)

theorem C18_legacy_x86_64 (c : X86.Conf64) : (LegacyX86.backend64 c).GarbageOK fun _ => True :=
  Backend.garbageOK' (LegacyX86.C01_legacy_x86_64 c) (LegacyX86.C02_legacy_x86_64 c) (LegacyX86.C03_legacy_x86_64 c) (LegacyX86.C04_legacy_x86_64 c) (LegacyX86.C05_legacy_x86_64 c)

theorem C18_legacy_arm_linux (e : Endian) (c : ArmLinux.Conf) : (LegacyArmLinux.backend e c).GarbageOK fun _ => True :=
  Backend.garbageOK' (LegacyArmLinux.C01_legacy_arm_linux e c) (LegacyArmLinux.C02_legacy_arm_linux e c) (LegacyArmLinux.C03_legacy_arm_linux e c) (LegacyArmLinux.C04_legacy_arm_linux e c) (LegacyArmLinux.C05_legacy_arm_linux e c)

end Verif
