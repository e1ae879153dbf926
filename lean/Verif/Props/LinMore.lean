/-
C21, C20 (many threads), C09, C10, C31 and C36 for further back ends. Generated by tools/linmore.py.
-/
import Verif.Props.Lin
import Verif.Props.Armv8
import Verif.Props.AArch64
import Verif.Props.PowerPC
import Verif.Props.S390x
import Verif.Props.Sparc
import Verif.Props.Hexagon
import Verif.Props.X86
import Verif.Props.ArmLinux
import Verif.Props.M68k

namespace Verif

theorem C21_armv8 (e : Endian) (c : Armv8.Conf) : (Armv8.backend e c).Linearizable (fun _ => True) :=
  Backend.linearizable_of _ (Armv8.C01_armv8 e c) (Armv8.C02_armv8 e c) (Armv8.C03_armv8 e c)
    (fun s f w a old new B _ => Armv8.C04_armv8 e c s f w a old new B) (Armv8.C05_armv8 e c) (Armv8.C20_armv8 e c)
theorem C20_threads_armv8 (e : Endian) (c : Armv8.Conf) (P) : (Armv8.backend e c).NonBlocking P := Backend.nonBlocking P (Armv8.C20_armv8 e c)
theorem C09_armv8 (e : Endian) (c : Armv8.Conf) : (Armv8.backend e c).FetchUpdateOK := Backend.fetchUpdateOK (Armv8.C01_armv8 e c) (Armv8.C05_armv8 e c)
theorem C10_armv8 (e : Endian) (c : Armv8.Conf) : (Armv8.backend e c).PanicsOK := Backend.panicsOK _
theorem C31_armv8 (e : Endian) (c : Armv8.Conf) : (Armv8.backend e c).NoLostUpdates (fun _ => True) := (C21_armv8 e c).noLostUpdates
theorem C36_armv8 (e : Endian) (c : Armv8.Conf) : (Armv8.backend e c).SwapConserves (fun _ => True) := (C21_armv8 e c).swapConserves

theorem C21_aarch64 (e : Endian) (c : AArch64.Conf) : (AArch64.backend e c).Linearizable (fun _ => True) :=
  Backend.linearizable_of _ (AArch64.C01_aarch64 e c) (AArch64.C02_aarch64 e c) (AArch64.C03_aarch64 e c)
    (fun s f w a old new B _ => AArch64.C04_aarch64 e c s f w a old new B) (AArch64.C05_aarch64 e c) (AArch64.C20_aarch64 e c)
theorem C20_threads_aarch64 (e : Endian) (c : AArch64.Conf) (P) : (AArch64.backend e c).NonBlocking P := Backend.nonBlocking P (AArch64.C20_aarch64 e c)
theorem C09_aarch64 (e : Endian) (c : AArch64.Conf) : (AArch64.backend e c).FetchUpdateOK := Backend.fetchUpdateOK (AArch64.C01_aarch64 e c) (AArch64.C05_aarch64 e c)
theorem C10_aarch64 (e : Endian) (c : AArch64.Conf) : (AArch64.backend e c).PanicsOK := Backend.panicsOK _
theorem C31_aarch64 (e : Endian) (c : AArch64.Conf) : (AArch64.backend e c).NoLostUpdates (fun _ => True) := (C21_aarch64 e c).noLostUpdates
theorem C36_aarch64 (e : Endian) (c : AArch64.Conf) : (AArch64.backend e c).SwapConserves (fun _ => True) := (C21_aarch64 e c).swapConserves

theorem C21_powerpc (e : Endian) {W : Nat} (hW : W = 32 ∨ W = 64) (c : PowerPC.Conf) : (PowerPC.backend e W c).Linearizable (fun _ => True) :=
  Backend.linearizable_of _ (PowerPC.C01_powerpc e hW c) (PowerPC.C02_powerpc e hW c) (PowerPC.C03_powerpc e hW c)
    (fun s f w a old new B _ => PowerPC.C04_powerpc e hW c s f w a old new B) (PowerPC.C05_powerpc e hW c) (PowerPC.C20_powerpc e c)
theorem C20_threads_powerpc (e : Endian) {W : Nat} (hW : W = 32 ∨ W = 64) (c : PowerPC.Conf) (P) : (PowerPC.backend e W c).NonBlocking P := Backend.nonBlocking P (PowerPC.C20_powerpc e c)
theorem C09_powerpc (e : Endian) {W : Nat} (hW : W = 32 ∨ W = 64) (c : PowerPC.Conf) : (PowerPC.backend e W c).FetchUpdateOK := Backend.fetchUpdateOK (PowerPC.C01_powerpc e hW c) (PowerPC.C05_powerpc e hW c)
theorem C10_powerpc (e : Endian) {W : Nat} (hW : W = 32 ∨ W = 64) (c : PowerPC.Conf) : (PowerPC.backend e W c).PanicsOK := Backend.panicsOK _
theorem C31_powerpc (e : Endian) {W : Nat} (hW : W = 32 ∨ W = 64) (c : PowerPC.Conf) : (PowerPC.backend e W c).NoLostUpdates (fun _ => True) := (C21_powerpc e hW c).noLostUpdates
theorem C36_powerpc (e : Endian) {W : Nat} (hW : W = 32 ∨ W = 64) (c : PowerPC.Conf) : (PowerPC.backend e W c).SwapConserves (fun _ => True) := (C21_powerpc e hW c).swapConserves

theorem C21_s390x  : (S390x.backend ).Linearizable (fun _ => True) :=
  Backend.linearizable_of _ (S390x.C01_s390x ) (S390x.C02_s390x ) (S390x.C03_s390x )
    (fun s f w a old new B _ => S390x.C04_s390x  s f w a old new B) (S390x.C05_s390x ) (S390x.C20_s390x )
theorem C20_threads_s390x  (P) : (S390x.backend ).NonBlocking P := Backend.nonBlocking P (S390x.C20_s390x )
theorem C09_s390x  : (S390x.backend ).FetchUpdateOK := Backend.fetchUpdateOK (S390x.C01_s390x ) (S390x.C05_s390x )
theorem C10_s390x  : (S390x.backend ).PanicsOK := Backend.panicsOK _
theorem C31_s390x  : (S390x.backend ).NoLostUpdates (fun _ => True) := (C21_s390x ).noLostUpdates
theorem C36_s390x  : (S390x.backend ).SwapConserves (fun _ => True) := (C21_s390x ).swapConserves

theorem C21_sparc {W : Nat} (hW : W = 32 ∨ W = 64) (v9 : Bool) : (Sparc.backend W v9).Linearizable (fun _ => True) :=
  Backend.linearizable_of _ (Sparc.C01_sparc hW v9) (Sparc.C02_sparc hW v9) (Sparc.C03_sparc hW v9)
    (fun s f w a old new B _ => Sparc.C04_sparc hW v9 s f w a old new B) (Sparc.C05_sparc hW v9) (Sparc.C20_sparc hW v9)
theorem C20_threads_sparc {W : Nat} (hW : W = 32 ∨ W = 64) (v9 : Bool) (P) : (Sparc.backend W v9).NonBlocking P := Backend.nonBlocking P (Sparc.C20_sparc hW v9)
theorem C09_sparc {W : Nat} (hW : W = 32 ∨ W = 64) (v9 : Bool) : (Sparc.backend W v9).FetchUpdateOK := Backend.fetchUpdateOK (Sparc.C01_sparc hW v9) (Sparc.C05_sparc hW v9)
theorem C10_sparc {W : Nat} (hW : W = 32 ∨ W = 64) (v9 : Bool) : (Sparc.backend W v9).PanicsOK := Backend.panicsOK _
theorem C31_sparc {W : Nat} (hW : W = 32 ∨ W = 64) (v9 : Bool) : (Sparc.backend W v9).NoLostUpdates (fun _ => True) := (C21_sparc hW v9).noLostUpdates
theorem C36_sparc {W : Nat} (hW : W = 32 ∨ W = 64) (v9 : Bool) : (Sparc.backend W v9).SwapConserves (fun _ => True) := (C21_sparc hW v9).swapConserves

theorem C21_hexagon  : (Hexagon.backend ).Linearizable (fun _ => True) :=
  Backend.linearizable_of _ (Hexagon.C01_hexagon ) (Hexagon.C02_hexagon ) (Hexagon.C03_hexagon )
    (fun s f w a old new B _ => Hexagon.C04_hexagon  s f w a old new B) (Hexagon.C05_hexagon ) (Hexagon.C20_hexagon )
theorem C20_threads_hexagon  (P) : (Hexagon.backend ).NonBlocking P := Backend.nonBlocking P (Hexagon.C20_hexagon )
theorem C09_hexagon  : (Hexagon.backend ).FetchUpdateOK := Backend.fetchUpdateOK (Hexagon.C01_hexagon ) (Hexagon.C05_hexagon )
theorem C10_hexagon  : (Hexagon.backend ).PanicsOK := Backend.panicsOK _
theorem C31_hexagon  : (Hexagon.backend ).NoLostUpdates (fun _ => True) := (C21_hexagon ).noLostUpdates
theorem C36_hexagon  : (Hexagon.backend ).SwapConserves (fun _ => True) := (C21_hexagon ).swapConserves

theorem C21_x86 (c : X86.Conf32) : (X86.backend32 c).Linearizable (fun _ => True) :=
  Backend.linearizable_of _ (X86.C01_x86 c) (X86.C02_x86 c) (X86.C03_x86 c)
    (fun s f w a old new B _ => X86.C04_x86 c s f w a old new B) (X86.C05_x86 c) (X86.C20_x86 c)
theorem C20_threads_x86 (c : X86.Conf32) (P) : (X86.backend32 c).NonBlocking P := Backend.nonBlocking P (X86.C20_x86 c)
theorem C09_x86 (c : X86.Conf32) : (X86.backend32 c).FetchUpdateOK := Backend.fetchUpdateOK (X86.C01_x86 c) (X86.C05_x86 c)
theorem C10_x86 (c : X86.Conf32) : (X86.backend32 c).PanicsOK := Backend.panicsOK _
theorem C31_x86 (c : X86.Conf32) : (X86.backend32 c).NoLostUpdates (fun _ => True) := (C21_x86 c).noLostUpdates
theorem C36_x86 (c : X86.Conf32) : (X86.backend32 c).SwapConserves (fun _ => True) := (C21_x86 c).swapConserves

theorem C21_x86_64 (c : X86.Conf64) : (X86.backend64 c).Linearizable (fun _ => True) :=
  Backend.linearizable_of _ (X86.C01_x86_64 c) (X86.C02_x86_64 c) (X86.C03_x86_64 c)
    (fun s f w a old new B _ => X86.C04_x86_64 c s f w a old new B) (X86.C05_x86_64 c) (X86.C20_x86_64 c)
theorem C20_threads_x86_64 (c : X86.Conf64) (P) : (X86.backend64 c).NonBlocking P := Backend.nonBlocking P (X86.C20_x86_64 c)
theorem C09_x86_64 (c : X86.Conf64) : (X86.backend64 c).FetchUpdateOK := Backend.fetchUpdateOK (X86.C01_x86_64 c) (X86.C05_x86_64 c)
theorem C10_x86_64 (c : X86.Conf64) : (X86.backend64 c).PanicsOK := Backend.panicsOK _
theorem C31_x86_64 (c : X86.Conf64) : (X86.backend64 c).NoLostUpdates (fun _ => True) := (C21_x86_64 c).noLostUpdates
theorem C36_x86_64 (c : X86.Conf64) : (X86.backend64 c).SwapConserves (fun _ => True) := (C21_x86_64 c).swapConserves

theorem C21_arm_linux (e : Endian) (v : Int) : (ArmLinux.backend e ⟨v, false⟩).Linearizable (fun _ => True) :=
  Backend.linearizable_of _ (ArmLinux.C01_arm_linux e ⟨v, false⟩) (ArmLinux.C02_arm_linux e ⟨v, false⟩) (ArmLinux.C03_arm_linux e ⟨v, false⟩)
    (fun s f w a old new B _ => ArmLinux.C04_arm_linux e ⟨v, false⟩ s f w a old new B) (ArmLinux.C05_arm_linux e ⟨v, false⟩) (ArmLinux.C20_arm_linux e v)
theorem C20_threads_arm_linux (e : Endian) (v : Int) (P) : (ArmLinux.backend e ⟨v, false⟩).NonBlocking P := Backend.nonBlocking P (ArmLinux.C20_arm_linux e v)
theorem C09_arm_linux (e : Endian) (c : ArmLinux.Conf) : (ArmLinux.backend e c).FetchUpdateOK := Backend.fetchUpdateOK (ArmLinux.C01_arm_linux e c) (ArmLinux.C05_arm_linux e c)
theorem C10_arm_linux (e : Endian) (c : ArmLinux.Conf) : (ArmLinux.backend e c).PanicsOK := Backend.panicsOK _
theorem C31_arm_linux (e : Endian) (v : Int) : (ArmLinux.backend e ⟨v, false⟩).NoLostUpdates (fun _ => True) := (C21_arm_linux e v).noLostUpdates
theorem C36_arm_linux (e : Endian) (v : Int) : (ArmLinux.backend e ⟨v, false⟩).SwapConserves (fun _ => True) := (C21_arm_linux e v).swapConserves

theorem C21_m68k_partial (c : M68k.Conf) : (M68k.backend c).Linearizable (fun _ => True) :=
  Backend.linearizable_of _ (M68k.C01_m68k c) (M68k.C02_m68k c) (M68k.C03_m68k c)
    (fun s f w a old new B _ => M68k.C04_m68k_partial c s f w a old new B) (M68k.C05_m68k_partial c) (M68k.C20_m68k c)
theorem C20_threads_m68k (c : M68k.Conf) (P) : (M68k.backend c).NonBlocking P := Backend.nonBlocking P (M68k.C20_m68k c)
theorem C09_m68k_partial (c : M68k.Conf) : (M68k.backend c).FetchUpdateOK := Backend.fetchUpdateOK (M68k.C01_m68k c) (M68k.C05_m68k_partial c)
theorem C10_m68k (c : M68k.Conf) : (M68k.backend c).PanicsOK := Backend.panicsOK _
theorem C31_m68k_partial (c : M68k.Conf) : (M68k.backend c).NoLostUpdates (fun _ => True) := (C21_m68k_partial c).noLostUpdates
theorem C36_asm_m68k (c : M68k.Conf) : (M68k.backend c).SwapConserves (fun _ => True) := (C21_m68k_partial c).swapConserves

end Verif
