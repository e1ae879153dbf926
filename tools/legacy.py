# generates lean/Verif/Props/LegacyMore.lean: the many-thread, method, abandonment and ordering theorems for the back
# ends of src/arch_legacy
import os
ARCHS=[ # (module, suffix, binders, args of C01-C16, args of C20, backend); arm_linux: see below
 ("LegacyRiscV","riscv","(e : Endian) {W : Nat} (hW : W = 32 ∨ W = 64)","e hW","e hW","backend e W"),
 ("LegacyLoongArch","loongarch","(e : Endian)","e","e","backend e 64"),
 ("LegacyArm","arm","(e : Endian) (c : Arm.Conf)","e c","e c","backend e c"),
 ("LegacyArmv8","armv8","(e : Endian) (c : Armv8.Conf)","e c","e c","backend e c"),
 ("LegacyAArch64","aarch64","(e : Endian) (c : AArch64.Conf)","e c","e c","backend e c"),
 ("LegacyX86","x86","(c : LegacyX86.Conf32)","c","c","backend32 c"),
 ("LegacyX86","x86_64","(c : X86.Conf64)","c","c","backend64 c"),
 ("LegacyArmLinux","arm_linux","(e : Endian) (c : ArmLinux.Conf)","e c","","backend e c"),
]
out="""/-
Properties of the back ends of src/arch_legacy that follow from C01-C05, C13-C16 and C20: C21, C20 (many threads), C09,
C10, C31, C36, the methods of `AtomicMaybeUninit`, C40, C30, C38 and the orderings over whole threads. Generated by
tools/legacy.py.
-/
import Verif.Props.Lin
import Verif.Lin.SC
import Verif.Lin.Abandon
import Verif.Lin.Complete
import Verif.Api.MethodProof
import Verif.Weak.Proof
"""
for m in dict.fromkeys(a[0] for a in ARCHS): out+=f"import Verif.Props.{m}\n"
out+="\nnamespace Verif\n"
for m,s,b,a,pa,be in ARCHS:
    T=lambda n: f"({m}.{n}_legacy_{s} {a})"
    be=f"({m}.{be})"
    out+=f"""
/-! ### {s} -/

theorem C01_methods_legacy_{s} {b} : {be}.MethodsAtomic :=
  Backend.methodsAtomic {T("C01")} {T("C02")} {T("C03")}
theorem C04_methods_legacy_{s} {b} : {be}.CasMethodAtomic (fun _ => True) := Backend.casMethodAtomic' {T("C04")}
theorem C05_methods_legacy_{s} {b} : {be}.WeakCasMethodAtomic := Backend.weakCasMethodAtomic {T("C05")}
theorem C13_methods_legacy_{s} {b} : {be}.MethodsOrdered :=
  Backend.methodsOrdered {T("C13")} {T("C14")} {T("C15")} {T("C16")}
theorem C09_legacy_{s} {b} : {be}.FetchUpdateOK := Backend.fetchUpdateOK {T("C01")} {T("C05")}
theorem C10_legacy_{s} {b} : {be}.PanicsOK := Backend.panicsOK _
theorem C15_orderings_legacy_{s} {b} : {be}.OrderingsOK :=
  Backend.orderingsOK {T("C13")} {T("C14")} {T("C15")} {T("C16")}
theorem C30_legacy_{s} {b} : {be}.MessagePassing := Backend.messagePassing {T("C13")} {T("C14")} {T("C16")}
theorem C30_seen_legacy_{s} {b} : {be}.MessageSeen := Backend.messageSeen (C30_legacy_{s} {a})
theorem C38_legacy_{s} {b} : {be}.CasTableOK := (C15_orderings_legacy_{s} {a}).casTable
"""
    if s=="arm_linux":
        b,a2,pa,be="(e : Endian) (v : Int)","e ⟨v, false⟩","e v","(LegacyArmLinux.backend e ⟨v, false⟩)"
        sa="e v"
        T=lambda n: f"({m}.{n}_legacy_{s} {a2})"
        a=a2
    else: sa=a
    out+=f"""theorem C21_legacy_{s} {b} : {be}.Linearizable (fun _ => True) :=
  Backend.linearizable_of _ {T("C01")} {T("C02")} {T("C03")}
    (fun s f w a old new B _ => {m}.C04_legacy_{s} {a} s f w a old new B) {T("C05")} ({m}.C20_legacy_{s} {pa})
theorem C21_hw_legacy_{s} {b} : {be}.Herlihy (fun _ => True) := (C21_legacy_{s} {sa}).herlihy
theorem C20_threads_legacy_{s} {b} (P) : {be}.NonBlocking P := Backend.nonBlocking P ({m}.C20_legacy_{s} {pa})
theorem C31_legacy_{s} {b} : {be}.NoLostUpdates (fun _ => True) := (C21_legacy_{s} {sa}).noLostUpdates
theorem C36_legacy_{s} {b} : {be}.SwapConserves (fun _ => True) := (C21_legacy_{s} {sa}).swapConserves
theorem C40_legacy_{s} {b} : {be}.AllOrNothing :=
  Backend.allOrNothing' {T("C01")} {T("C02")} {T("C03")} {T("C04")} {T("C05")} ({m}.C20_legacy_{s} {pa})
theorem C06_always_legacy_{s} {b} : {be}.NeighboursAlways := (C40_legacy_{s} {sa}).neighbours
"""
out+="\nend Verif\n"
open(os.path.join(os.path.dirname(os.path.abspath(__file__)),"../lean/Verif/Props/LegacyMore.lean"),"w").write(out)
