# generates lean/Verif/Props/LinMore.lean: instances of the many-thread theorems for back ends with full C01-C05, C20
ARCHS=[ # (module, namespace, suffix, binders, theorem args[, backend args, C20 args])
 ("Armv8","Armv8","armv8","(e : Endian) (c : Armv8.Conf)","e c"),
 ("AArch64","AArch64","aarch64","(e : Endian) (c : AArch64.Conf)","e c"),
 ("PowerPC","PowerPC","powerpc","(e : Endian) {W : Nat} (hW : W = 32 ∨ W = 64) (c : PowerPC.Conf)","e hW c","e W c","e c"),
 ("S390x","S390x","s390x","",""),
 ("Sparc","Sparc","sparc","{W : Nat} (hW : W = 32 ∨ W = 64) (v9 : Bool)","hW v9","W v9","hW v9"),
 ("Hexagon","Hexagon","hexagon","",""),
 ("X86","X86","x86","(c : X86.Conf32)","c",("backend32 c",),"c"),
 ("X86","X86","x86_64","(c : X86.Conf64)","c",("backend64 c",),"c"),
 ("ArmLinux","ArmLinux","arm_linux","(e : Endian) (v : Int)","e ⟨v, false⟩","e ⟨v, false⟩","e v","e v"),
 ("M68k","M68k","m68k_partial","(c : M68k.Conf)","c"),
]
import sys,json,os
extra=os.path.join(os.path.dirname(__file__),"archs.json")
if os.path.exists(extra): ARCHS+= [tuple(x) for x in json.load(open(extra))]
out="/-\nC21, C20 (many threads), C09, C10, C31 and C36 for further back ends. Generated by tools/linmore.py.\n-/\nimport Verif.Props.Lin\n"
for m,*_ in dict.fromkeys((a[0],) for a in ARCHS): out+=f"import Verif.Props.{m}\n"
out+="\nnamespace Verif\n"
for m,n,s,b,a,*r in ARCHS:
    ba,pa,sa=(list(r)+[a])[:3] if r else (a,a,a)
    be=f"({n}.{ba[0]})" if isinstance(ba,tuple) else f"({n}.backend {ba})"
    t=s.removesuffix("_partial")
    # the kernel helpers may fail spuriously where only C01 and C05 are needed
    g=s=="arm_linux"
    b9,a9,be9=("(e : Endian) (c : ArmLinux.Conf)","e c","(ArmLinux.backend e c)") if g else (b,a,be)
    out+=f"""
theorem C21_{s} {b} : {be}.Linearizable (fun _ => True) :=
  Backend.linearizable_of _ ({n}.C01_{t} {a}) ({n}.C02_{t} {a}) ({n}.C03_{t} {a})
    (fun s f w a old new B _ => {n}.C04_{s} {a} s f w a old new B) ({n}.C05_{s} {a}) ({n}.C20_{t} {pa})
theorem C20_threads_{t} {b} (P) : {be}.NonBlocking P := Backend.nonBlocking P ({n}.C20_{t} {pa})
theorem C09_{s} {b9} : {be9}.FetchUpdateOK := Backend.fetchUpdateOK ({n}.C01_{t} {a9}) ({n}.C05_{s} {a9})
theorem C10_{t} {b9} : {be9}.PanicsOK := Backend.panicsOK _
theorem C31_{s} {b} : {be}.NoLostUpdates (fun _ => True) := (C21_{s} {sa}).noLostUpdates
theorem C36_{"asm_"*(s!=t)}{t} {b} : {be}.SwapConserves (fun _ => True) := (C21_{s} {sa}).swapConserves
"""
out+="\nend Verif\n"
open(os.path.join(os.path.dirname(__file__),"../lean/Verif/Props/LinMore.lean"),"w").write(out)
