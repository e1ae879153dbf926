# generates lean/Verif/Props/LegacyGarbage.lean: C18 for the back ends of src/arch_legacy
import os
here=os.path.dirname(os.path.abspath(__file__))
env={}
src=open(os.path.join(here,"legacy.py")).read()
exec(src[:src.index("out=")],env)
out="""/-
C18 (undefined upper bits of narrow inputs do not matter) for the back ends of src/arch_legacy: their blocks load the values
through pointers, but the registers of the outputs and temporaries still start with arbitrary contents. Generated by
tools/legacygarbage.py.
-/
import Verif.Props.Garbage
"""
for m in dict.fromkeys(a[0] for a in env["ARCHS"]): out+=f"import Verif.Props.{m}\n"
out+="\nnamespace Verif\n"
for m,s,b,a,pa,be in env["ARCHS"]:
    out+=f"""
theorem C18_legacy_{s} {b} : ({m}.{be}).GarbageOK fun _ => True :=
  Backend.garbageOK' {" ".join(f"({m}.C0{i}_legacy_{s} {a})" for i in range(1,6))}
"""
out+="\nend Verif\n"
open(os.path.join(here,"../lean/Verif/Props/LegacyGarbage.lean"),"w").write(out)
