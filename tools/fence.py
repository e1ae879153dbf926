# generates lean/Verif/Props/Fence.lean: C53 for every back end
import os
here=os.path.dirname(os.path.abspath(__file__))
env={}
src=open(os.path.join(here,"sync.py")).read()
exec(src[:src.index("out=")],env)
src=open(os.path.join(here,"nonmcasync.py")).read()
a=src.index("ACC={"); ns={}; exec(src[a:src.index("}",a)+1],ns); ACC=ns["ACC"]
out="""/-
C53 (release and acquire fences synchronize) for every back end, and without assuming multi-copy atomicity for the back ends that
order with barriers only. Generated by tools/fence.py.
-/
import Verif.Weak.FenceProof
import Verif.Weak.FenceNonMCA
import Verif.Weak.Paired
import Verif.Weak.Barriers
import Verif.Props.Access

namespace Verif
"""
for m,s,b,be,g,p in env["ARCHS"]:
    b=" "+b if b else ""
    if s.endswith("_partial"):
        out+=f"\n/-- C53 on {s.removesuffix('_partial')}. Missing: the compiler may exploit the false `assert_unchecked` (`C19_m68k_violated`). -/"
    else: out+=f"\n/-- C53 on {s}. -/"
    out+=f"""
theorem C53_{s}{b} : ({m}.{be}).FencesSynchronize fun _ => True :=
  ({m}.{g}).fencesSynchronize ({m}.{p})
"""
    if s not in ACC: continue
    out+=f"""
/-- C53 without multi-copy atomicity on {s}. -/
theorem C53_nonmca_{s}{b} : ({m}.{be}).FencesSyncOnNonMCA fun _ => True :=
  ({m}.{g}).fencesSyncOnNonMCA ({m}.{p}) ({ACC[s]}) ({m}.{p.replace('paired','barriersOnly')}) rfl
"""
out+="\nend Verif\n"
open(os.path.join(here,"../lean/Verif/Props/Fence.lean"),"w").write(out)
