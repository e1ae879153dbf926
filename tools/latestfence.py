# generates lean/Verif/Props/LatestFence.lean: C55 for every back end
import os
here=os.path.dirname(os.path.abspath(__file__))
env={}
src=open(os.path.join(here,"sync.py")).read()
exec(src[:src.index("out=")],env)
src=open(os.path.join(here,"latest.py")).read()
a=src.index("NONMCA="); exec(src[a:src.index('out="""')],env)
out="""/-
C55 (without data races, ordinary code reads what was written last, if threads synchronize through fences) for every back end.
Generated by tools/latestfence.py.
-/
import Verif.Weak.LatestFenceProof
import Verif.Weak.Barriers
import Verif.Props.Access

namespace Verif
"""
for m,s,b,be,g,p in env["ARCHS"]:
    b=" "+b if b else ""
    s0=s.removesuffix("_partial")
    ar=env["ARGS"][s0]
    acc=f"(C39_{s0} {ar})" if ar else f"C39_{s0}"
    if s!=s0:
        out+=f"\n/-- C55 on {s0}. Missing: the compiler may exploit the false `assert_unchecked` (`C19_m68k_violated`). -/"
    else: out+=f"\n/-- C55 on {s}. -/"
    out+=f"""
theorem C55_{s}{b} : ({m}.{be}).RaceFreeReadsFenced fun _ => True :=
  ({m}.{g}).raceFreeReadsFenced ({m}.{p}) {acc}
"""
    if s in env["NONMCA"]:
        out+=f"""
/-- C55 without multi-copy atomicity on {s}. -/
theorem C55_nonmca_{s}{b} : ({m}.{be}).RaceFreeReadsFencedNonMCA fun _ => True :=
  ({m}.{g}).raceFreeReadsFencedNonMCA ({m}.{p}) {acc} ({m}.{p.replace('paired','barriersOnly')}) rfl
"""
out+="\nend Verif\n"
open(os.path.join(here,"../lean/Verif/Props/LatestFence.lean"),"w").write(out)
