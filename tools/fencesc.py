# generates lean/Verif/Props/FenceSC.lean: C54 for every back end
import os
here=os.path.dirname(os.path.abspath(__file__))
env={}
src=open(os.path.join(here,"weaksc.py")).read()
exec(src[:src.index("out=")],env)
def lit(f,key):
    src=open(os.path.join(here,f)).read()
    a=src.index(key+"={"); ns={}; exec(src[a:src.index("}",a)+1],ns); return ns[key]
ACC=lit("coherence.py","ACC"); SIDE=lit("nonmca.py","SIDE")
out="""/-
C54 (operations separated by SeqCst fences are sequentially consistent) for every back end, and without assuming multi-copy atomicity
for the back ends that order with barriers only. Generated by tools/fencesc.py.
-/
import Verif.Weak.FenceSCProof
import Verif.Props.Access
import Verif.Props.WeakSC

namespace Verif
"""
for m,s,b,be,g,c4,o,r in env["ARCHS"]:
    b=" "+b if b else ""
    be=f"({m}.{be})"
    why="."
    if s.endswith("_partial"):
        why=". Missing: the 32-bit strong compare_exchange (`C04_*_word_fails`)." if r=="32" else ". Missing: the compiler may exploit the false `assert_unchecked` (`C19_m68k_violated`)."
    base=s.removesuffix("_partial")
    P="fun c => c.NotCas32" if r=="32" else "fun _ => True"
    C4=f"(fun s f w a old new B => {m}.{c4})" if r=="all" else f"({m}.{c4})"
    L=f"(({m}.{g}).localOps (P := Call.NotCas32) fun s f w a old new B h => {m}.{c4})"
    pf=f"Backend.fencesSC {L} ({o})" if r=="32" else f"({m}.{g}).fencesSC {C4} ({o})"
    out+=f"""
/-- C54 on {base}{why} -/
theorem C54_{s}{b} : {be}.FencesSC {P} :=
  {pf}
"""
    if s not in SIDE: continue
    acc=ACC[s]
    sd="leads" if SIDE[s]=="l" else "trails"
    inj=".inl" if SIDE[s]=="l" else ".inr"
    pf=f"Backend.fencesSCOnNonMCA {L} ({acc}) ({inj} (({m}.{g}).{sd} (by decide)))" if r=="32" else f"({m}.{g}).fencesSCOnNonMCA {C4} ({acc}) ({inj} (by decide))"
    out+=f"""
/-- C54 without multi-copy atomicity on {base}{why} -/
theorem C54_nonmca_{s}{b} : {be}.FencesSCOnNonMCA {P} :=
  {pf}
"""
out+="\nend Verif\n"
open(os.path.join(here,"../lean/Verif/Props/FenceSC.lean"),"w").write(out)
