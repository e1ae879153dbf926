# generates lean/Verif/Props/DRF.lean: C49 for every back end
import os
here=os.path.dirname(os.path.abspath(__file__))
def table(f,start,end):
    src=open(os.path.join(here,f)).read(); a=src.index(start); ns={}
    exec(src[a:src.index(end,a)+len(end)],ns); return ns
ARCHS=table("weaksc.py","ARCHS=","\n]")["ARCHS"]
ACC=table("coherence.py","ACC={","}")["ACC"]
SIDE=table("nonmca.py","SIDE={","}")["SIDE"]
PAIR={x[1].removesuffix("_partial"):x[5] for x in table("sync.py","ARCHS=","\n]")["ARCHS"]}
PAIR.update({"riscv32":"paired e 32 z","riscv64":"paired e 64 z","mips32":"paired e 32","mips64":"paired e 64"})
out="""/-
C49 (programs without data races are sequentially consistent) for every back end. Generated by tools/drf.py.
-/
import Verif.Weak.DRFProof
import Verif.Weak.Barriers
import Verif.Props.Access
import Verif.Props.WeakSC

namespace Verif
"""
for m,s,b,be,g,c4,o,r in ARCHS:
    b=" "+b if b else ""
    be=f"({m}.{be})"; acc=ACC[s]; base=s.removesuffix("_partial"); p=PAIR[base]
    why="" if s==base else " Missing: the 32-bit strong compare_exchange (`C04_*_word_fails`)." if r=="32" else " Missing: the compiler may exploit the false `assert_unchecked` (`C19_m68k_violated`)."
    ty="fun c => c.SeqCstOnly ∧ c.NotCas32" if r=="32" else "Call.SeqCstOnly"
    cas=f"(fun s f w a old new B => {m}.{c4})" if r=="all" else f"({m}.{c4})"
    out+=f"\n/-- C49 on {base}.{why} -/\ntheorem C49_{s}{b} : {be}.RaceFreeSC {'('+ty+')' if ' ' in ty else ty} :=\n"
    if r=="32":
        out+=f"  Backend.raceFreeSC (({m}.{g}).localOps fun s f w a old new B h => {m}.{c4.removesuffix(' h')} h.2) ({o}) ({m}.{p}) ({acc}) fun _ h => h.1\n" if c4.endswith(" h") else f"  Backend.raceFreeSC (({m}.{g}).localOps fun s f w a old new B h => {m}.{c4.replace('.inl h','.inl h.2')}) ({o}) ({m}.{p}) ({acc}) fun _ h => h.1\n"
    else:
        out+=f"  ({m}.{g}).raceFreeSC {cas} ({o}) ({m}.{p}) ({acc})\n"
    if s in SIDE:
        bo=p.replace("paired","barriersOnly")
        inj,sd=(".inl","leads") if SIDE[s]=="l" else (".inr","trails")
        out+=f"\n/-- C49 without multi-copy atomicity on {base}.{why} -/\ntheorem C49_nonmca_{s}{b} : {be}.RaceFreeSCNonMCA {'('+ty+')' if ' ' in ty else ty} :=\n"
        if r=="32":
            c=f"{c4.removesuffix(' h')} h.2" if c4.endswith(" h") else c4.replace('.inl h','.inl h.2')
            out+=f"  Backend.raceFreeSCNonMCA (({m}.{g}).localOps fun s f w a old new B h => {m}.{c}) ({o}) ({m}.{p}) ({acc}) ({m}.{bo}) rfl ({inj} (({m}.{g}).{sd} (by decide))) fun _ h => h.1\n"
        else:
            out+=f"  ({m}.{g}).raceFreeSCNonMCA {cas} ({o}) ({m}.{p}) ({acc}) ({m}.{bo}) rfl ({inj} (by decide))\n"
out+="\nend Verif\n"
open(os.path.join(here,"../lean/Verif/Props/DRF.lean"),"w").write(out)
