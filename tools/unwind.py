# generates lean/Verif/Props/Unwind.lean: C56 for every back end, from the statements of C40 in Props/Abandon and Props/LegacyMore
import os,re
D=os.path.dirname(os.path.abspath(__file__))
P=D+"/../lean/Verif/Props/"
out="""/-
C56 (methods that panic or are stopped have done all or nothing) for every back end. Generated by tools/unwind.py.
-/
import Verif.Api.Unwind
import Verif.Intr.Unwind
import Verif.Props.Abandon
import Verif.Props.LegacyMore

namespace Verif
"""
def groups(s):
    r=[];d=0;st=None
    for i,c in enumerate(s):
        if c=="(":
            if d==0: st=i
            d+=1
        elif c==")":
            d-=1
            if d==0: r.append(s[st:i+1])
    return r
for f in ("Abandon","LegacyMore"):
    t=open(P+f+".lean").read()
    for m in re.finditer(r"theorem C40_(\w+) (.*?): (\(.*\))\.AllOrNothing :=\n  Backend\.allOrNothing'? (.*)\ntheorem C06_always_\w+ .*:= \((C40_.*)\)\.neighbours",t):
        n,b,be,args,c40=m.groups()
        g=groups(args)
        p="_partial" if n=="m68k" else ""
        why=" Missing: the compiler may exploit the false `assert_unchecked` (`C19_m68k_violated`)." if p else ""
        out+=f"\n/-- C56 on {n}.{why} -/\ntheorem C56_{n}{p} {b.strip()}: {be}.UnwindOK := Backend.unwindOK {g[0]} {g[4]} ({c40})\n"
for n,t in (("Avr","avr"),("Msp430","msp430")):
    out+=f"\n/-- C56 on {t}. -/\ntheorem C56_{t} : {n}.backend.UnwindOK := IBackend.unwindOK {n}.C23_{t}_atomic C40_{t}\n"
out+=open(D+"/unwind_tail.txt").read()
out+="\nend Verif\n"
open(P+"Unwind.lean","w").write(out)
