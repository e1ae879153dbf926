# generates lean/Verif/Props/Mixed.lean: C59 for every back end
import os
here=os.path.dirname(os.path.abspath(__file__))
def table(f,stop):
    env={"__file__":__file__}
    s=open(os.path.join(here,f)).read()
    exec(s[:s.index(stop)],env)
    return env
sync=table("sync.py","\nout=")
late=table("latest.py","\nout=")
coh=table("coherence.py","\nout=")
PAIRED={m+g.split()[0]:p for m,s,b,be,g,p in sync["ARCHS"]}
KEYS={(m,be.split()[0]):(p) for m,s,b,be,g,p in sync["ARCHS"]}
NONMCA=late["NONMCA"]
out="""/-
C59 (operations and ordinary accesses to one object, on weak memory) for every back end. Generated by tools/mixed.py.
-/
import Verif.Weak.MixedProof
import Verif.Weak.Barriers
import Verif.Props.Access
import Verif.Props.Weak
import Verif.Props.LegacyMore

namespace Verif
"""
for m,s,b,be,g,c4,o,r in coh["env"]["ARCHS"]:
    b=" "+b if b else ""
    acc=f"({coh['ACC'][s]})"
    p=KEYS[m,be.split()[0]]
    # the width
    if " W" in p and " W" not in be: p=p.replace("W",[x for x in be.split() if x in("32","64")][0])
    s0=s.removesuffix("_partial")
    suf=s
    fam=s0.removesuffix("32").removesuffix("64") if s0.startswith(("riscv","mips")) else s0
    be=f"({m}.{be})"
    if s!=s0:
        why="the 32-bit strong compare_exchange (`C04_*_word_fails`)" if r=="32" else "the compiler may exploit the false `assert_unchecked` (`C19_m68k_violated`)"
        note=f" Missing: {why}."
    else: note=""
    if r=="32": P="Call.NotCas32"; loc=f"(({m}.{g}).localOps fun s f w a old new B h => {m}.{c4})"
    elif r=="all": P="fun _ => True"; loc=f"(({m}.{g}).localOps fun s f w a old new B _ => {m}.{c4})"
    else: P="fun _ => True"; loc=f"(({m}.{g}).localOps fun s f w a old new B _ => {m}.{c4} s f w a old new B)"
    for kind,w,args in (("","History",f"{loc} ({m}.{p}) {acc}"),("coherent_","Coherent",f"{loc} {acc}"),
          ("nonmca_","HistoryNonMCA",f"{loc} ({m}.{p}) {acc} ({m}.{p.replace('paired','barriersOnly')}) rfl")):
        if kind=="nonmca_" and fam not in NONMCA: continue
        txt={"":"","coherent_":" without synchronization","nonmca_":" without multi-copy atomicity"}[kind]
        fn="Backend.mixedCoherent" if kind=="coherent_" else f"({m}.{g}).mixed{w}"
        out+=f"""
/-- C59{txt} on {s0}.{note} -/
theorem C59_{kind}{suf}{b} : {be}.Mixed{w} {'('+P+')' if ' ' in P else P} :=
  {fn} {args}
"""
        if r=="32":
            out+=f"""/-- C59{txt} on {s0}, if the strong compare_exchange is regarded as a weak one. -/
theorem C59_{kind}weakened_{s0}{b} : {be}.weakened.Mixed{w} (fun _ => True) :=
  ({m}.{g}).mixed{w}Weakened {args[len(loc)+1:]}
"""
out+="\nend Verif\n"
open(os.path.join(here,"../lean/Verif/Props/Mixed.lean"),"w").write(out)
