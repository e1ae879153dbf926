# generates lean/Verif/Props/Updates.lean: C31 for whole fetch_update calls, for every back end
import os, re
here=os.path.dirname(os.path.abspath(__file__))
src=open(os.path.join(here,"weaksc.py")).read()
env={}
exec(src[src.index("ARCHS=["):src.index("\n]\n")+3],env)
out="""/-
C31 for whole `fetch_update` calls of any number of threads, for every back end: one chain of updates, counters count; on the
interleaving machine and on coherent weak memory with any orderings. Generated by tools/updates.py.
-/
import Verif.Api.Updates
import Verif.Intr.Updates
import Verif.Lin.Serial
import Verif.Props.Object
import Verif.Props.Coherence

namespace Verif
"""
for m,s,b,be,g,_,_,r in env["ARCHS"]:
    s=s.removesuffix("_partial")
    bw,bew=b,be
    if s.endswith("arm_linux"): b,be="(e : Endian) (v : Int)","backend e ⟨v, false⟩"
    def P(b): return " "+b if b else ""
    def A(b):
        a=" ".join(re.findall(r"\((\w+) :",b)); return " "+a if a else ""
    be,bew=f"({m}.{be})",f"({m}.{bew})"
    if s=="m68k":
        out+=f"""
/-- Missing: the compiler may exploit the false `assert_unchecked` (`C19_m68k_violated`). -/
theorem C31_updates_{s}_partial{P(b)} : {be}.UpdatesChain fun _ => True := (C22_object_asm_{s}{A(b)} _).updatesChain
theorem C31_counts_{s}_partial{P(b)} : {be}.Counts fun _ => True := (C22_object_asm_{s}{A(b)} _).counts
theorem C31_updates_weak_{s}_partial{P(bw)} : {bew}.UpdatesChainWeak fun _ => True := (C42_{s}_partial{A(bw)}).updatesChain
theorem C31_counts_weak_{s}_partial{P(bw)} : {bew}.CountsWeak fun _ => True := (C42_{s}_partial{A(bw)}).counts
"""
        continue
    out+=f"""
theorem C31_updates_{s}{P(b)} : {be}.UpdatesChain fun _ => True := (C22_object_{s}{A(b)} _).updatesChain
theorem C31_counts_{s}{P(b)} : {be}.Counts fun _ => True := (C22_object_{s}{A(b)} _).counts
"""
    if r=="32":
        out+=f"""theorem C31_updates_weak_{s}{P(bw)} : {bew}.UpdatesChainWeak fun _ => True :=
  Backend.updatesChainWeak_of_weakened (C42_weakened_{s}{A(bw)}).updatesChain _
theorem C31_counts_weak_{s}{P(bw)} : {bew}.CountsWeak fun _ => True :=
  Backend.countsWeak_of_weakened (C42_weakened_{s}{A(bw)}).counts _
"""
    else:
        out+=f"""theorem C31_updates_weak_{s}{P(bw)} : {bew}.UpdatesChainWeak fun _ => True := (C42_{s}{A(bw)}).updatesChain
theorem C31_counts_weak_{s}{P(bw)} : {bew}.CountsWeak fun _ => True := (C42_{s}{A(bw)}).counts
"""
for s,M in (("avr","Avr"),("msp430","Msp430")):
    out+=f"""
theorem C31_updates_{s} (P) : {M}.backend.UpdatesChain P := (C22_object_{s} P).updatesChain
theorem C31_counts_{s} (P) : {M}.backend.Counts P := (C22_object_{s} P).counts
"""
out+=open(os.path.join(here,"updates_tail.txt")).read()
out+="\nend Verif\n"
open(os.path.join(here,"../lean/Verif/Props/Updates.lean"),"w").write(out)
