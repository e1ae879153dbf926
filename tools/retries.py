# generates lean/Verif/Props/Retries.lean: C51, for every back end
import os, re
here=os.path.dirname(os.path.abspath(__file__))
src=open(os.path.join(here,"weaksc.py")).read()
env={}
exec(src[src.index("ARCHS=["):src.index("\n]\n")+3],env)
out="""/-
C51 (a compare-exchange loop retries only because of others) for every back end, on the interleaving machine and on coherent weak
memory with any orderings. Generated by tools/retries.py.
-/
import Verif.Api.Retries
import Verif.Intr.Retries
import Verif.Props.Updates

namespace Verif
"""
for m,s,b,be,g,_,_,r in env["ARCHS"]:
    s=s.removesuffix("_partial")
    bw,bew=b,be
    if s.endswith("arm_linux"): b,be="(e : Endian) (v : Int)","backend e ⟨v, false⟩"
    def P(b): return " "+b if b else ""
    def A(b):
        a=" ".join(re.findall(r"\((\w+) :",b)); return " "+a if a else ""
    be,bew=f"({m}.{be})",f"({m}.{bew})"
    if s=="m68k":
        out+=f"""
/-- Missing: the compiler may exploit the false `assert_unchecked` (`C19_m68k_violated`). -/
theorem C51_retries_{s}_partial{P(b)} : {be}.RetriesPaid fun _ => True := (C22_object_asm_{s}{A(b)} _).retriesPaid
theorem C51_updates_{s}_partial{P(b)} : {be}.UpdatesPaid fun _ => True := (C22_object_asm_{s}{A(b)} _).updatesPaid
theorem C51_retries_weak_{s}_partial{P(bw)} : {bew}.RetriesPaidWeak fun _ => True := (C42_{s}_partial{A(bw)}).retriesPaid
theorem C51_updates_weak_{s}_partial{P(bw)} : {bew}.UpdatesPaidWeak fun _ => True := (C42_{s}_partial{A(bw)}).updatesPaid
"""
        continue
    out+=f"""
theorem C51_retries_{s}{P(b)} : {be}.RetriesPaid fun _ => True := (C22_object_{s}{A(b)} _).retriesPaid
theorem C51_updates_{s}{P(b)} : {be}.UpdatesPaid fun _ => True := (C22_object_{s}{A(b)} _).updatesPaid
"""
    if r=="32":
        out+=f"""theorem C51_retries_weak_{s}{P(bw)} : {bew}.RetriesPaidWeak fun _ => True :=
  Backend.retriesPaidWeak_of_weakened (C42_weakened_{s}{A(bw)}).retriesPaid _
theorem C51_updates_weak_{s}{P(bw)} : {bew}.UpdatesPaidWeak fun _ => True :=
  Backend.updatesPaidWeak_of_weakened (C42_weakened_{s}{A(bw)}).updatesPaid _
"""
    else:
        out+=f"""theorem C51_retries_weak_{s}{P(bw)} : {bew}.RetriesPaidWeak fun _ => True := (C42_{s}{A(bw)}).retriesPaid
theorem C51_updates_weak_{s}{P(bw)} : {bew}.UpdatesPaidWeak fun _ => True := (C42_{s}{A(bw)}).updatesPaid
"""
for s,M in (("avr","Avr"),("msp430","Msp430")):
    out+=f"""
theorem C51_retries_{s} (P) : {M}.backend.RetriesPaid P := (C22_object_{s} P).retriesPaid
theorem C51_updates_{s} (P) : {M}.backend.UpdatesPaid P := (C22_object_{s} P).updatesPaid
"""
out+="""
/-- The hypotheses are met, and the bound is exact: two threads call `fetch_update(AcqRel, Relaxed, |x| Some(x + 1))` on x86-64, and
thread 1 retries once, since thread 0 succeeded once. -/
theorem C51_example_x86_64 : ∃ tr g, GRun (X86.backend64 ⟨64, .inr rfl, true⟩) (fun _ => True) ⟨fun _ => 0, fun _ => .idle⟩ tr g ∧
    (∀ i, g.th i = .idle) ∧ VRegular .little 32 0x1000 (fun _ _ => True) (GEv.vis tr) ∧
    ByFetchUpdate 2 twoUpdates (fun i => threadCalls 32 0x1000 i (GEv.vis tr)) ∧
    ((twoUpdates 1).map fun u => overtaken u.calls).sum = 1 ∧ (others 2 1 fun j => FetchUpdate.successes (twoUpdates j)) = 1 := by
  obtain ⟨tr, g, h1, h2, h3, h4, _⟩ := C31_example_x86_64
  exact ⟨tr, g, h1, h2, h3, h4, by decide, by decide⟩
"""
out+="\nend Verif\n"
open(os.path.join(here,"../lean/Verif/Props/Retries.lean"),"w").write(out)
