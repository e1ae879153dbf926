# generates lean/Verif/Props/Seqlock.lean (C61 for every back end) from Props/Mixed.lean (tools/mixed.py) and
# lean/Verif/Props/SeqlockLitmus.lean from Props/MixedLitmus.lean: same back ends and arguments
import os,re
here=os.path.dirname(os.path.abspath(__file__))
props=os.environ.get("PROPS",os.path.join(here,"../lean/Verif/Props"))
src=open(os.path.join(props,"Mixed.lean")).read()
body=src[src.index("namespace Verif\n")+len("namespace Verif\n"):src.rindex("\nend Verif")]
out="""/-
C61 (a reader of a seqlock gets a snapshot) for every back end. Generated by tools/seqlock.py.
-/
import Verif.Weak.SeqlockProof
import Verif.Weak.Barriers
import Verif.Props.Access
import Verif.Props.Weak
import Verif.Props.LegacyMore

namespace Verif
"""
for t in re.split(r"\n(?=/-- )",body):
    if "C59_coherent" in t or not t.strip(): continue
    out+="\n"+t.replace("C59","C61").replace("MixedHistory","SeqlockReads").replace("mixedHistory","seqlockReads").rstrip()+"\n"
out+="\nend Verif\n"
open(os.path.join(props,"Seqlock.lean"),"w").write(out)

src=open(os.path.join(props,"MixedLitmus.lean")).read()
body=src[src.index("open MixedSample\n")+len("open MixedSample\n"):src.rindex("\nend Verif")]
out="""/-
C61: the hypotheses can be met. A writer that stores an odd version, data and an even version, and a reader that gets the data, in every model of
memory used for C61, for several back ends. Generated by tools/seqlock.py.
-/
import Verif.Weak.SeqlockSample
import Verif.Props.Seqlock
import Verif.Props.LockLitmus

namespace Verif
open SeqlockSample
"""
calls=[("odd","s","relaxed","0x1000","1#32"),("data","s","relaxed","0x2000","7#32"),("even","s","release","0x1000","2#32"),
       ("begin","l","acquire","0x1000",""),("look","l","relaxed","0x2000",""),("again","l","relaxed","0x1000","")]
def call(c,store,load):
    _,k,o,a,v=c
    if k=="s": return store.replace(".release","."+o).replace("0x1000",a).replace("1#32 ",v+" ")
    r=load.replace(".acquire","."+o).replace("0x1000",a)
    if o=="relaxed" and "PowerPC.Load.acq" in r:
        r=r.replace("PowerPC.Load.acq (o := .relaxed)","PowerPC.Load.rlx (o := .relaxed)").replace("PowerPC.loadAcqBlock","PowerPC.loadBlock")
    return r
for t in re.split(r"\n(?=/-- )",body):
    if not t.strip(): continue
    t=t.replace("C59","C61").replace("operations and ordinary accesses to one object","a seqlock").rstrip()
    ls=t.replace("\n  met (","\n  met' (").split("\n")
    store,load=ls[3].strip(),ls[4].strip()
    out+="\n"+"\n".join(ls[:3])+"\n"+"\n".join("    "+call(c,store,load) for c in calls)+"\n"
out+="""
/-- C61 on PowerPC: `SolelyStored` holds of the execution of the example: 32-bit loads contain no instruction that writes. -/
theorem C61_example_sole_powerpc (e : Endian) (c : PowerPC.Conf) (o : Ordering) (a : Nat) (B : Block 64 32)
    (h : (PowerPC.backend e 64 c).Load o 32 a B) : B.ReadOnly := by
  have key : ∀ w a (B : Block 64 w), w ≤ 64 → (PowerPC.backend e 64 c).Load o w a B → B.ReadOnly := by
    rintro w a B h64 (⟨al, p, hw, hf⟩ | ⟨al, p, hw, hf⟩ | ⟨al, hq, p, hf⟩ | ⟨al, hq, p, hf⟩)
    · readonly
    · readonly
    · exact absurd h64 (by decide)
    · exact absurd h64 (by decide)
  exact key 32 a B (by decide) h
/-- C61 on arm: likewise. -/
theorem C61_example_sole_arm (e : Endian) (o : Ordering) (a : Nat) (B : Block 32 32)
    (h : (Arm.backend e ⟨true, true⟩).Load o 32 a B) : B.ReadOnly := by
  have key : ∀ w a (B : Block 32 w), w ≤ 32 → (Arm.backend e ⟨true, true⟩).Load o w a B → B.ReadOnly := by
    rintro w a B h32 (⟨al, p, hw, hf⟩ | ⟨al, p, hf⟩)
    · readonly
    · exact absurd h32 (by decide)
  exact key 32 a B (by decide) h
"""
out+="\nend Verif\n"
open(os.path.join(props,"SeqlockLitmus.lean"),"w").write(out)
