# generates lean/Verif/Props/MixedFence.lean (C60 for every back end) from Props/Mixed.lean (tools/mixed.py): same back ends and arguments
import os,re
here=os.path.dirname(os.path.abspath(__file__))
src=open(os.path.join(here,"../lean/Verif/Props/Mixed.lean")).read()
body=src[src.index("namespace Verif\n")+len("namespace Verif\n"):src.rindex("\nend Verif")]
out="""/-
C60 (C59 with fences) for every back end. Generated by tools/mixedfence.py.
-/
import Verif.Weak.MixedFence
import Verif.Weak.Barriers
import Verif.Props.Access
import Verif.Props.Weak
import Verif.Props.LegacyMore

namespace Verif
"""
for t in re.split(r"\n(?=/-- )",body):
    if "C59_coherent" in t or not t.strip(): continue
    out+="\n"+t.replace("C59","C60").replace("MixedHistory","MixedHistoryFenced").replace("mixedHistory","mixedHistoryFenced").rstrip()+"\n"
out+="\nend Verif\n"
open(os.path.join(here,"../lean/Verif/Props/MixedFence.lean"),"w").write(out)
