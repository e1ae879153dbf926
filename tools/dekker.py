# generates lean/Verif/Props/Dekker.lean (C62 for every back end) from Props/Mixed.lean (tools/mixed.py): same back ends and arguments
import os,re
here=os.path.dirname(os.path.abspath(__file__))
props=os.environ.get("PROPS",os.path.join(here,"../lean/Verif/Props"))
src=open(os.path.join(props,"Mixed.lean")).read()
body=src[src.index("namespace Verif\n")+len("namespace Verif\n"):src.rindex("\nend Verif")]
out="""/-
C62 (store, SeqCst fence, load: one of two threads sees the other's store) for every back end. Generated by tools/dekker.py.
-/
import Verif.Weak.DekkerProof
import Verif.Weak.Barriers
import Verif.Props.Access
import Verif.Props.Weak
import Verif.Props.LegacyMore

namespace Verif
"""
for t in re.split(r"\n(?=/-- )",body):
    if "C59_coherent" in t or not t.strip(): continue
    out+="\n"+t.replace("C59","C62").replace("MixedHistory","FencedStoresSeen").replace("mixedHistory","fencedStoresSeen").rstrip()+"\n"
out+="\nend Verif\n"
open(os.path.join(props,"Dekker.lean"),"w").write(out)
