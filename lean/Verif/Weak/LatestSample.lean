/-
C50: an execution that meets its hypotheses, for every back end with 32-bit operations: that of DRFSample, with a Release store and an
Acquire load of the flag.
-/
import Verif.Weak.DRFSample
import Verif.Weak.LatestProof

namespace Verif
variable {W : Nat}

namespace LatestSample
open DRFSample

/-- Thread 1 finds the flag set and reads the data that thread 0 wrote, with ordinary accesses; there is no data race in the sense
of either version of C50. -/
def Met (A : Backend W) : Prop :=
  ∃ (X : AxShape W) (rf : Node → Nat → Option Node) (items : Nat → List (Item W)) (d1 d2 : Done W) (o1 o2 : Own W),
    FullyConsistent A.imp X rf ∧ DataRun A (fun _ => True) X 2 items ∧ NoRaces (Sync X items) items ∧ NoRaces (NSync X rf items) items ∧
    items 0 = [.other o1, .op d1] ∧ items 1 = [.op d2, .other o2] ∧ d1.call = DRFSample.set .release ∧ d2.call = look .acquire ∧ d2.ret = .bits 32 1 ∧
    o1.writes 0x2000 ∧ o2.reads 0x2000 ∧ load A.e o2.m 0x2000 32 = 7#32

theorem met {A : Backend W} {sc : List Mon} {st sw cas : Nat} (h : Good A sc) (hpair : A.Paired) (h6 : A.ProgressOK)
    (hacc : A.AccessesOK (gran st sw cas)) (h1 : A.Startable (DRFSample.set .release)) (h2 : A.Startable (look .acquire)) : Met A := by
  have hloc : A.LocalOps fun c => c ∈ [DRFSample.set .release, look .acquire] := h.localOps fun s f w a old new B hP => by
    simp [DRFSample.set, look] at hP
  obtain ⟨X, rf, items, d1, d2, o1, o2, hX, hL, hrace, hrest⟩ := exists_run hloc
    (Backend.orderingsOK h.acquireOK h.releaseOK h.seqCstOK h.failureOK) hpair h6 hacc rfl rfl ⟨h1, by simp⟩ ⟨h2, by simp⟩
  have objs := hL.objs hloc hacc hX.coh
  have HP : Prog A X items := (hL.base hloc hacc hX.coh).toProg
  refine ⟨X, rf, items, d1, d2, o1, o2, hX, { hL with ops := fun t d hm => ⟨(hL.ops t d hm).1, trivial, (hL.ops t d hm).2.2⟩ }, ?_, ?_, hrest⟩
  · intro a b oa ob x ha hb hne hx hy hk
    rcases hrace a b oa ob x ha hb hne hx hy hk with ⟨k, l, g1, g2⟩ | ⟨k, l, g1, g2⟩
    · exact .inl (.inr ⟨k, l, g1.sync HP objs hX.readsFrom hpair (fun t d hd => (hL.ops t d hd).1), g2⟩)
    · exact .inr (.inr ⟨k, l, g1.sync HP objs hX.readsFrom hpair (fun t d hd => (hL.ops t d hd).1), g2⟩)
  · intro a b oa ob x ha hb hne hx hy hk
    rcases hrace a b oa ob x ha hb hne hx hy hk with ⟨k, l, g1, g2⟩ | ⟨k, l, g1, g2⟩
    · exact .inl (.inr ⟨k, l, g1.nsync HP objs, g2⟩)
    · exact .inr (.inr ⟨k, l, g1.nsync HP objs, g2⟩)

end LatestSample
end Verif
