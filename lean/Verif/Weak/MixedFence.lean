/-
C60: C59 with fences. Operations (with any orderings, Relaxed ones included) and ordinary accesses to one object are in one sequence that
respects the synchronization through operations and fences of C53, too: what precedes a release fence does not come after what follows an
acquire fence (or operation) that it synchronizes with. So whoever waits for the others with Relaxed loads, as `Arc` does in `get_mut`
and `drop`, and executes `fence(Acquire)` then, finds with `get_mut`, `into_inner` or a `Relaxed` load what they left (`C59_reads_store`
and `C59_reads_final` hold for every sequence of this kind).
-/
import Verif.Weak.MixedProof
import Verif.Weak.LatestFenceProof

namespace Verif

/-- C60, with a global memory order. -/
def Backend.MixedHistoryFenced {W : Nat} (A : Backend W) (P : Call → Prop) : Prop :=
  ∀ (X : AxShape W) (rf : Node → Nat → Option Node) (N : Nat) (items : Nat → List (Item W)) (w a : Nat), AxExec A.imp X → X.LocalForward →
    CohExec X rf → X.ReadsFrom rf → MixedRun A P X N items w a → OneHistory A.e X items (FSync A.imp X items) w a

/-- C60 on machines that need not be multi-copy atomic. -/
def Backend.MixedHistoryFencedNonMCA {W : Nat} (A : Backend W) (P : Call → Prop) : Prop :=
  ∀ (X : AxShape W) (rf : Node → Nat → Option Node) (N : Nat) (items : Nat → List (Item W)) (w a : Nat), RAExec A.imp X rf →
    MixedRun A P X N items w a → OneHistory A.e X items (NFSync X rf items) w a

variable {W : Nat}

theorem Backend.mixedHistoryFenced {A : Backend W} {P : Call → Prop} {g : Call → Nat} (hloc : A.LocalOps P) (hord : A.OrderingsOK)
    (hpair : A.Paired) (hacc : A.AccessesOK g) : A.MixedHistoryFenced P := by
  intro X rf N items w a ax hfwd hX hrf hM
  have hsync := Backend.fencesSynchronize hloc hord hpair X items ax hfwd hM.code fun t d h =>
    ⟨(hM.ops t d h).1, (hM.ops t d h).2.1, (hM.ops t d h).2.2.1⟩
  refine hM.oneHistory hloc hacc hX (fun _ _ _ _ _ _ _ h hl h' => .trans h hl h') ?_ ?_
  · intro i k l p kd o h hat hp hc
    exact Nat.lt_irrefl _ (hsync i k i l h p p kd kd o o hat hp hat hc).1
  · intro i k j l p q kd kd' o o' h ha hb hp hq
    exact AxShape.precedes_of_rank (A := A) ax hrf ha hp fun p' kd1 o1 g1 g2 => (hsync i k j l h p' q kd1 kd' o1 o' g1 g2 hb hq).1

theorem Backend.mixedHistoryFencedNonMCA {A : Backend W} {P : Call → Prop} {g : Call → Nat} (hloc : A.LocalOps P) (hord : A.OrderingsOK)
    (hpair : A.Paired) (hacc : A.AccessesOK g) (hb : A.BarriersOnly) (himp : A.imp.ww = false) : A.MixedHistoryFencedNonMCA P := by
  intro X rf N items w a hX hM
  have HR : RSetup A X rf items := ⟨⟨hM.code, fun t d h => exists_point hloc (hM.ops t d h).1 (hM.ops t d h).2.1⟩, hX,
    fun t d h => (hM.ops t d h).1, fun t d h => (hM.ops t d h).2.2.1,
    fun t d o h ho ha => Done.natural hacc (hM.ops t d h).1 (hM.ops t d h).2.2.2.1 ho ha, hord, hpair, hb, himp⟩
  refine hM.oneHistory hloc hacc hX.toCohExec (fun _ _ _ _ _ _ _ h hl h' => .trans h hl h') ?_ ?_
  · intro i k l p kd o h hat hp hc
    obtain ⟨w0, o0, _, _, _, _, _, hcum, hpost, _⟩ := HR.fsync h
    exact hX.thinAir _ ((hpost p kd o hat hc).tail (Cumul.hb (hcum p kd o hat hp)))
  · intro i k j l p q kd kd' o o' h ha hb' hp hq
    exact HR.fconclude h p q kd kd' o o' ha hp hb' hq

section
variable {A : Backend W} {P : Call → Prop} {sc : List Mon} {st sw cas : Nat}

theorem Good.mixedHistoryFenced (h : Good A sc) (hloc : A.LocalOps P) (hpair : A.Paired) (hacc : A.AccessesOK (gran st sw cas)) :
    A.MixedHistoryFenced P :=
  Backend.mixedHistoryFenced hloc (Backend.orderingsOK h.acquireOK h.releaseOK h.seqCstOK h.failureOK) hpair hacc

theorem Good.mixedHistoryFencedNonMCA (h : Good A sc) (hloc : A.LocalOps P) (hpair : A.Paired) (hacc : A.AccessesOK (gran st sw cas))
    (hb : A.BarriersOnly) (himp : A.imp.ww = false) : A.MixedHistoryFencedNonMCA P :=
  Backend.mixedHistoryFencedNonMCA hloc (Backend.orderingsOK h.acquireOK h.releaseOK h.seqCstOK h.failureOK) hpair hacc hb himp

theorem Good.mixedHistoryFencedWeakened (h : Good A sc) (hpair : A.Paired) (hacc : A.AccessesOK (gran st sw cas)) :
    A.weakened.MixedHistoryFenced fun _ => True :=
  h.weakened.mixedHistoryFenced h.localOps_weakened hpair.weakened (Backend.weakened_accesses hacc)

theorem Good.mixedHistoryFencedNonMCAWeakened (h : Good A sc) (hpair : A.Paired) (hacc : A.AccessesOK (gran st sw cas))
    (hb : A.BarriersOnly) (himp : A.imp.ww = false) : A.weakened.MixedHistoryFencedNonMCA fun _ => True :=
  h.weakened.mixedHistoryFencedNonMCA h.localOps_weakened hpair.weakened (Backend.weakened_accesses hacc) hb.weakened himp
end

end Verif
