/-
C55: C50 with fences. Threads synchronize through operations of any orderings, Relaxed ones included, and the fences of C53, as in
reference counting: `drop` stores or swaps with Release ordering, and whoever finds that it is the last executes `fence(Acquire)` before it
frees the memory. If this synchronization orders all conflicting accesses of the ordinary code, it reads what was written last.
-/
import Verif.Weak.Latest
import Verif.Weak.Fence

namespace Verif

/-- C55, with a global memory order. -/
def Backend.RaceFreeReadsFenced {W : Nat} (A : Backend W) (P : Call → Prop) : Prop :=
  ∀ (X : AxShape W) (rf : Node → Nat → Option Node) (N : Nat) (items : Nat → List (Item W)), AxExec A.imp X → X.LocalForward →
    CohExec X rf → X.ReadsFrom rf → DataRun A P X N items → NoRaces (FSync A.imp X items) items →
    ReadsLatest (FSync A.imp X items) items X.m0

/-- C55 on machines that need not be multi-copy atomic. -/
def Backend.RaceFreeReadsFencedNonMCA {W : Nat} (A : Backend W) (P : Call → Prop) : Prop :=
  ∀ (X : AxShape W) (rf : Node → Nat → Option Node) (N : Nat) (items : Nat → List (Item W)), RAExec A.imp X rf →
    DataRun A P X N items → NoRaces (NFSync X rf items) items → ReadsLatest (NFSync X rf items) items X.m0

end Verif
