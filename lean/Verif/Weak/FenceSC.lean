/-
C54: SeqCst fences. If a thread executes `fence(SeqCst)` between its operations, they are sequentially consistent whatever their
orderings: Relaxed loads and stores will do. Fences and SeqCst operations can be mixed.

Executions are those of C41, with a global memory order (Weak/SC.lean) and without (Weak/NonMCA.lean).
-/
import Verif.Weak.Fence
import Verif.Weak.NonMCA

namespace Verif

/-- `fence(SeqCst)` at item `f` of thread `t`: what is before it stays before what is after it. -/
def SeqCstFence {W : Nat} (imp : Pairs) (items : Nat → List (Item W)) (t f : Nat) : Prop := ∀ k k', FenceAt imp items t f k k'

/-- Between any two operations of one thread there is a full fence, or both are SeqCst. -/
def FencedApart {W : Nat} (imp : Pairs) (items : Nat → List (Item W)) : Prop :=
  ∀ (t k k' : Nat) (d d' : Done W), k < k' → (items t)[k]? = some (.op d) → (items t)[k']? = some (.op d') →
    (d.call.SeqCstOnly ∧ d'.call.SeqCstOnly) ∨ ∃ f, k < f ∧ f < k' ∧ SeqCstFence imp items t f

/-- C54. Any number of threads execute operations whose calls satisfy `P`, any two of a thread with a full fence between them (or both SeqCst), and
anything else that does not write the bytes these operations access. Then in every consistent execution there is one sequence of all
these operations, containing those of each thread in program order, that gives the same answers if they are executed one after the
other; it leaves in memory what the execution left (in the bytes not written by others). -/
def Backend.FencesSC {W : Nat} (A : Backend W) (P : Call → Prop) : Prop :=
  ∀ (X : AxShape W) (N : Nat) (items : Nat → List (Item W)), AxExec A.imp X → (∀ t, N ≤ t → items t = []) →
    (∀ t, X.po t = (items t).flatMap Item.code) →
    (∀ t d, Item.op d ∈ items t → d.OK A ∧ P d.call) → FencedApart A.imp items →
    (∀ t o t' d o' x, Item.other o ∈ items t → Item.op d ∈ items t' → o' ∈ owns d.tr → o.writes x →
      ¬ o'.reads x ∧ ¬ o'.writes x) →
    ∃ (seq : List (Nat × Call × Ret)) (m : Mem), Legal A.e X.m0 seq m ∧
      (∀ t, ofThread t seq = (opsOf (items t)).map fun d => (t, d.call, d.ret)) ∧
      ∀ x, (∀ t o, Item.other o ∈ items t → ¬ o.writes x) → X.Newest (fun _ => True) x (m x)

/-- Between any two operations of one thread there is a full barrier (one that keeps a write before a later read), or both are SeqCst. -/
def BarredApart {W : Nat} (items : Nat → List (Item W)) : Prop :=
  ∀ (t k k' : Nat) (d d' : Done W), k < k' → (items t)[k]? = some (.op d) → (items t)[k']? = some (.op d') →
    (d.call.SeqCstOnly ∧ d'.call.SeqCstOnly) ∨
      ∃ (f : Nat) (o : Own W) (p : Pairs), k < f ∧ f < k' ∧ (items t)[f]? = some (.other o) ∧ o.ev = .fence p ∧ p.wr = true

/-- C54 without multi-copy atomicity. -/
def Backend.FencesSCOnNonMCA {W : Nat} (A : Backend W) (P : Call → Prop) : Prop :=
  ∀ (X : AxShape W) (rf : Node → Nat → Option Node) (N : Nat) (items : Nat → List (Item W)), NMExec X rf →
    (∀ t, N ≤ t → items t = []) → (∀ t, X.po t = (items t).flatMap Item.code) →
    (∀ t d, Item.op d ∈ items t → d.OK A ∧ P d.call ∧ IsSize d.call.width ∧ d.call.addr % (d.call.width / 8) = 0) →
    BarredApart items →
    (∀ t d t' d', Item.op d ∈ items t → Item.op d' ∈ items t' → d.call.SameOrApart d'.call) →
    (∀ t o t' d x, Item.other o ∈ items t → Item.op d ∈ items t' → d.call.addr ≤ x → x < d.call.addr + d.call.width / 8 →
      ¬ o.writes x) →
    ∃ (seq : List (Nat × Call × Ret)) (m : Mem), Legal A.e X.m0 seq m ∧
      (∀ t, ofThread t seq = (opsOf (items t)).map fun d => (t, d.call, d.ret)) ∧
      ∀ t d x, Item.op d ∈ items t → d.call.addr ≤ x → x < d.call.addr + d.call.width / 8 →
        X.Newest (fun _ => True) x (m x)

end Verif
