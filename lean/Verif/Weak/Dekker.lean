/-
C62: store, SeqCst fence, load against store, SeqCst fence, load (Dekker's and Peterson's mutual exclusion, hazard pointers, parking of threads).

Two threads each store to an object that only they store to, execute `fence(SeqCst)` and load the other's object; operations may be Relaxed, and
before, between and after them, and in other threads, there may be anything that does not write these objects. Then at least one of
the two loads gets what the other thread stored, or something that it stored later: they do not both miss the other's store.

C54 needs fences between all operations of the program; this needs them only here. Executions are those of Weak/SC.lean and Weak/NonMCA.lean.
-/
import Verif.Weak.Seqlock
import Verif.Weak.FenceSC

namespace Verif

/-- Only operations of thread `i` store to the `w`-bit object at `a`, with `store`; operations of other threads only load it. -/
structure OneWriter {W : Nat} (A : Backend W) (P : Call → Prop) (X : AxShape W) (N : Nat) (items : Nat → List (Item W)) (w a i : Nat) : Prop where
  size : IsSize w
  aligned : a % (w / 8) = 0
  threads : ∀ t, N ≤ t → items t = []
  code : ∀ t, X.po t = (items t).flatMap Item.code
  ops : ∀ t d, Item.op d ∈ items t → d.OK A ∧ P d.call ∧ d.call.OnOrOff w a
  others : ∀ t o x, Item.other o ∈ items t → a ≤ x → x < a + w / 8 → ¬ o.writes x
  writer : ∀ t d, Item.op d ∈ items t → d.call.On w a → (∃ o, d.call = .load o w a) ∨ t = i ∧ ∃ o v, d.call = .store o w a v

/-- C62, with a global memory order. -/
def Backend.FencedStoresSeen {W : Nat} (A : Backend W) (P : Call → Prop) : Prop :=
  ∀ (X : AxShape W) (rf : Node → Nat → Option Node) (N : Nat) (items : Nat → List (Item W)) (w a w' a' i j : Nat),
    AxExec A.imp X → CohExec X rf → X.ReadsFrom rf → i ≠ j → OneWriter A P X N items w a i → OneWriter A P X N items w' a' j →
    ∀ (k f l k' f' l' : Nat) (v u' : BitVec w) (v' u : BitVec w') (o o' : Ordering),
      k < f → f < l → StoresAt items i w a k v → SeqCstFence A.imp items i f → LoadsAt items i w' a' l o u →
      k' < f' → f' < l' → StoresAt items j w' a' k' v' → SeqCstFence A.imp items j f' → LoadsAt items j w a l' o' u' →
      (∃ q, k' ≤ q ∧ StoresAt items j w' a' q u) ∨ ∃ q, k ≤ q ∧ StoresAt items i w a q u'

/-- C62 without multi-copy atomicity. -/
def Backend.FencedStoresSeenNonMCA {W : Nat} (A : Backend W) (P : Call → Prop) : Prop :=
  ∀ (X : AxShape W) (rf : Node → Nat → Option Node) (N : Nat) (items : Nat → List (Item W)) (w a w' a' i j : Nat),
    NMExec X rf → i ≠ j → OneWriter A P X N items w a i → OneWriter A P X N items w' a' j →
    ∀ (k f l k' f' l' : Nat) (v u' : BitVec w) (v' u : BitVec w') (o o' : Ordering),
      k < f → f < l → StoresAt items i w a k v →
      (∃ of p, (items i)[f]? = some (.other of) ∧ of.ev = .fence p ∧ p.wr = true) → LoadsAt items i w' a' l o u →
      k' < f' → f' < l' → StoresAt items j w' a' k' v' →
      (∃ of p, (items j)[f']? = some (.other of) ∧ of.ev = .fence p ∧ p.wr = true) → LoadsAt items j w a l' o' u' →
      (∃ q, k' ≤ q ∧ StoresAt items j w' a' q u) ∨ ∃ q, k ≤ q ∧ StoresAt items i w a q u'

/-- C62 for mutual exclusion (Dekker, Peterson): if from their fenced stores on the two threads store nothing that counts as "not there", not both find the
other "not there". -/
theorem C62_exclusion {W : Nat} {A : Backend W} {P : Call → Prop} (h : A.FencedStoresSeen P) {X : AxShape W}
    {rf : Node → Nat → Option Node} {N : Nat} {items : Nat → List (Item W)} {w a w' a' i j : Nat} (ax : AxExec A.imp X) (hX : CohExec X rf)
    (hrf : X.ReadsFrom rf) (hij : i ≠ j) (h1 : OneWriter A P X N items w a i) (h2 : OneWriter A P X N items w' a' j)
    {k f l k' f' l' : Nat} {v u' : BitVec w} {v' u : BitVec w'} {o o' : Ordering} {absent : BitVec w → Prop} {absent' : BitVec w' → Prop}
    (g1 : k < f) (g2 : f < l) (g3 : StoresAt items i w a k v) (g4 : SeqCstFence A.imp items i f) (g5 : LoadsAt items i w' a' l o u)
    (g1' : k' < f') (g2' : f' < l') (g3' : StoresAt items j w' a' k' v') (g4' : SeqCstFence A.imp items j f') (g5' : LoadsAt items j w a l' o' u')
    (there : ∀ q v, k ≤ q → StoresAt items i w a q v → ¬ absent v) (there' : ∀ q v, k' ≤ q → StoresAt items j w' a' q v → ¬ absent' v) :
    ¬ (absent' u ∧ absent u') := by
  rintro ⟨a1, a2⟩
  rcases h X rf N items w a w' a' i j ax hX hrf hij h1 h2 k f l k' f' l' v u' v' u o o' g1 g2 g3 g4 g5 g1' g2' g3' g4' g5' with
    ⟨q, q1, q2⟩ | ⟨q, q1, q2⟩
  · exact there' q u q1 q2 a1
  · exact there q u' q1 q2 a2

/-- Likewise without multi-copy atomicity. -/
theorem C62_exclusion_nonmca {W : Nat} {A : Backend W} {P : Call → Prop} (h : A.FencedStoresSeenNonMCA P) {X : AxShape W}
    {rf : Node → Nat → Option Node} {N : Nat} {items : Nat → List (Item W)} {w a w' a' i j : Nat} (hX : NMExec X rf) (hij : i ≠ j)
    (h1 : OneWriter A P X N items w a i) (h2 : OneWriter A P X N items w' a' j)
    {k f l k' f' l' : Nat} {v u' : BitVec w} {v' u : BitVec w'} {o o' : Ordering} {absent : BitVec w → Prop} {absent' : BitVec w' → Prop}
    (g1 : k < f) (g2 : f < l) (g3 : StoresAt items i w a k v)
    (g4 : ∃ of p, (items i)[f]? = some (.other of) ∧ of.ev = .fence p ∧ p.wr = true) (g5 : LoadsAt items i w' a' l o u)
    (g1' : k' < f') (g2' : f' < l') (g3' : StoresAt items j w' a' k' v')
    (g4' : ∃ of p, (items j)[f']? = some (.other of) ∧ of.ev = .fence p ∧ p.wr = true) (g5' : LoadsAt items j w a l' o' u')
    (there : ∀ q v, k ≤ q → StoresAt items i w a q v → ¬ absent v) (there' : ∀ q v, k' ≤ q → StoresAt items j w' a' q v → ¬ absent' v) :
    ¬ (absent' u ∧ absent u') := by
  rintro ⟨a1, a2⟩
  rcases h X rf N items w a w' a' i j hX hij h1 h2 k f l k' f' l' v u' v' u o o' g1 g2 g3 g4 g5 g1' g2' g3' g4' g5' with
    ⟨q, q1, q2⟩ | ⟨q, q1, q2⟩
  · exact there' q u q1 q2 a1
  · exact there q u' q1 q2 a2

end Verif
