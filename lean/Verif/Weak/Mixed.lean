/-
C59: operations and ordinary accesses to one object, on weak memory.

`get_mut`, `into_inner`, `from_ptr` and `as_ptr` let ordinary code read and write the object between operations. Threads execute operations
of this crate (with any orderings) and, between them, ordinary loads and stores of the whole object, and anything else that does not write the
object. Then all operations on the object and all these ordinary accesses are in one sequence that contains those of each thread in
program order and respects synchronization: what precedes (in program order) an operation that synchronizes with another one does not come
after what follows the latter; and they give the same answers if
they are executed one after the other; an ordinary load counts as an operation that returns what the instruction read, an ordinary store as
one that writes what the instruction wrote.

So where an ordinary read is ordered with all conflicting accesses (no data race, which the documentation of `from_ptr` demands), it
reads what the last operation or ordinary store before it left; and operations that happen after an ordinary store start from what it wrote.
-/
import Verif.Weak.Latest

namespace Verif

/-- An ordinary load of the `w`-bit object at `a`. -/
def Own.ReadsAll {W : Nat} (o : Own W) (w a : Nat) : Prop :=
  ∃ acc addr k, o.ins = .ld acc addr w k ∧ addr o.rs = a ∧ o.ev = .rd acc
/-- An ordinary store to the `w`-bit object at `a`. -/
def Own.WritesAll {W : Nat} (o : Own W) (w a : Nat) : Prop :=
  ∃ acc addr v, o.ins = .st acc addr w v ∧ addr o.rs = a ∧ o.ev = .wr acc

/-- What is executed, as an operation on the `w`-bit object at `a`: the call and its answer. -/
inductive Item.Acts {W : Nat} (e : Endian) (w a : Nat) : Item W → Call → Ret → Prop
  | op (d : Done W) (h : d.call.On w a) : Acts e w a (.op d) d.call d.ret
  /-- an ordinary load: what it read -/
  | read (o : Own W) (h : o.ReadsAll w a) : Acts e w a (.other o) (.load .relaxed w a) (.bits w (load e o.m a w))
  /-- an ordinary store: of what it wrote -/
  | write (o : Own W) (h : o.WritesAll w a) : Acts e w a (.other o) (.store .relaxed w a (load e o.m' a w)) .unit

/-- Item `k` of thread `t` comes before item `k'` of thread `t'`: in program order, or because an operation after the former
synchronizes (`R`) with one before the latter. -/
def ItemBefore (R : (i k j l : Nat) → Prop) (t k t' k' : Nat) : Prop :=
  t = t' ∧ k < k' ∨ ∃ K L, R t K t' L ∧ k < K ∧ L < k'

/-- There is one sequence of all operations on and ordinary accesses to the object (thread, place in the thread, call, answer), each of them
once, in which nothing comes after what it comes before; it is legal, and leaves in the object the newest bytes. -/
def OneHistory {W : Nat} (e : Endian) (X : AxShape W) (items : Nat → List (Item W)) (R : (i k j l : Nat) → Prop) (w a : Nat) : Prop :=
  ∃ (seq : List (Nat × Nat × Call × Ret)) (m : Mem),
    Legal e X.m0 (seq.map fun z => (z.1, z.2.2)) m ∧
    (∀ t k c r, (t, k, c, r) ∈ seq ↔ ∃ it, (items t)[k]? = some it ∧ it.Acts e w a c r) ∧
    (seq.Pairwise fun x y => ¬ (x.1 = y.1 ∧ x.2.1 = y.2.1) ∧ ¬ ItemBefore R y.1 y.2.1 x.1 x.2.1) ∧
    ∀ x, a ≤ x → x < a + w / 8 → X.Newest (fun _ => True) x (m x)

/-- Any number of threads execute operations of `A` (whose calls satisfy `P`) on aligned objects, each the `w`-bit object at `a` or disjoint from it,
and, between them, anything that writes this object only as a whole. -/
structure MixedRun {W : Nat} (A : Backend W) (P : Call → Prop) (X : AxShape W) (N : Nat) (items : Nat → List (Item W)) (w a : Nat) : Prop where
  size : IsSize w
  aligned : a % (w / 8) = 0
  threads : ∀ t, N ≤ t → items t = []
  code : ∀ t, X.po t = (items t).flatMap Item.code
  ops : ∀ t d, Item.op d ∈ items t → d.OK A ∧ P d.call ∧ d.call.OnOrOff w a
  others : ∀ t o x, Item.other o ∈ items t → a ≤ x → x < a + w / 8 → o.writes x → o.WritesAll w a

/-- C59 in every coherent execution, without synchronization. -/
def Backend.MixedCoherent {W : Nat} (A : Backend W) (P : Call → Prop) : Prop :=
  ∀ (X : AxShape W) (rf : Node → Nat → Option Node) (N : Nat) (items : Nat → List (Item W)) (w a : Nat), CohExec X rf →
    MixedRun A P X N items w a → OneHistory A.e X items (fun _ _ _ _ => False) w a

/-- C59, with a global memory order. -/
def Backend.MixedHistory {W : Nat} (A : Backend W) (P : Call → Prop) : Prop :=
  ∀ (X : AxShape W) (rf : Node → Nat → Option Node) (N : Nat) (items : Nat → List (Item W)) (w a : Nat), AxExec A.imp X → X.LocalForward →
    CohExec X rf → X.ReadsFrom rf → MixedRun A P X N items w a → OneHistory A.e X items (Sync X items) w a

/-- C59 on machines that need not be multi-copy atomic. -/
def Backend.MixedHistoryNonMCA {W : Nat} (A : Backend W) (P : Call → Prop) : Prop :=
  ∀ (X : AxShape W) (rf : Node → Nat → Option Node) (N : Nat) (items : Nat → List (Item W)) (w a : Nat), RAExec A.imp X rf →
    MixedRun A P X N items w a → OneHistory A.e X items (NSync X rf items) w a

end Verif
