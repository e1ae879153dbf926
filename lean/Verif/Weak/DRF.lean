/-
C49: programs without data races are sequentially consistent, on weak memory.

Threads execute SeqCst operations of this crate and, between them, ordinary code that reads and writes other memory. If the
operations order all conflicting accesses of the ordinary code (no data race), then the execution is an interleaving: all
operations and all ordinary accesses, in one sequence that contains those of each thread in program order, give the same answers
and read the same values if they are executed one after the other on one memory.
-/
import Verif.Weak.Lock

namespace Verif

section
variable {W : Nat} (X : AxShape W) (rf : Node → Nat → Option Node) (items : Nat → List (Item W))

/-- Access `n` is one of ordinary code: of the instruction `o`. -/
def DataAt (n : Node) (o : Own W) : Prop :=
  ∃ k, (items n.thread)[k]? = some (.other o) ∧ n.pos = off (items n.thread) k ∧ o.ev.has n.kind

/-- An access of this kind of the instruction `o` is one to byte `x`. -/
def Own.touches (o : Own W) : AKind → Nat → Prop
  | .rd, x => o.reads x
  | .wr, x => o.writes x

/-- Operation `k` of thread `i` happens before operation `l` of thread `j`: the latter reads what the former wrote, or there is a chain
of such operations. -/
inductive OpBefore : (i k j l : Nat) → Prop
  | direct {i k j l : Nat} {d d' : Done W} {w r : Node} {o : Own W} {x : Nat} (hij : i ≠ j)
      (hd : (items i)[k]? = some (.op d)) (hrel : d.Releases) (hd' : (items j)[l]? = some (.op d')) (hacq : d'.Acquires)
      (hon : d.call.On d'.call.width d'.call.addr) (hw : IsLast items i k .wr w) (hr : IsLast items j l .rd r)
      (ho : X.At r o) (hx : o.reads x) (h1 : d'.call.addr ≤ x) (h2 : x < d'.call.addr + d'.call.width / 8) (hrf : rf r x = some w) :
      OpBefore i k j l
  | trans {i k j l m t n : Nat} (h : OpBefore i k j l) (hlm : l ≤ m) (h' : OpBefore j m t n) : OpBefore i k t n

/-- Access `a` happens before access `b` of another thread: an operation after `a` happens before one before `b`. -/
def AccessBefore (a b : Node) : Prop :=
  ∃ k l, OpBefore X rf items a.thread k b.thread l ∧ a.pos < off (items a.thread) k ∧ off (items b.thread) (l + 1) ≤ b.pos

/-- No data race: of two ordinary accesses of different threads to the same byte, at least one of them a write, one happens before
the other. -/
def RaceFree : Prop :=
  ∀ a b oa ob x, DataAt items a oa → DataAt items b ob → a.thread ≠ b.thread → oa.touches a.kind x → ob.touches b.kind x →
    (a.kind = .wr ∨ b.kind = .wr) → AccessBefore X rf items a b ∨ AccessBefore X rf items b a
end

/-- Operations and ordinary instructions are executed one after the other, on one memory: an operation as in its sequential
specification, with the answer it gave; an ordinary instruction reads what is in memory and writes what it wrote. -/
def SCRun {W : Nat} (e : Endian) : Mem → List (Nat × Item W) → Mem → Prop
  | m, [], m' => m = m'
  | m, (_, .op d) :: L, m' => ∃ m1, d.call.Sem e m m1 d.ret ∧ SCRun e m1 L m'
  | m, (_, .other o) :: L, m' => ∃ m1, (o.ev.has .rd → ∀ x, o.reads x → o.m x = m x) ∧ (∀ x, o.writes x → m1 x = o.m' x) ∧
      (∀ x, ¬ o.writes x → m1 x = m x) ∧ SCRun e m1 L m'

/-- Any number of threads execute operations of `A`, whose calls satisfy `P`, on aligned objects that do not overlap, and, between
them, naturally aligned accesses to other memory (which may be in the same machine words as the objects). -/
structure DataRun {W : Nat} (A : Backend W) (P : Call → Prop) (X : AxShape W) (N : Nat) (items : Nat → List (Item W)) : Prop where
  threads : ∀ t, N ≤ t → items t = []
  code : ∀ t, X.po t = (items t).flatMap Item.code
  ops : ∀ t d, Item.op d ∈ items t → d.OK A ∧ P d.call ∧ IsSize d.call.width ∧ d.call.addr % (d.call.width / 8) = 0
  objects : ∀ t d t' d', Item.op d ∈ items t → Item.op d' ∈ items t' → d.call.SameOrApart d'.call
  natural : ∀ t o, Item.other o ∈ items t → o.ev.isAccess = true → o.Natural
  apart : ∀ t o t' d x, Item.other o ∈ items t → Item.op d ∈ items t' → o.reads x ∨ o.writes x →
    ¬ (d.call.addr ≤ x ∧ x < d.call.addr + d.call.width / 8)

/-- All operations and ordinary instructions are, in some order that respects the program order of each thread, executed one after
the other. -/
def Interleaved {W : Nat} (e : Endian) (m0 : Mem) (items : Nat → List (Item W)) : Prop :=
  ∃ (L : List (Nat × Item W)) (m : Mem), (∀ t, ofThread t L = (items t).map fun it => (t, it)) ∧ SCRun e m0 L m

/-- C49. Every execution without data races that is consistent in the sense of C44 and coherent in the sense of C42 is
sequentially consistent. -/
def Backend.RaceFreeSC {W : Nat} (A : Backend W) (P : Call → Prop) : Prop :=
  ∀ (X : AxShape W) (rf : Node → Nat → Option Node) (N : Nat) (items : Nat → List (Item W)), AxExec A.imp X → X.LocalForward →
    CohExec X rf → X.ReadsFrom rf → DataRun A P X N items → RaceFree X rf items → Interleaved A.e X.m0 items

/-- C49 on machines that need not be multi-copy atomic. -/
def Backend.RaceFreeSCNonMCA {W : Nat} (A : Backend W) (P : Call → Prop) : Prop :=
  ∀ (X : AxShape W) (rf : Node → Nat → Option Node) (N : Nat) (items : Nat → List (Item W)), RAExec A.imp X rf → NMExec X rf →
    DataRun A P X N items → RaceFree X rf items → Interleaved A.e X.m0 items

end Verif
