/-
C50: without data races, ordinary code reads what was written last, on weak memory, with operations of any orderings.

Threads execute operations of this crate (with any orderings) and, between them, ordinary code that reads and writes other memory.
Operations synchronize as in C44: one with Acquire semantics that reads what one with Release semantics (or a release sequence) wrote.
If the synchronization orders all conflicting accesses of the ordinary code (no data race), then all ordinary writes to a byte that
is read are before or after the read, and the read returns the value of the last one before it.
-/
import Verif.Weak.DRF

namespace Verif

section
variable {W : Nat} (R : (i k j l : Nat) → Prop) (items : Nat → List (Item W))

/-- Access `a` happens before access `b`: it is earlier in the same thread (an instruction that reads and writes reads first), or
an operation after `a` synchronizes (`R`) with one before `b`. -/
def HappensBefore (a b : Node) : Prop :=
  a.thread = b.thread ∧ (a.pos < b.pos ∨ a.pos = b.pos ∧ a.kind = .rd ∧ b.kind = .wr) ∨
  ∃ k l, R a.thread k b.thread l ∧ a.pos < off (items a.thread) k ∧ off (items b.thread) (l + 1) ≤ b.pos

/-- No data race: of two ordinary accesses of different threads to the same byte, at least one of them a write, one happens before
the other. -/
def NoRaces : Prop :=
  ∀ a b oa ob x, DataAt items a oa → DataAt items b ob → a.thread ≠ b.thread → oa.touches a.kind x → ob.touches b.kind x →
    (a.kind = .wr ∨ b.kind = .wr) → HappensBefore R items a b ∨ HappensBefore R items b a

/-- Access `w` is an ordinary write of value `v` to byte `x`. -/
def DataWrite (w : Node) (x : Nat) (v : BitVec 8) : Prop := w.kind = .wr ∧ ∃ o, DataAt items w o ∧ o.writes x ∧ o.m' x = v

/-- Ordinary code reads what was written last: the value of a write that happens before the read, while all other writes happen before
this write or after the read; or the initial value, if all writes happen after the read. -/
def ReadsLatest (m0 : Mem) : Prop :=
  ∀ r o x, DataAt items r o → r.kind = .rd → o.reads x →
    (∃ w, DataWrite items w x (o.m x) ∧ HappensBefore R items w r ∧
      ∀ w' v', DataWrite items w' x v' → w' = w ∨ HappensBefore R items w' w ∨ HappensBefore R items r w') ∨
    (o.m x = m0 x ∧ ∀ w' v', DataWrite items w' x v' → HappensBefore R items r w')
end

/-- C50, with a global memory order. -/
def Backend.RaceFreeReads {W : Nat} (A : Backend W) (P : Call → Prop) : Prop :=
  ∀ (X : AxShape W) (rf : Node → Nat → Option Node) (N : Nat) (items : Nat → List (Item W)), AxExec A.imp X → X.LocalForward →
    CohExec X rf → X.ReadsFrom rf → DataRun A P X N items → NoRaces (Sync X items) items → ReadsLatest (Sync X items) items X.m0

/-- C50 on machines that need not be multi-copy atomic. -/
def Backend.RaceFreeReadsNonMCA {W : Nat} (A : Backend W) (P : Call → Prop) : Prop :=
  ∀ (X : AxShape W) (rf : Node → Nat → Option Node) (N : Nat) (items : Nat → List (Item W)), RAExec A.imp X rf →
    DataRun A P X N items → NoRaces (NSync X rf items) items → ReadsLatest (NSync X rf items) items X.m0

end Verif
