/-
What "ordered" means for a whole thread and for several threads.

`Spec.lean` judges one operation at a time with a monitor (`Acquires`, `Releases`, `Ordered`). Here the same
is said from first principles: a thread executes a list of events; an instruction set keeps certain pairs of
accesses in order (`Ppo`: the pairs it always keeps in order, barriers between the two accesses, and
the annotations of the two accesses); an execution of several threads has a global memory order that contains
these pairs and every read-from between different threads.

This is the shape of the axiomatic models of RISC-V (RVWMO), Armv8, x86-TSO, SPARC (TSO/RMO) and z/Architecture: one
global order of all accesses. On machines that are not multi-copy atomic (PowerPC, Armv7, MIPS) the transitivity of
the order is the cumulativity of the barriers.
-/
import Verif.Contract

namespace Verif

/-- AKind of an access. -/
inductive AKind where
  | rd
  | wr
deriving DecidableEq, Repr

/-- The event has an access of this kind. -/
def Ev.has : Ev → AKind → Prop
  | .rd _, .rd => True
  | .wr _, .wr => True
  | .rmw _, _ => True
  | _, _ => False

/-- Annotation of an access. -/
def Ev.acc : Ev → Acc
  | .rd a | .wr a | .rmw a => a
  | _ => {}

/-- Does a barrier keep an access of the first kind before one of the second? -/
def Pairs.keeps (p : Pairs) : AKind → AKind → Bool
  | .rd, .rd => p.rr
  | .rd, .wr => p.rw
  | .wr, .rd => p.wr
  | .wr, .wr => p.ww

/-- The own events of a trace, in program order. -/
def ownEvs (tr : List TEv) : List Ev :=
  tr.filterMap fun | .own ev _ _ => some ev | .env _ _ => none

/-- Access number `i` of kind `k` in a list of events. -/
def Access (L : List Ev) (i : Nat) (k : AKind) : Prop := ∃ ev, L[i]? = some ev ∧ ev.has k

/-- The access (i, k) is kept in order before the access (j, k') of the same thread. -/
def Ppo (imp : Pairs) (L : List Ev) (i : Nat) (k : AKind) (j : Nat) (k' : AKind) : Prop :=
  i < j ∧ ∃ x y, L[i]? = some x ∧ L[j]? = some y ∧ x.has k ∧ y.has k' ∧
    ( -- by the architecture
      imp.keeps k k' = true ∨
      -- by a barrier between them
      (∃ n p, i < n ∧ n < j ∧ L[n]? = some (.fence p) ∧ p.keeps k k' = true) ∨
      -- by the annotation of one of them
      x.acc.full = true ∨ y.acc.full = true ∨
      (k = .rd ∧ x.acc.aq = true) ∨ (k' = .wr ∧ y.acc.rl = true) ∨
      -- an RCsc release write and an RCsc acquire read at or before the second access
      (k = .wr ∧ k' = .rd ∧ x.acc.rl = true ∧ x.acc.sc = true ∧
        ((y.acc.aq = true ∧ y.acc.sc = true) ∨
          ∃ n p, i < n ∧ n < j ∧ L[n]? = some (.fence p) ∧ p.lr = true)))

/-- The last access of kind `k` in the list. -/
def LastAccess (L : List Ev) (k : AKind) (i : Nat) : Prop :=
  Access L i k ∧ ∀ j, i < j → ¬ Access L j k

/-- An access of the whole execution: thread, position in the thread's program order, kind. -/
structure Node where
  thread : Nat
  pos : Nat
  kind : AKind

/-- An execution of any number of threads. -/
structure WExec where
  /-- pairs the architecture keeps in order -/
  imp : Pairs
  /-- the events of each thread in program order: those of the operations and any others -/
  po : Nat → List Ev
  /-- global memory order -/
  gmo : Node → Node → Prop
  gmo_trans : ∀ a b c, gmo a b → gmo b c → gmo a c
  /-- what the hardware keeps in order is so ordered -/
  gmo_ppo : ∀ t i k j k', Ppo imp (po t) i k j k' → gmo ⟨t, i, k⟩ ⟨t, j, k'⟩
  /-- `rf w r`: `r` takes its value from the write `w` -/
  rf : Node → Node → Prop
  /-- a write is seen by other threads only once it is performed -/
  rf_gmo : ∀ w r, rf w r → w.thread ≠ r.thread → gmo w r

/-- A completed run of a compare_exchange that failed and whose failure ordering acquires. -/
inductive Backend.FailAcquireRun {W : Nat} (A : Backend W) : List TEv → Prop
  | intro {s f w a old new B tr rs} (h : A.Cas s f w a old new B ∨ A.CasWeak s f w a old new B)
      (ho : f.acquires = true) (hr : B.Completed A.e tr rs) (hf : B.ok rs = false) :
      A.FailAcquireRun tr

/-- In any program order around the operation, its (last) read precedes every later access. -/
def ReadsFirst (imp : Pairs) (tr : List TEv) : Prop :=
  ∃ n, LastAccess (ownEvs tr) .rd n ∧ ∀ (pre post : List Ev) y k, Access post y k →
    Ppo imp (pre ++ ownEvs tr ++ post) (pre.length + n) .rd ((pre ++ ownEvs tr).length + y) k

/-- In any program order around the operation, its (last) write follows every earlier access. -/
def WritesLast (imp : Pairs) (tr : List TEv) : Prop :=
  ∃ n, LastAccess (ownEvs tr) .wr n ∧ ∀ (pre post : List Ev) x k, Access pre x k →
    Ppo imp (pre ++ ownEvs tr ++ post) x k (pre.length + n) .wr

/-- In any program order around the two operations, the (last) read and write of the first precede the (last) read
and write of the second. -/
def InOrder (imp : Pairs) (trA trB : List TEv) : Prop :=
  ∀ (pre mid post : List Ev) (k k' : AKind) (n n' : Nat), LastAccess (ownEvs trA) k n → LastAccess (ownEvs trB) k' n' →
    Ppo imp (pre ++ ownEvs trA ++ mid ++ ownEvs trB ++ post) (pre.length + n) k
      ((pre ++ ownEvs trA ++ mid).length + n') k'

/-- C13-C16 in terms of the program order of a whole thread. -/
structure Backend.OrderingsOK {W : Nat} (A : Backend W) : Prop where
  acquire : ∀ tr, A.AcquireRun tr → ReadsFirst A.imp tr
  release : ∀ tr, A.ReleaseRun tr → WritesLast A.imp tr
  seqCst : ∀ tr tr', A.SeqCstRun tr → A.SeqCstRun tr' → InOrder A.imp tr tr'
  failure : ∀ tr, A.FailAcquireRun tr → ReadsFirst A.imp tr

/-- C38. For every pair of orderings, both compare_exchange variants: a successful exchange is ordered as the success
ordering demands, a failed one as the failure ordering demands. -/
def Backend.CasTableOK {W : Nat} (A : Backend W) : Prop :=
  ∀ s f w a old new B tr rs, A.Cas s f w a old new B ∨ A.CasWeak s f w a old new B → B.Completed A.e tr rs →
    (B.ok rs = true →
      ((s = .acquire ∨ s = .acqRel ∨ s = .seqCst) → ReadsFirst A.imp tr) ∧
      ((s = .release ∨ s = .acqRel ∨ s = .seqCst) → WritesLast A.imp tr) ∧
      (s = .seqCst → ∀ tr', A.SeqCstRun tr' → InOrder A.imp tr tr' ∧ InOrder A.imp tr' tr)) ∧
    (B.ok rs = false →
      ((f = .acquire ∨ f = .seqCst) → ReadsFirst A.imp tr) ∧
      (f = .seqCst → ∀ tr', A.SeqCstRun tr' → InOrder A.imp tr tr' ∧ InOrder A.imp tr' tr))

/-- C30. Message passing. Thread `i` executes anything, then a releasing operation, then anything; thread `j`
executes anything, then an acquiring operation, then anything. If the acquiring operation's (last) read takes
its value from the releasing operation's (last) write, then every access of thread `i` before its operation
precedes every access of thread `j` after its operation. -/
def Backend.MessagePassing {W : Nat} (A : Backend W) : Prop :=
  ∀ (X : WExec), X.imp = A.imp → ∀ (i j : Nat) (pre post pre' post' : List Ev) (tR tA : List TEv),
    i ≠ j → A.ReleaseRun tR → (A.AcquireRun tA ∨ A.FailAcquireRun tA) →
    X.po i = pre ++ ownEvs tR ++ post → X.po j = pre' ++ ownEvs tA ++ post' →
    ∀ (nw nr : Nat), LastAccess (ownEvs tR) .wr nw → LastAccess (ownEvs tA) .rd nr →
    X.rf ⟨i, pre.length + nw, .wr⟩ ⟨j, pre'.length + nr, .rd⟩ →
    ∀ (x y : Nat) (k k' : AKind), Access pre x k → Access post' y k' →
      X.gmo ⟨i, x, k⟩ ⟨j, (pre' ++ ownEvs tA).length + y, k'⟩

/-- An execution with locations, in which gmo is a total order and reads see the latest write (the "load
value axiom"). -/
structure CExec extends WExec where
  loc : Node → Nat
  gmo_irrefl : ∀ a, ¬ gmo a a
  /-- a write that is read is a write to the same location -/
  rf_loc : ∀ w r, rf w r → w.kind = .wr ∧ loc w = loc r
  /-- writes to one location are ordered -/
  gmo_total : ∀ w w', w.kind = .wr → w'.kind = .wr → loc w = loc w' → w = w' ∨ gmo w w' ∨ gmo w' w
  /-- a read does not take a value that is overwritten before the read -/
  rf_latest : ∀ w r w', rf w r → Access (po w'.thread) w'.pos .wr → w'.kind = .wr → loc w' = loc r → gmo w' r →
    ¬ gmo w w'
  /-- a read that takes its value from no write of the execution reads the initial value: no write precedes it -/
  init_read : ∀ r, Access (po r.thread) r.pos .rd → r.kind = .rd → (∀ w, ¬ rf w r) →
    ∀ w', Access (po w'.thread) w'.pos .wr → w'.kind = .wr → loc w' = loc r → ¬ gmo w' r

/-- C30, in terms of values: in the situation of `MessagePassing`, a read of thread `j` after the acquiring
operation of a location which thread `i` wrote before the releasing operation sees that write or a newer one. -/
def Backend.MessageSeen {W : Nat} (A : Backend W) : Prop :=
  ∀ (X : CExec), X.imp = A.imp → ∀ (i j : Nat) (pre post pre' post' : List Ev) (tR tA : List TEv),
    i ≠ j → A.ReleaseRun tR → (A.AcquireRun tA ∨ A.FailAcquireRun tA) →
    X.po i = pre ++ ownEvs tR ++ post → X.po j = pre' ++ ownEvs tA ++ post' →
    ∀ (nw nr : Nat), LastAccess (ownEvs tR) .wr nw → LastAccess (ownEvs tA) .rd nr →
    X.rf ⟨i, pre.length + nw, .wr⟩ ⟨j, pre'.length + nr, .rd⟩ →
    ∀ (x y : Nat), Access pre x .wr → Access post' y .rd →
      X.loc ⟨i, x, .wr⟩ = X.loc ⟨j, (pre' ++ ownEvs tA).length + y, .rd⟩ →
      ∃ w, X.rf w ⟨j, (pre' ++ ownEvs tA).length + y, .rd⟩ ∧ (w = ⟨i, x, .wr⟩ ∨ X.gmo ⟨i, x, .wr⟩ w)

end Verif
