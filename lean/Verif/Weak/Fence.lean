/-
C53: fences. `fence(Release)` before a write and `fence(Acquire)` after a read synchronize like releasing and acquiring operations,
whatever the orderings of the operations themselves: Relaxed ones are enough.

Executions are those of Weak/SC.lean (C44, Weak/Sync.lean). A fence of the standard library is an instruction of the thread between
the operations (an item that is not an operation), or no instruction where the machine keeps these accesses in order anyway. Which
instruction it is does not matter; what matters is which pairs of accesses it keeps in order.
-/
import Verif.Weak.SyncProof
import Verif.Weak.NonMCASync

namespace Verif

/-- Accesses of kind `k` before item `f` of thread `t` stay before those of kind `k'` after it: the machine always does that, or the
item is a barrier that does. -/
def FenceAt {W : Nat} (imp : Pairs) (items : Nat → List (Item W)) (t f : Nat) (k k' : AKind) : Prop :=
  imp.keeps k k' = true ∨ ∃ o p, (items t)[f]? = some (.other o) ∧ o.ev = .fence p ∧ p.keeps k k' = true

/-- `fence(Release)`: reads and writes before it stay before the writes after it. -/
def ReleaseFence {W : Nat} (imp : Pairs) (items : Nat → List (Item W)) (t f : Nat) : Prop :=
  ∀ kd, FenceAt imp items t f kd .wr
/-- `fence(Acquire)`: the reads before it stay before reads and writes after it. -/
def AcquireFence {W : Nat} (imp : Pairs) (items : Nat → List (Item W)) (t f : Nat) : Prop :=
  ∀ kd, FenceAt imp items t f .rd kd

/-- The operation reads the object: it is not a store. -/
def Call.Reads : Call → Prop
  | .store .. => False
  | _ => True

/-- The write of operation `k` of thread `t` publishes what the thread did before item `f`: the operation itself releases and is that
item, or it comes after a release fence. -/
def Publishes {W : Nat} (imp : Pairs) (items : Nat → List (Item W)) (t f k : Nat) : Prop :=
  (f = k ∧ ∃ d, (items t)[k]? = some (.op d) ∧ d.Releases) ∨ (f ≤ k ∧ ReleaseFence imp items t f)
/-- What operation `l` of thread `t` reads precedes what the thread does after item `g`: the operation itself acquires and is that
item, or it reads and an acquire fence comes after it. -/
def Receives {W : Nat} (imp : Pairs) (items : Nat → List (Item W)) (t l g : Nat) : Prop :=
  (g = l ∧ ∃ d, (items t)[l]? = some (.op d) ∧ d.Acquires) ∨
  (l ≤ g ∧ AcquireFence imp items t g ∧ ∃ d, (items t)[l]? = some (.op d) ∧ d.call.Reads)

/-- Item `f` of thread `i`, a releasing operation or a release fence, synchronizes with item `g` of thread `j`, an acquiring operation or
an acquire fence. -/
inductive FSync {W : Nat} (imp : Pairs) (X : AxShape W) (items : Nat → List (Item W)) : (i f j g : Nat) → Prop
  /-- The operation `l` that receives reads some byte from the write of the operation `k` that publishes or from a newer
  write to this byte: one of another thread, or one by any operation of its own thread except a store to this byte. -/
  | direct {i f k j l g : Nat} {w0 w r : Node} {x : Nat} {v : BitVec 8} (hij : i ≠ j)
      (hrel : Publishes imp items i f k) (hw0 : IsLast items i k .wr w0) (hx : X.WritesByte w0 x v)
      (hacq : Receives imp items j l g) (hr : IsLast items j l .rd r) (hf : X.From w r x) (hle : X.rank w0 ≤ X.rank w)
      (hown : w.thread ≠ j ∨ ∃ u du, (items j)[u]? = some (.op du) ∧ ¬ du.call.Overwrites x ∧ IsLast items j u .wr w) :
      FSync imp X items i f j g
  | trans {i f j g m t n : Nat} (h : FSync imp X items i f j g) (hgm : g ≤ m) (h' : FSync imp X items j m t n) :
      FSync imp X items i f t n

/-- C53. If item `f` of thread `i` synchronizes with item `g` of thread `j`, then everything thread `i` did before the former
precedes everything thread `j` does after the latter, and reads of thread `j` after the latter see what thread `i` wrote before the
former, or something newer. -/
def Backend.FencesSynchronize {W : Nat} (A : Backend W) (P : Call → Prop) : Prop :=
  ∀ (X : AxShape W) (items : Nat → List (Item W)), AxExec A.imp X → X.LocalForward →
    (∀ t, X.po t = (items t).flatMap Item.code) → (∀ t d, Item.op d ∈ items t → d.OK A ∧ P d.call ∧ IsSize d.call.width) →
    ∀ i f j g, FSync A.imp X items i f j g → ∀ (p q : Nat) (kd kd' : AKind) (o o' : Own W),
      X.At ⟨i, p, kd⟩ o → p < off (items i) f → X.At ⟨j, q, kd'⟩ o' → off (items j) (g + 1) ≤ q →
      X.rank ⟨i, p, kd⟩ < X.rank ⟨j, q, kd'⟩ ∧
      ∀ x v w, X.WritesByte ⟨i, p, kd⟩ x v → X.From w ⟨j, q, kd'⟩ x → X.rank ⟨i, p, kd⟩ ≤ X.rank w

/-! ### Without multi-copy atomicity (Weak/NonMCASync.lean) -/

/-- Item `f` of thread `t` releases what the thread did before: it is a releasing operation, or a barrier that keeps reads and writes
before it before the writes after it. -/
def NPublishes {W : Nat} (items : Nat → List (Item W)) (t f : Nat) : Prop :=
  (∃ d, (items t)[f]? = some (.op d) ∧ d.Releases) ∨
  ∃ o p, (items t)[f]? = some (.other o) ∧ o.ev = .fence p ∧ p.rw = true ∧ p.ww = true
/-- What operation `l` of thread `t` reads precedes what the thread does after item `g`: the operation itself acquires and is that item,
or the item is a later barrier that keeps the reads before it before reads and writes after it. -/
def NReceives {W : Nat} (items : Nat → List (Item W)) (t l g : Nat) : Prop :=
  (g = l ∧ ∃ d, (items t)[l]? = some (.op d) ∧ d.Acquires) ∨
  (l < g ∧ ∃ o p, (items t)[g]? = some (.other o) ∧ o.ev = .fence p ∧ p.rr = true ∧ p.rw = true)

/-- Item `f` of thread `i`, a releasing operation or a release fence, synchronizes with item `g` of thread `j`, an acquiring operation or
an acquire fence. -/
inductive NFSync {W : Nat} (X : AxShape W) (rf : Node → Nat → Option Node) (items : Nat → List (Item W)) : (i f j g : Nat) → Prop
  /-- The receiving operation reads some byte from a write of another thread that carries what item `f` released: that of this
  operation, or of a later one (after a fence: any operation), or of a release sequence. -/
  | direct {i f j l g : Nat} {w r : Node} {o : Own W} {x : Nat} (hrel : NPublishes items i f) (hw : Carries X rf items i f x w)
      (hacq : NReceives items j l g) (hr : IsLast items j l .rd r) (ho : X.At r o) (hx : o.reads x)
      (hrf : rf r x = some w) (hj : w.thread ≠ j) : NFSync X rf items i f j g
  | trans {i f j g m t n : Nat} (h : NFSync X rf items i f j g) (hgm : g ≤ m) (h' : NFSync X rf items j m t n) : NFSync X rf items i f t n

/-- C53 without multi-copy atomicity. -/
def Backend.FencesSyncOnNonMCA {W : Nat} (A : Backend W) (P : Call → Prop) : Prop :=
  ∀ (X : AxShape W) (rf : Node → Nat → Option Node) (items : Nat → List (Item W)), RAExec A.imp X rf →
    (∀ t, X.po t = (items t).flatMap Item.code) →
    (∀ t d, Item.op d ∈ items t → d.OK A ∧ P d.call ∧ IsSize d.call.width ∧ d.call.addr % (d.call.width / 8) = 0) →
    ∀ i f j g, NFSync X rf items i f j g → ∀ (p q : Nat) (kd kd' : AKind) (o o' : Own W),
      X.At ⟨i, p, kd⟩ o → p < off (items i) f → X.At ⟨j, q, kd'⟩ o' → off (items j) (g + 1) ≤ q →
      X.Precedes rf ⟨i, p, kd⟩ ⟨j, q, kd'⟩

end Verif
