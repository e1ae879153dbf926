/-
C61: a seqlock, the classic use of atomic loads and stores of possibly torn data with fences (`crossbeam`'s `AtomicCell`, the RFC for
`Atomic<MaybeUninit<T>>`).

One thread, the writer, stores to a version and to any number of data objects with operations of this crate; other threads only load.
The writer's stores of stable versions (even numbers, say) release; before it stores data it stores an unstable version (an odd number) and
executes a release fence. These data stores and unstable versions may be Relaxed. No version is stored twice, none is the initial one. A reader
loads the version with Acquire, then data, then executes an acquire fence, then loads the version again; all but the first may be
Relaxed. If it has loaded the same stable version twice, then all its data is one snapshot: there is a point in the program of the writer such
that the version and all data objects that the reader has loaded, with as many loads as it liked, have the values there that it got.

Executions are those of Weak/SC.lean, fences those of C53 (Weak/Fence.lean).
-/
import Verif.Weak.Fence
import Verif.Weak.LatestFence

namespace Verif

section
variable {W : Nat}

/-- Item `k` of thread `t` is a store of `v` to the `w`-bit object at `a`. -/
def StoresAt (items : Nat → List (Item W)) (t w a k : Nat) (v : BitVec w) : Prop :=
  ∃ d o, (items t)[k]? = some (.op d) ∧ d.call = .store o w a v
/-- Item `k` of thread `t` is a load of the `w`-bit object at `a` that returns `v`. -/
def LoadsAt (items : Nat → List (Item W)) (t w a k : Nat) (o : Ordering) (v : BitVec w) : Prop :=
  ∃ d, (items t)[k]? = some (.op d) ∧ d.call = .load o w a ∧ d.ret = .bits w v

/-- The value that thread `t` leaves in the `w`-bit object at `a` with its first `K` items, alone: that of the last store, or the initial one. -/
def HoldsAt (e : Endian) (m0 : Mem) (items : Nat → List (Item W)) (t w a K : Nat) (v : BitVec w) : Prop :=
  (∃ k, k < K ∧ StoresAt items t w a k v ∧ ∀ k' v', k < k' → k' < K → ¬ StoresAt items t w a k' v') ∨
  (v = load e m0 a w ∧ ∀ k' v', k' < K → ¬ StoresAt items t w a k' v')

/-- Thread `i` is the writer of the seqlock with a `wv`-bit version at `av` and the data objects `D` (width, address); `stable` are the stable
versions, `rel` the places of the writer's release fences. -/
structure SeqlockRun (A : Backend W) (P : Call → Prop) (X : AxShape W) (N : Nat) (items : Nat → List (Item W)) (wv av : Nat)
    (D : Nat → Nat → Prop) (stable : BitVec wv → Prop) (i : Nat) (rel : Nat → Prop) : Prop where
  size : IsSize wv
  aligned : av % (wv / 8) = 0
  data : ∀ w a, D w a → IsSize w ∧ a % (w / 8) = 0
  threads : ∀ t, N ≤ t → items t = []
  code : ∀ t, X.po t = (items t).flatMap Item.code
  /-- each operation accesses an object or something disjoint from it, and the data is disjoint from the version -/
  ops : ∀ t d, Item.op d ∈ items t → d.OK A ∧ P d.call ∧ d.call.OnOrOff wv av ∧ ∀ w a, D w a → d.call.OnOrOff w a
  apart : ∀ w a, D w a → ¬ (w = wv ∧ a = av)
  /-- anything else writes none of the objects -/
  others : ∀ t o x, Item.other o ∈ items t → o.writes x → ¬ (av ≤ x ∧ x < av + wv / 8) ∧ ∀ w a, D w a → ¬ (a ≤ x ∧ x < a + w / 8)
  /-- all accesses to the objects are loads and stores of thread `i` -/
  writer : ∀ t d w a, Item.op d ∈ items t → (w = wv ∧ a = av ∨ D w a) → d.call.On w a →
    (∃ o, d.call = .load o w a) ∨ t = i ∧ ∃ o v, d.call = .store o w a v
  /-- versions are used once -/
  fresh : ∀ k k' v, StoresAt items i wv av k v → StoresAt items i wv av k' v → k = k'
  initial : ∀ k v, StoresAt items i wv av k v → v ≠ load A.e X.m0 av wv
  /-- stores of stable versions release -/
  releases : ∀ d o v, Item.op d ∈ items i → d.call = .store o wv av v → stable v → o.releases = true
  /-- before data is stored, an unstable version is, and then there is a release fence -/
  marked : ∀ w a k v, D w a → StoresAt items i w a k v → ∃ m f v', m < f ∧ f < k ∧ StoresAt items i wv av m v' ∧ ¬ stable v' ∧
    rel f ∧ ∀ k' v'', m < k' → k' < k → ¬ StoresAt items i wv av k' v''

/-- There is a point in the program of thread `i`, after `K` items of it, where the version is `v` and each data object has the value that any load
of it by thread `j` between items `l` and `g` returned. -/
def Snapshots (e : Endian) (m0 : Mem) (items : Nat → List (Item W)) (wv av : Nat) (D : Nat → Nat → Prop) (i j l g : Nat) (v : BitVec wv) :
    Prop :=
  ∃ K, HoldsAt e m0 items i wv av K v ∧
    ∀ w a k o (u : BitVec w), D w a → l < k → k < g → LoadsAt items j w a k o u → HoldsAt e m0 items i w a K u
end

/-- C61, with a global memory order. -/
def Backend.SeqlockReads {W : Nat} (A : Backend W) (P : Call → Prop) : Prop :=
  ∀ (X : AxShape W) (rf : Node → Nat → Option Node) (N : Nat) (items : Nat → List (Item W)) (wv av : Nat) (D : Nat → Nat → Prop)
    (stable : BitVec wv → Prop) (i : Nat), AxExec A.imp X → X.LocalForward → CohExec X rf → X.ReadsFrom rf →
    SeqlockRun A P X N items wv av D stable i (ReleaseFence A.imp items i) →
    ∀ (j l g l' : Nat) (v : BitVec wv) (o o' : Ordering), j ≠ i → l < g → g < l' → o.acquires = true → stable v →
      LoadsAt items j wv av l o v → AcquireFence A.imp items j g → LoadsAt items j wv av l' o' v →
      Snapshots A.e X.m0 items wv av D i j l g v

/-- Only operations of thread `i` write the objects: loads do not (C58), nor do read-modify-write operations of whole words on objects beside them. -/
def SolelyStored {W : Nat} (items : Nat → List (Item W)) (wv av : Nat) (D : Nat → Nat → Prop) (i : Nat) : Prop :=
  ∀ t d o w a x, Item.op d ∈ items t → o ∈ owns d.tr → (w = wv ∧ a = av ∨ D w a) → a ≤ x → x < a + w / 8 → o.writes x → t = i

/-- C61 on machines that need not be multi-copy atomic. -/
def Backend.SeqlockReadsNonMCA {W : Nat} (A : Backend W) (P : Call → Prop) : Prop :=
  ∀ (X : AxShape W) (rf : Node → Nat → Option Node) (N : Nat) (items : Nat → List (Item W)) (wv av : Nat) (D : Nat → Nat → Prop)
    (stable : BitVec wv → Prop) (i : Nat), RAExec A.imp X rf →
    SeqlockRun A P X N items wv av D stable i
      (fun f => ∃ o p, (items i)[f]? = some (.other o) ∧ o.ev = .fence p ∧ p.rw = true ∧ p.ww = true) →
    SolelyStored items wv av D i →
    ∀ (j l g l' : Nat) (v : BitVec wv) (o o' : Ordering), j ≠ i → l < g → g < l' → o.acquires = true → stable v →
      LoadsAt items j wv av l o v →
      (∃ o p, (items j)[g]? = some (.other o) ∧ o.ev = .fence p ∧ p.rr = true ∧ p.rw = true) → LoadsAt items j wv av l' o' v →
      Snapshots A.e X.m0 items wv av D i j l g v

/-- Every store executes a write; it is not skipped if the value is there already. -/
def Backend.StoresWrite {W : Nat} (A : Backend W) : Prop :=
  ∀ o w a v B, A.Store o w a v B → ∀ tr rs, B.Completed A.e tr rs → ∃ n, LastAccess (ownEvs tr) .wr n

end Verif
