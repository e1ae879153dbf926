/-
C48: locks built from the operations protect data, on weak memory.

A lock is an object that holds 0 when it is free. To take it, a thread swaps something else into it or replaces 0 by something
else with compare_exchange or compare_exchange_weak, with an ordering that acquires; it succeeds if there was a 0. To give it
back, it stores 0 with an ordering that releases. (With the swap or compare_exchange in a loop: a spin lock.)
-/
import Verif.Weak.Sync
import Verif.Weak.NonMCASync

namespace Verif

/-- An attempt to take a lock. -/
def Call.TriesLock : Call → Prop
  | .swap o _ _ v => o.acquires = true ∧ v ≠ 0
  | .cas s _ _ _ old new | .casWeak s _ _ _ old new => s.acquires = true ∧ old = 0 ∧ new ≠ 0
  | _ => False
/-- A lock is given back. -/
def Call.Unlocks : Call → Prop
  | .store o _ _ v => o.releases = true ∧ v = 0
  | _ => False
/-- The answer to an attempt says that the lock is taken. -/
def Ret.Taken : Ret → Prop
  | .bits _ x => x = 0
  | .cas _ _ ok => ok = true
  | .unit => False

section
variable {W : Nat} (items : Nat → List (Item W)) (w a : Nat)
/-- Operation `k` of thread `t` takes the lock, the `w`-bit object at `a`. -/
def LockAt (t k : Nat) : Prop := ∃ d, (items t)[k]? = some (.op d) ∧ d.call.On w a ∧ d.call.TriesLock ∧ d.ret.Taken
/-- Operation `k` of thread `t` gives it back. -/
def UnlockAt (t k : Nat) : Prop := ∃ d, (items t)[k]? = some (.op d) ∧ d.call.On w a ∧ d.call.Unlocks

/-- The threads use the object as a lock: they only try to take it, look at it, and give it back if they have it. -/
structure LockClient : Prop where
  ops : ∀ t d, Item.op d ∈ items t → d.call.On w a → d.call.TriesLock ∨ d.call.Unlocks ∨ ∃ o, d.call = .load o w a
  held : ∀ t k, UnlockAt items w a t k → ∃ k0, k0 < k ∧ LockAt items w a t k0 ∧ ∀ m, k0 < m → m < k → ¬ UnlockAt items w a t m

/-- The critical section that begins with operation `k` of thread `i` ends before the one that begins with operation `l` of
thread `j`: there is an operation by which the former ends, and everything thread `i` did before it precedes (in the sense
of `Ord`) everything that thread `j` does in the latter and later. -/
def SectionBefore (X : AxShape W) (Ord : Node → Node → Prop) (i k j l : Nat) : Prop :=
  ∃ k', k < k' ∧ UnlockAt items w a i k' ∧ (∀ m, k < m → m < k' → ¬ UnlockAt items w a i m) ∧ (i = j → k' < l) ∧
    (i ≠ j → ∀ p q kd kd' o o', X.At ⟨i, p, kd⟩ o → p < off (items i) k' → X.At ⟨j, q, kd'⟩ o' → off (items j) (l + 1) ≤ q →
      Ord ⟨i, p, kd⟩ ⟨j, q, kd'⟩)

/-- Of two critical sections one ends before the other begins. -/
def Excludes (X : AxShape W) (Ord : Node → Node → Prop) : Prop :=
  ∀ i k j l, LockAt items w a i k → LockAt items w a j l → (i ≠ j ∨ k ≠ l) →
    SectionBefore items w a X Ord i k j l ∨ SectionBefore items w a X Ord j l i k
end

namespace AxShape
variable {W : Nat} (X : AxShape W)
/-- `rf` says from which write each read of the execution takes its value. -/
def ReadsFrom (rf : Node → Nat → Option Node) : Prop := ∀ n o x w, X.Rd n o x → (rf n x = some w ↔ X.From w n x)
/-- `a` comes first in the global memory order, and what it writes is not older than what `b` reads. -/
def Earlier (a b : Node) : Prop := X.rank a < X.rank b ∧ ∀ x v w, X.WritesByte a x v → X.From w b x → X.rank a ≤ X.rank w
end AxShape

/-- Any number of threads execute operations of `A` on aligned objects, the lock or disjoint from it, and, between them, anything
else that does not write the lock, which is free at the beginning. -/
structure LockRun {W : Nat} (A : Backend W) (P : Call → Prop) (w a : Nat) (X : AxShape W) (N : Nat) (items : Nat → List (Item W)) :
    Prop where
  size : IsSize w
  aligned : a % (w / 8) = 0
  threads : ∀ t, N ≤ t → items t = []
  code : ∀ t, X.po t = (items t).flatMap Item.code
  ops : ∀ t d, Item.op d ∈ items t → d.OK A ∧ P d.call ∧ d.call.OnOrOff w a
  others : ∀ t o x, Item.other o ∈ items t → a ≤ x → x < a + w / 8 → ¬ o.writes x
  free : load A.e X.m0 a w = 0
  client : LockClient items w a

/-- C48. In every execution that is consistent in the sense of C44 and coherent in the sense of C42, critical sections exclude each
other, and what was done in one is seen in the next. -/
def Backend.LocksProtect {W : Nat} (A : Backend W) (P : Call → Prop) : Prop :=
  ∀ (w a : Nat) (X : AxShape W) (rf : Node → Nat → Option Node) (N : Nat) (items : Nat → List (Item W)), AxExec A.imp X →
    X.LocalForward → CohExec X rf → X.ReadsFrom rf → LockRun A P w a X N items → Excludes items w a X X.Earlier

/-- Nothing else writes the lock: only an operation that takes it or gives it back, or a swap. (So no other object in the same
machine word is written by a read-modify-write of the whole word.) -/
def SolelyLocked {W : Nat} (items : Nat → List (Item W)) (w a : Nat) : Prop :=
  ∀ t d o x, Item.op d ∈ items t → o ∈ owns d.tr → a ≤ x → x < a + w / 8 → o.writes x →
    d.call.On w a ∧ (d.call.Unlocks ∨ (d.call.TriesLock ∧ d.ret.Taken) ∨ ∃ o v, d.call = .swap o w a v)

/-- C48 on machines that need not be multi-copy atomic. -/
def Backend.LocksProtectNonMCA {W : Nat} (A : Backend W) (P : Call → Prop) : Prop :=
  ∀ (w a : Nat) (X : AxShape W) (rf : Node → Nat → Option Node) (N : Nat) (items : Nat → List (Item W)), RAExec A.imp X rf →
    LockRun A P w a X N items → SolelyLocked items w a → Excludes items w a X (X.Precedes rf)

end Verif
