/-
C44: a releasing operation synchronizes with an acquiring operation that reads its value, or any newer value of the object
(so through release sequences of any length: read-modify-write operations of any threads, with any
orderings, and operations on other objects in the same machine word), and synchronization chains through any number of threads.

Executions are those of Weak/SC.lean. `LocalForward` is the one further assumption on the machine.
-/
import Verif.Weak.CoherenceProof

namespace Verif

/-- The operation has acquire semantics. -/
def Done.Acquires {W : Nat} (d : Done W) : Prop :=
  match d.call, d.ret with
  | .load o _ _, _ | .swap o _ _ _, _ => o.acquires = true
  | .cas s f _ _ _ _, .cas _ _ ok | .casWeak s f _ _ _ _, .cas _ _ ok => (if ok then s else f).acquires = true
  | _, _ => False
/-- The operation wrote, with release semantics. -/
def Done.Releases {W : Nat} (d : Done W) : Prop :=
  match d.call, d.ret with
  | .store o _ _ _, _ | .swap o _ _ _, _ => o.releases = true
  | .cas s _ _ _ _ _, .cas _ _ ok | .casWeak s _ _ _ _ _, .cas _ _ ok => ok = true ∧ s.releases = true
  | _, _ => False
/-- The operation is a read-modify-write operation. -/
def Call.Updates : Call → Prop
  | .swap .. | .cas .. | .casWeak .. => True
  | _ => False

/-- The operation overwrites byte `x`: it is a store to an object this byte belongs to. -/
def Call.Overwrites (c : Call) (x : Nat) : Prop :=
  match c with
  | .store _ w a _ => a ≤ x ∧ x < a + w / 8
  | _ => False

namespace AxShape
variable {W : Nat} (X : AxShape W)
/-- The read `n` can take its value from `w` (see `AxExec.value`). -/
def Visible (n w : Node) : Prop := X.rank w < X.rank n ∨ (w.thread = n.thread ∧ w.pos < n.pos)
/-- The read `n` takes byte `x` from the write `w`. -/
def From (w n : Node) (x : Nat) : Prop :=
  (∃ o, X.At n o ∧ n.kind = .rd ∧ o.reads x) ∧ (∃ v, X.WritesByte w x v) ∧ X.Visible n w ∧
    ∀ w' v', X.Visible n w' → X.WritesByte w' x v' → X.rank w' ≤ X.rank w

/-- An acquire-annotated read does not take its value early from its own thread's atomic write (RVWMO: preserved program
order rule 3; Armv8: `[range(rmw)]; lrs; [A | Q]` of atomic-ordered-before; on TSO machines such a write drains the store
buffer). -/
def LocalForward : Prop :=
  ∀ w n x o o', X.From w n x → w.thread = n.thread → X.At n o → X.At w o' → ((∃ a, o'.ev = .rmw a) ∨ o'.ins.isSC = true) →
    (o.ev.acc.aq = true ∨ o.ev.acc.full = true) → X.rank w < X.rank n
end AxShape

/-- `n` is the last access of kind `kd` of item `k` of thread `t`, an operation. -/
def IsLast {W : Nat} (items : Nat → List (Item W)) (t k : Nat) (kd : AKind) (n : Node) : Prop :=
  ∃ d q, (items t)[k]? = some (.op d) ∧ LastAccess ((owns d.tr).map Own.ev) kd q ∧ n = ⟨t, off (items t) k + q, kd⟩

/-- Operation `k` of thread `i` synchronizes with operation `l` of thread `j`. -/
inductive Sync {W : Nat} (X : AxShape W) (items : Nat → List (Item W)) : (i k j l : Nat) → Prop
  /-- The acquiring operation reads some byte from the write of the releasing operation or from a newer write to
  this byte: one of another thread, or one by any operation of its own thread except a store to this byte (a read-modify-write
  operation, or an operation on another object that rewrites the byte because it is in the same machine word). -/
  | direct {i k j l : Nat} {d d' : Done W} {w0 w r : Node} {x : Nat} {v : BitVec 8} (hij : i ≠ j)
      (hd : (items i)[k]? = some (.op d)) (hrel : d.Releases) (hw0 : IsLast items i k .wr w0) (hx : X.WritesByte w0 x v)
      (hd' : (items j)[l]? = some (.op d')) (hacq : d'.Acquires) (hr : IsLast items j l .rd r) (hf : X.From w r x)
      (hle : X.rank w0 ≤ X.rank w)
      (hown : w.thread ≠ j ∨ ∃ u du, (items j)[u]? = some (.op du) ∧ ¬ du.call.Overwrites x ∧ IsLast items j u .wr w) :
      Sync X items i k j l
  | trans {i k j l m t n : Nat} (h : Sync X items i k j l) (hlm : l ≤ m) (h' : Sync X items j m t n) : Sync X items i k t n

/-- C44. If operation `k` of thread `i` synchronizes with operation `l` of thread `j`, then everything thread `i` did before
the former precedes everything thread `j` does after the latter, and reads of thread `j` after the latter see what
thread `i` wrote before the former, or something newer. -/
def Backend.Synchronizes {W : Nat} (A : Backend W) (P : Call → Prop) : Prop :=
  ∀ (X : AxShape W) (items : Nat → List (Item W)), AxExec A.imp X → X.LocalForward →
    (∀ t, X.po t = (items t).flatMap Item.code) → (∀ t d, Item.op d ∈ items t → d.OK A ∧ P d.call ∧ IsSize d.call.width) →
    ∀ i k j l, Sync X items i k j l → ∀ (p q : Nat) (kd kd' : AKind) (o o' : Own W),
      X.At ⟨i, p, kd⟩ o → p < off (items i) k → X.At ⟨j, q, kd'⟩ o' → off (items j) (l + 1) ≤ q →
      X.rank ⟨i, p, kd⟩ < X.rank ⟨j, q, kd'⟩ ∧
      ∀ x v w, X.WritesByte ⟨i, p, kd⟩ x v → X.From w ⟨j, q, kd'⟩ x → X.rank ⟨i, p, kd⟩ ≤ X.rank w

/-- Is it a load or a read-modify-write instruction? -/
def Instr.isPlainRead {W : Nat} : Instr W → Bool
  | .ld .. | .rmw .. => true
  | _ => false
/-- No block mixes store-conditionals and reads other than load-linked. -/
def Backend.Paired {W : Nat} (A : Backend W) : Prop :=
  ∀ c (B : Block W c.width), A.Runs c B → ∀ i ∈ B.code, ∀ j ∈ B.code, j.isSC = true → i.isPlainRead = false

end Verif
