/-
C41: SeqCst operations are sequentially consistent, on machines whose memory model is axiomatic.

`AxExec` is an execution of any number of threads in the style of RVWMO, x86-TSO, SPARC TSO/RMO, z/Architecture and
the multi-copy-atomic Armv8 model: all memory accesses of all threads have a place in one global memory order, which
need not contain the program order. It contains the pairs of accesses the instruction set keeps in order (`Ppo`,
Weak/Spec.lean); a read takes for each byte the newest write in that order or in its own program order (store
forwarding); read-modify-write instructions and load-linked/store-conditional pairs are not interrupted by other threads'
writes. Nothing else is assumed. (PowerPC, Armv7 and MIPS are not multi-copy atomic; for them this is an assumption on
the machine.)

The values in the execution are those of the machine of Core/Machine.lean: the threads execute the instructions of the
back end.
-/
import Verif.Weak.Proof
import Verif.Core.Local
import Verif.Lin.SC
import Verif.TSO.Machine

namespace Verif

/-- An executed instruction of a thread, with the memory it saw and left. (Only the bytes it accessed matter.) -/
structure Own (W : Nat) where
  ins : Instr W
  rs : RS W
  ev : Ev
  m : Mem
  m' : Mem

/-- The thread's own instructions. -/
def owns {W : Nat} (tr : List (LEv W)) : List (Own W) :=
  tr.filterMap fun | .own ins rs ev m m' => some ⟨ins, rs, ev, m, m'⟩ | .env _ _ => none

/-- The instruction reads byte `x`. -/
def Own.reads {W : Nat} (o : Own W) (x : Nat) : Prop :=
  (o.ins.rdFoot o.rs).1 ≤ x ∧ x < (o.ins.rdFoot o.rs).1 + (o.ins.rdFoot o.rs).2
/-- The instruction writes byte `x`. -/
def Own.writes {W : Nat} (o : Own W) (x : Nat) : Prop :=
  o.ev.isWrite = true ∧ (o.ins.wrFoot o.rs).1 ≤ x ∧ x < (o.ins.wrFoot o.rs).1 + (o.ins.wrFoot o.rs).2

/-- Threads, initial memory and the place of every access in the global memory order. -/
structure AxShape (W : Nat) where
  /-- the executed instructions of each thread, in program order -/
  po : Nat → List (Own W)
  m0 : Mem
  /-- place in the global memory order -/
  rank : Node → Nat

namespace AxShape
variable {W : Nat} (X : AxShape W)

/-- Access `n` of the execution is an access of instruction `o`. -/
def At (n : Node) (o : Own W) : Prop := (X.po n.thread)[n.pos]? = some o ∧ o.ev.has n.kind
/-- Access `n` writes the value `v` to byte `x`. -/
def WritesByte (n : Node) (x : Nat) (v : BitVec 8) : Prop := n.kind = .wr ∧ ∃ o, X.At n o ∧ o.writes x ∧ o.m' x = v
/-- `v` is the value of byte `x` after the writes in `S`. -/
def Newest (S : Node → Prop) (x : Nat) (v : BitVec 8) : Prop :=
  (∃ n, S n ∧ X.WritesByte n x v ∧ ∀ n' v', S n' → X.WritesByte n' x v' → X.rank n' ≤ X.rank n) ∨
  ((∀ n v', S n → ¬ X.WritesByte n x v') ∧ v = X.m0 x)
/-- No write of another thread to a byte in `F` comes between `a` and `b` in the global memory order. -/
def Uninterrupted (F : Nat → Prop) (a b : Node) : Prop :=
  X.rank a < X.rank b ∧
    ∀ n x v, n.thread ≠ a.thread → F x → X.WritesByte n x v → ¬ (X.rank a < X.rank n ∧ X.rank n < X.rank b)
end AxShape

/-- A consistent execution on an architecture that keeps the pairs `imp` in order without barriers. -/
structure AxExec {W : Nat} (imp : Pairs) (X : AxShape W) : Prop where
  /-- different accesses have different places -/
  inj : ∀ n o n' o', X.At n o → X.At n' o' → X.rank n = X.rank n' → n = n'
  /-- what the instruction set keeps in order is so ordered -/
  ppo : ∀ t i k j k', Ppo imp ((X.po t).map Own.ev) i k j k' → X.rank ⟨t, i, k⟩ < X.rank ⟨t, j, k'⟩
  /-- load value: each byte read comes from the newest write among those that precede the read in the global memory
  order and those that precede it in its own program order -/
  value : ∀ n o x, X.At n o → n.kind = .rd → o.reads x →
    X.Newest (fun w => X.rank w < X.rank n ∨ (w.thread = n.thread ∧ w.pos < n.pos)) x (o.m x)
  /-- read-modify-write instructions are atomic -/
  rmw : ∀ t p o, X.At ⟨t, p, .rd⟩ o → X.At ⟨t, p, .wr⟩ o → X.Uninterrupted o.reads ⟨t, p, .rd⟩ ⟨t, p, .wr⟩
  /-- a load-linked and the successful store-conditional that follows it are atomic -/
  llsc : ∀ t i j l s, i < j → X.At ⟨t, i, .rd⟩ l → X.At ⟨t, j, .wr⟩ s → l.ins.isLL = true → s.ins.isSC = true →
    (∀ q o, i < q → q < j → (X.po t)[q]? = some o → o.ins.isLL = false) →
    X.Uninterrupted s.writes ⟨t, i, .rd⟩ ⟨t, j, .wr⟩

/-- A finished operation: the call, the block, the labelled run and the final registers. -/
structure Done (W : Nat) where
  call : Call
  B : Block W call.width
  tr : List (LEv W)
  rs : RS W
/-- It is an operation of back end `A`. -/
def Done.OK {W : Nat} (A : Backend W) (d : Done W) : Prop :=
  A.Runs d.call d.B ∧ ∃ c0 c : Cfg W, c0.pc = 0 ∧ c0.resv = none ∧ d.B.pre c0.rs ∧ LRun A.e d.B.code c0 d.tr c ∧
    c.pc = d.B.code.length ∧ c.rs = d.rs
/-- Its answer. -/
def Done.ret {W : Nat} (d : Done W) : Ret := d.call.result d.B d.rs

/-- What a thread executes: operations and, between them, any other instructions. -/
inductive Item (W : Nat) where
  | op (d : Done W)
  | other (o : Own W)
/-- the instructions -/
def Item.code {W : Nat} : Item W → List (Own W)
  | .op d => owns d.tr
  | .other o => [o]
/-- the operations -/
def opsOf {W : Nat} (l : List (Item W)) : List (Done W) := l.filterMap fun | .op d => some d | .other _ => none

/-- C41. Any number of threads execute operations whose calls satisfy `P` and, between them, anything else that does not
write the bytes these operations access. Then in every consistent execution there is one sequence of all these operations,
containing those of each thread in program order, that gives the same answers if they are executed one after
the other; it leaves in memory what the execution left (in the bytes not written by others). -/
def Backend.SCOnWeak {W : Nat} (A : Backend W) (P : Call → Prop) : Prop :=
  ∀ (X : AxShape W) (N : Nat) (items : Nat → List (Item W)), AxExec A.imp X → (∀ t, N ≤ t → items t = []) →
    (∀ t, X.po t = (items t).flatMap Item.code) →
    (∀ t d, Item.op d ∈ items t → d.OK A ∧ P d.call) →
    (∀ t o t' d o' x, Item.other o ∈ items t → Item.op d ∈ items t' → o' ∈ owns d.tr → o.writes x →
      ¬ o'.reads x ∧ ¬ o'.writes x) →
    ∃ (seq : List (Nat × Call × Ret)) (m : Mem), Legal A.e X.m0 seq m ∧
      (∀ t, ofThread t seq = (opsOf (items t)).map fun d => (t, d.call, d.ret)) ∧
      ∀ x, (∀ t o, Item.other o ∈ items t → ¬ o.writes x) → X.Newest (fun _ => True) x (m x)

end Verif
