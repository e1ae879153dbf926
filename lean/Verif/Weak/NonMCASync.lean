/-
C44 on machines that are not multi-copy atomic (PowerPC, Armv7, MIPS): no global memory order is assumed.

`RAExec` assumes of the machine what `CohExec` (Weak/Coherence.lean) promises about single locations and the axioms of the
Power/Arm model of Alglave, Maranget and Tautschnig ("Herding cats", 2014) that concern barriers: NO THIN AIR (happens-before has
no cycle), OBSERVATION (irreflexive fre;prop;hb*) and PROPAGATION (acyclic co ∪ prop), with that part of prop that is built from
barriers between writes (prop-base ∩ W×W). Happens-before contains what the thread's own barriers and dependencies
keep in order (a control dependency followed by `isync` is a barrier `rr`, `rw` of the model), reading another thread's write,
and, not in that paper, the order of the load and the store of one read-modify-write: a store-conditional does not succeed before
its load-linked has been performed.
-/
import Verif.Weak.NonMCA
import Verif.Weak.Sync

namespace Verif

namespace AxShape
variable {W : Nat} (X : AxShape W)

/-- The read and the write of a read-modify-write instruction, or of a load-linked and the successful store-conditional that
follows it. -/
def ReadWrite (a b : Node) : Prop :=
  a.thread = b.thread ∧ a.kind = .rd ∧ b.kind = .wr ∧ ∃ l s, X.At a l ∧ X.At b s ∧
    (a.pos = b.pos ∨ (a.pos < b.pos ∧ l.ins.isLL = true ∧ s.ins.isSC = true ∧
      ∀ q o, a.pos < q → q < b.pos → (X.po a.thread)[q]? = some o → o.ins.isLL = false))

/-- `r` reads some byte from the write `w` of another thread. -/
def ReadsOther (rf : Node → Nat → Option Node) (w r : Node) : Prop :=
  w.thread ≠ r.thread ∧ ∃ o o' x, X.Wr w o x ∧ X.Rd r o' x ∧ rf r x = some w

/-- hb: kept in program order, or read from another thread, or the two halves of a read-modify-write. -/
def Hb (imp : Pairs) (rf : Node → Nat → Option Node) (a b : Node) : Prop :=
  (a.thread = b.thread ∧ Ppo imp ((X.po a.thread).map Own.ev) a.pos a.kind b.pos b.kind) ∨ X.ReadsOther rf a b ∨ X.ReadWrite a b

/-- `b` is separated from `a`, which comes before it in program order, by a cumulative barrier: one that orders reads and
writes before writes (PowerPC `lwsync`, `sync`; Armv7 `dmb`; MIPS `sync`), or by those of the helpers of the Linux kernel for Arm. -/
def Cumul (a b : Node) : Prop :=
  a.thread = b.thread ∧ a.pos < b.pos ∧ ∃ oa ob, X.At a oa ∧ X.At b ob ∧
    ((∃ q o p, a.pos < q ∧ q < b.pos ∧ (X.po a.thread)[q]? = some o ∧ o.ev = .fence p ∧ p.rw = true ∧ p.ww = true ∧
      p.keeps a.kind b.kind = true) ∨ oa.ev.acc.full = true ∨ ob.ev.acc.full = true)

/-- prop, between writes: `a`, or a read of `a` by another thread, is separated by a cumulative barrier from what happens before or is `b`. -/
def Propagates (imp : Pairs) (rf : Node → Nat → Option Node) (a b : Node) : Prop :=
  a.kind = .wr ∧ b.kind = .wr ∧ ∃ c d, (c = a ∨ X.ReadsOther rf a c) ∧ X.Cumul c d ∧ Star (X.Hb imp rf) d b

/-- co: `b` is newer than `a`. -/
def Newer (a b : Node) : Prop := ∃ o o' x, X.Wr a o x ∧ X.Wr b o' x ∧ X.rank a < X.rank b
end AxShape

/-- A consistent execution of a machine that need not be multi-copy atomic. -/
structure RAExec {W : Nat} (imp : Pairs) (X : AxShape W) (rf : Node → Nat → Option Node) : Prop extends CohExec X rf where
  thinAir : ∀ n, ¬ Plus (X.Hb imp rf) n n
  observation : ∀ a b c o o' x, X.Wr a o x → X.Rd b o' x → b.thread ≠ a.thread → (∀ w, rf b x = some w → X.rank w < X.rank a) →
    X.Propagates imp rf a c → ¬ Star (X.Hb imp rf) c b
  propagation : ∀ n, ¬ Plus (fun a b => X.Newer a b ∨ X.Propagates imp rf a b) n n

/-- The write `w` to byte `x` carries what was released by operation `k` of thread `i`: it is the write of this operation or of a later
one of this thread, or of an operation, other than a store to this byte, of another thread than that of the write, carrying the same, from which it
reads byte `x`. (A release sequence, of any length.) -/
inductive Carries {W : Nat} (X : AxShape W) (rf : Node → Nat → Option Node) (items : Nat → List (Item W)) (i k x : Nat) : Node → Prop
  | own {k' : Nat} {w : Node} {v : BitVec 8} (hk : k ≤ k') (hw : IsLast items i k' .wr w) (hx : X.WritesByte w x v) :
      Carries X rf items i k x w
  | update {w r w' : Node} {t u : Nat} {d : Done W} {o : Own W} {v : BitVec 8} (h : Carries X rf items i k x w) (hd : (items t)[u]? = some (.op d))
      (hU : ¬ d.call.Overwrites x) (hr : IsLast items t u .rd r) (ho : X.At r o) (hx : o.reads x) (hrf : rf r x = some w) (ht : w.thread ≠ t)
      (hw' : IsLast items t u .wr w') (hx' : X.WritesByte w' x v) : Carries X rf items i k x w'

/-- Operation `k` of thread `i` synchronizes with operation `l` of thread `j`. -/
inductive NSync {W : Nat} (X : AxShape W) (rf : Node → Nat → Option Node) (items : Nat → List (Item W)) : (i k j l : Nat) → Prop
  /-- The acquiring operation reads some byte from a write of another thread that carries what the releasing operation released. -/
  | direct {i k j l : Nat} {d d' : Done W} {w r : Node} {o : Own W} {x : Nat}
      (hd : (items i)[k]? = some (.op d)) (hrel : d.Releases) (hw : Carries X rf items i k x w)
      (hd' : (items j)[l]? = some (.op d')) (hacq : d'.Acquires) (hr : IsLast items j l .rd r) (ho : X.At r o) (hx : o.reads x)
      (hrf : rf r x = some w) (hj : w.thread ≠ j) : NSync X rf items i k j l
  | trans {i k j l m t n : Nat} (h : NSync X rf items i k j l) (hlm : l ≤ m) (h' : NSync X rf items j m t n) : NSync X rf items i k t n

/-- `a` happens before `b`, as far as one byte shows: of what they read or write, that of `a` is not newer than that of `b`
(write-write, write-read, read-write and read-read coherence). -/
def AxShape.Precedes {W : Nat} (X : AxShape W) (rf : Node → Nat → Option Node) (a b : Node) : Prop :=
  ∀ oa ob x,
    (X.Wr a oa x → X.Wr b ob x → X.rank a < X.rank b) ∧
    (X.Wr a oa x → X.Rd b ob x → ∃ w, rf b x = some w ∧ X.rank a ≤ X.rank w) ∧
    (∀ w ow, X.Rd a oa x → rf a x = some w → X.Wr w ow x → X.Wr b ob x → X.rank w < X.rank b) ∧
    (∀ w ow, X.Rd a oa x → rf a x = some w → X.Wr w ow x → X.Rd b ob x → ∃ w', rf b x = some w' ∧ X.rank w ≤ X.rank w')

/-- C44 without multi-copy atomicity. Any number of threads execute operations on aligned objects and, between them, anything. If
operation `k` of thread `i` synchronizes with operation `l` of thread `j`, then everything thread `i` did before the former
happens before everything thread `j` does after the latter. -/
def Backend.SyncOnNonMCA {W : Nat} (A : Backend W) (P : Call → Prop) : Prop :=
  ∀ (X : AxShape W) (rf : Node → Nat → Option Node) (items : Nat → List (Item W)), RAExec A.imp X rf →
    (∀ t, X.po t = (items t).flatMap Item.code) →
    (∀ t d, Item.op d ∈ items t → d.OK A ∧ P d.call ∧ IsSize d.call.width ∧ d.call.addr % (d.call.width / 8) = 0) →
    ∀ i k j l, NSync X rf items i k j l → ∀ (p q : Nat) (kd kd' : AKind) (o o' : Own W),
      X.At ⟨i, p, kd⟩ o → p < off (items i) k → X.At ⟨j, q, kd'⟩ o' → off (items j) (l + 1) ≤ q →
      X.Precedes rf ⟨i, p, kd⟩ ⟨j, q, kd'⟩

/-- Barriers that order writes also order reads before writes, and accesses have no release annotation. -/
def Instr.barriersOnly {W : Nat} : Instr W → Bool
  | .fence p => !p.ww || p.rw
  | .ld a .. | .st a .. | .ll a .. | .sc a .. | .rmw a .. => !a.rl
  | _ => true
/-- All blocks are of such instructions. -/
def Backend.BarriersOnly {W : Nat} (A : Backend W) : Prop :=
  ∀ c (B : Block W c.width), A.Runs c B → ∀ i ∈ B.code, i.barriersOnly = true

end Verif
