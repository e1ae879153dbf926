/-
C41 on machines that are not multi-copy atomic (PowerPC, Armv7, MIPS): no global memory order is assumed.

`NMExec` assumes of the machine what `CohExec` (Weak/Coherence.lean) promises about single locations, and one axiom about
barriers, a consequence of the PROPAGATION axiom of the Power/Arm model of Alglave, Maranget and Tautschnig ("Herding
cats", 2014): the relation com*;ffence has no cycle, where com is the union of read-from, coherence and from-read and
ffence relates accesses with a full barrier between them (PowerPC `sync`, Armv7 `dmb`, MIPS `sync`). Two threads may see
writes of other threads to different objects in different orders.
-/
import Verif.Weak.CoherenceProof

namespace Verif

/-- Any number of steps. -/
inductive Star {α : Type} (R : α → α → Prop) : α → α → Prop
  | refl (a : α) : Star R a a
  | tail {a b c : α} (h : Star R a b) (hs : R b c) : Star R a c
/-- At least one step. -/
inductive Plus {α : Type} (R : α → α → Prop) : α → α → Prop
  | one {a b : α} (hs : R a b) : Plus R a b
  | tail {a b c : α} (h : Plus R a b) (hs : R b c) : Plus R a c

namespace AxShape
variable {W : Nat} (X : AxShape W)

/-- Communication: `b` reads from `a`; `b` comes after `a` in the coherence order; `a` reads something older than `b`. -/
def Com (rf : Node → Nat → Option Node) (a b : Node) : Prop :=
  ∃ o o' x, (X.Wr a o x ∧ X.Rd b o' x ∧ rf b x = some a) ∨ (X.Wr a o x ∧ X.Wr b o' x ∧ X.rank a < X.rank b) ∨
    (X.Rd a o x ∧ X.Wr b o' x ∧ ∀ w, rf a x = some w → X.rank w < X.rank b)

/-- `a` comes before `b` in the program order of their thread, with a full barrier between them, or one of the two has full
barriers on both sides (the helpers of the Linux kernel for Arm). (On these architectures the barriers that keep a write before
a later read are the full ones.) -/
def Fenced (a b : Node) : Prop :=
  a.thread = b.thread ∧ a.pos < b.pos ∧ ∃ oa ob, X.At a oa ∧ X.At b ob ∧
    ((∃ q o p, a.pos < q ∧ q < b.pos ∧ (X.po a.thread)[q]? = some o ∧ o.ev = .fence p ∧ p.wr = true) ∨
      oa.ev.acc.full = true ∨ ob.ev.acc.full = true)
end AxShape

/-- A consistent execution of a machine that need not be multi-copy atomic. -/
structure NMExec {W : Nat} (X : AxShape W) (rf : Node → Nat → Option Node) : Prop extends CohExec X rf where
  /-- full barriers are cumulative -/
  propagation : ∀ n, ¬ Plus (fun a b => ∃ c, Star (X.Com rf) a c ∧ X.Fenced c b) n n

/-- The two calls are on the same object, or on disjoint ones. -/
def Call.SameOrApart (c d : Call) : Prop := c.On d.width d.addr ∨ c.Off d.width d.addr

/-- C41 without multi-copy atomicity. Any number of threads execute operations, whose calls satisfy `P`, on any number of
aligned objects that do not overlap and, between them, anything else that does not write these objects. Then in every
consistent execution there is one sequence of all these operations, containing those of each thread in program
order, that gives the same answers if they are executed one after the other; it leaves in the objects the newest bytes. -/
def Backend.SCOnNonMCA {W : Nat} (A : Backend W) (P : Call → Prop) : Prop :=
  ∀ (X : AxShape W) (rf : Node → Nat → Option Node) (N : Nat) (items : Nat → List (Item W)), NMExec X rf →
    (∀ t, N ≤ t → items t = []) → (∀ t, X.po t = (items t).flatMap Item.code) →
    (∀ t d, Item.op d ∈ items t → d.OK A ∧ P d.call ∧ IsSize d.call.width ∧ d.call.addr % (d.call.width / 8) = 0) →
    (∀ t d t' d', Item.op d ∈ items t → Item.op d' ∈ items t' → d.call.SameOrApart d'.call) →
    (∀ t o t' d x, Item.other o ∈ items t → Item.op d ∈ items t' → d.call.addr ≤ x → x < d.call.addr + d.call.width / 8 →
      ¬ o.writes x) →
    ∃ (seq : List (Nat × Call × Ret)) (m : Mem), Legal A.e X.m0 seq m ∧
      (∀ t, ofThread t seq = (opsOf (items t)).map fun d => (t, d.call, d.ret)) ∧
      ∀ t d x, Item.op d ∈ items t → d.call.addr ≤ x → x < d.call.addr + d.call.width / 8 →
        X.Newest (fun _ => True) x (m x)

end Verif
