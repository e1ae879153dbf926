/-
C42: operations on one object are coherent, whatever their orderings, on any machine.

`CohExec` assumes of the machine only what every architecture (also one that is not multi-copy atomic, such as PowerPC,
Armv7 or MIPS) promises about single locations: all writes to a byte are in one coherence order that every thread's
program order respects in the four usual ways (write-write, read-write, write-read, read-read), a read does not mix an old
and a new value of what one instruction wrote, and read-modify-write instructions and successful load-linked/
store-conditional pairs follow immediately, in the coherence order, what they read. No order between
different locations is assumed, so no barrier matters.
-/
import Verif.Weak.SCProof
import Verif.Access.Spec

namespace Verif

/-- A naturally aligned access of a usual size. -/
def Own.Natural {W : Nat} (o : Own W) : Prop := ∃ x b, o.ins.access o.rs = some (x, b) ∧ IsSize b ∧ x % (b / 8) = 0

namespace AxShape
variable {W : Nat} (X : AxShape W)
/-- Access `n` is a naturally aligned read of byte `x` by instruction `o`. -/
def Rd (n : Node) (o : Own W) (x : Nat) : Prop := X.At n o ∧ n.kind = .rd ∧ o.Natural ∧ o.reads x
/-- Access `n` is a naturally aligned write of byte `x` by instruction `o`. -/
def Wr (n : Node) (o : Own W) (x : Nat) : Prop := X.At n o ∧ n.kind = .wr ∧ o.Natural ∧ o.writes x
/-- In the coherence order, `n` comes after `s` (if that is a write), and of the writes to byte `x` that satisfy `Q` none
comes between. -/
def Follows (Q : Node → Prop) (x : Nat) (s : Option Node) (n : Node) : Prop :=
  (∀ w, s = some w → X.rank w < X.rank n) ∧
    ∀ w o, Q w → X.Wr w o x → X.rank w < X.rank n → ∃ w', s = some w' ∧ X.rank w ≤ X.rank w'
end AxShape

/-- A coherent execution. `rank` is the place of a write in the coherence order of the bytes it writes (between writes
to different bytes it means nothing); `rf n x` is the write from which the read `n` takes byte `x`, none for the
initial content. All but `value` is about naturally aligned accesses only. -/
structure CohExec {W : Nat} (X : AxShape W) (rf : Node → Nat → Option Node) : Prop where
  /-- what is read was written -/
  value : ∀ n o x, X.At n o → n.kind = .rd → o.reads x →
    (∀ w, rf n x = some w → X.WritesByte w x (o.m x)) ∧ (rf n x = none → o.m x = X.m0 x)
  /-- different writes have different places -/
  inj : ∀ n o x n' o' x', X.Wr n o x → X.Wr n' o' x' → X.rank n = X.rank n' → n = n'
  /-- single-copy atomicity: a read that takes byte `x` from a write takes every other byte of that write from it or from a
  newer one -/
  single : ∀ n o x y w o', X.Rd n o x → X.Rd n o y → rf n x = some w → X.Wr w o' y →
    ∃ w', rf n y = some w' ∧ X.rank w ≤ X.rank w'
  coWW : ∀ n n' o o' x, n.thread = n'.thread → n.pos < n'.pos → X.Wr n o x → X.Wr n' o' x → X.rank n < X.rank n'
  coRW : ∀ n n' o o' x w, n.thread = n'.thread → n.pos < n'.pos → X.Rd n o x → X.Wr n' o' x → rf n x = some w →
    X.rank w < X.rank n'
  coWR : ∀ n n' o o' x, n.thread = n'.thread → n.pos < n'.pos → X.Wr n o x → X.Rd n' o' x →
    ∃ w, rf n' x = some w ∧ X.rank n ≤ X.rank w
  coRR : ∀ n n' o o' x w, n.thread = n'.thread → n.pos < n'.pos → X.Rd n o x → X.Rd n' o' x → rf n x = some w →
    ∃ w', rf n' x = some w' ∧ X.rank w ≤ X.rank w'
  /-- read-modify-write instructions are atomic -/
  rmw : ∀ n n' o x, n.thread = n'.thread → n.pos = n'.pos → X.Rd n o x → X.Wr n' o x →
    X.Follows (fun _ => True) x (rf n x) n'
  /-- a load-linked and the successful store-conditional that follows it are not interrupted by other threads -/
  llsc : ∀ n n' l s x, n.thread = n'.thread → n.pos < n'.pos → X.Rd n l x → X.Wr n' s x → l.ins.isLL = true →
    s.ins.isSC = true → (∀ q o, n.pos < q → q < n'.pos → (X.po n.thread)[q]? = some o → o.ins.isLL = false) →
    X.Follows (fun w => w.thread ≠ n.thread) x (rf n x) n'

instance (c : Call) (w a : Nat) : Decidable (c.On w a) := inferInstanceAs (Decidable (_ ∧ _))

/-- The call is on an aligned object which is the `w`-bit object at `a` or disjoint from it. -/
def Call.OnOrOff (c : Call) (w a : Nat) : Prop := IsSize c.width ∧ c.addr % (c.width / 8) = 0 ∧ (c.On w a ∨ c.Off w a)

/-- C42. Any number of threads execute operations, with any orderings, on any aligned objects and, between
them, anything else that does not write the object at `a`. Then in every coherent execution there is one sequence
of all operations on the object, containing those of each thread in program order, that gives the same
answers if they are executed one after the other; it leaves in the object the newest bytes. -/
def Backend.Coherent {W : Nat} (A : Backend W) (P : Call → Prop) : Prop :=
  ∀ (X : AxShape W) (rf : Node → Nat → Option Node) (N : Nat) (items : Nat → List (Item W)) (a w : Nat), CohExec X rf →
    IsSize w → a % (w / 8) = 0 → (∀ t, N ≤ t → items t = []) → (∀ t, X.po t = (items t).flatMap Item.code) →
    (∀ t d, Item.op d ∈ items t → d.OK A ∧ P d.call ∧ d.call.OnOrOff w a) →
    (∀ t o x, Item.other o ∈ items t → a ≤ x → x < a + w / 8 → ¬ o.writes x) →
    ∃ (seq : List (Nat × Call × Ret)) (m : Mem), Legal A.e X.m0 seq m ∧
      (∀ t, ofThread t seq = ((opsOf (items t)).filter fun d => d.call.On w a).map fun d => (t, d.call, d.ret)) ∧
      ∀ x, a ≤ x → x < a + w / 8 → X.Newest (fun _ => True) x (m x)

end Verif
