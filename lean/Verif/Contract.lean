/-
What an architecture back end is (blocks of inline assembly, one relation per operation), and the
properties the crate promises, stated once for every back end.

Nothing in this file depends on a particular architecture or on how the properties are proved.
-/
import Verif.Spec
import Verif.Core.Ordering

namespace Verif

/-- An input operand of an `asm!` block: register `reg` receives the `n`-bit value `v`.
Rust reference: if the value is narrower than the register, the upper bits are undefined. -/
structure Arg where
  reg : Nat
  n : Nat
  v : BitVec n

/-- One `asm!` block together with the Rust code around it, for an object of `w` bits, on a machine
with `W`-bit registers. -/
structure Block (W w : Nat) where
  /-- the instruction sequence -/
  code : List (Instr W)
  /-- input operands -/
  args : List Arg
  /-- registers declared as outputs or clobbers -/
  outs : Nat → Prop
  /-- `options(preserves_flags)` -/
  keepsFlags : Bool := true
  /-- the bits returned to the caller, from the final registers -/
  out : RS W → BitVec w := fun _ => 0
  /-- the boolean returned to the caller (compare_exchange), from the final registers -/
  ok : RS W → Bool := fun _ => true
  /-- what the Rust code asserts with `assert_unchecked` afterwards -/
  assumes : RS W → Prop := fun _ => True

/-- The register states in which the compiler may start the block: every input operand is in its
register, all other bits and registers are arbitrary. -/
def Block.pre {W w : Nat} (B : Block W w) : RS W → Prop :=
  fun rs => ∀ x ∈ B.args, (rs.r x.reg).setWidth x.n = x.v

/-- A back end. `imp` are the pairs of accesses the architecture keeps in program order without any
barrier. Each relation lists the blocks the back end may execute for the operation on the `w`-bit
object at address `a`. -/
structure Backend (W : Nat) where
  e : Endian
  imp : Pairs
  Load : Ordering → (w a : Nat) → Block W w → Prop
  Store : Ordering → (w a : Nat) → BitVec w → Block W w → Prop
  Swap : Ordering → (w a : Nat) → BitVec w → Block W w → Prop
  Cas : Ordering → Ordering → (w a : Nat) → BitVec w → BitVec w → Block W w → Prop
  CasWeak : Ordering → Ordering → (w a : Nat) → BitVec w → BitVec w → Block W w → Prop

/-- `tr` is the trace of a completed run of the block that ends in registers `rs`. -/
def Block.Completed {W w : Nat} (e : Endian) (B : Block W w) (tr : List TEv) (rs : RS W) : Prop :=
  ∃ c0 c : Cfg W, c0.pc = 0 ∧ B.pre c0.rs ∧ Run e B.code c0 tr c ∧ c.pc = B.code.length ∧ c.rs = rs

/-- In every completed run of the block, whatever the environment does meanwhile, exactly one own
step `m → m'` satisfies `post m m' (final registers)` and no other own step changes memory. -/
def Block.Atomic {W w : Nat} (e : Endian) (B : Block W w) (post : Mem → Mem → RS W → Prop) : Prop :=
  ∀ tr rs, B.Completed e tr rs → AtomicTrace tr (fun m m' => post m m' rs)

namespace Backend
variable {W : Nat} (A : Backend W)

/-- C01. Every `load` reads the object's bits at one instant. -/
def LoadsAtomic : Prop := ∀ o w a B, A.Load o w a B →
  B.Atomic A.e fun m m' rs => LoadSpec A.e a w m m' (B.out rs)

/-- C02. Every `store` replaces the object's bits at one instant. -/
def StoresAtomic : Prop := ∀ o w a val B, A.Store o w a val B →
  B.Atomic A.e fun m m' _ => StoreSpec A.e a w val m m'

/-- C03. Every `swap` reads and replaces the object's bits at one instant. -/
def SwapsAtomic : Prop := ∀ o w a val B, A.Swap o w a val B →
  B.Atomic A.e fun m m' rs => SwapSpec A.e a w val m m' (B.out rs)

/-- C04. Every `compare_exchange` compares and conditionally replaces the object's bits at one
instant and succeeds exactly if they were equal to `old`. -/
def CasAtomic : Prop := ∀ s f w a old new B, A.Cas s f w a old new B →
  B.Atomic A.e fun m m' rs => CasSpec A.e a w old new m m' (B.out rs) (B.ok rs)

/-- C05. Every `compare_exchange_weak` does the same, except that it may fail spuriously. -/
def WeakCasAtomic : Prop := ∀ s f w a old new B, A.CasWeak s f w a old new B →
  B.Atomic A.e fun m m' rs => WeakCasSpec A.e a w old new m m' (B.out rs) (B.ok rs)

/-- A completed run of an operation whose read must have acquire semantics. -/
inductive AcquireRun : List TEv → Prop
  | load {o w a B tr rs} (h : A.Load o w a B) (ho : o.acquires = true) (hr : B.Completed A.e tr rs) :
      AcquireRun tr
  | swap {o w a v B tr rs} (h : A.Swap o w a v B) (ho : o.acquires = true)
      (hr : B.Completed A.e tr rs) : AcquireRun tr
  | cas {s f w a old new B tr rs} (h : A.Cas s f w a old new B ∨ A.CasWeak s f w a old new B)
      (ho : s.acquires = true) (hr : B.Completed A.e tr rs) (hok : B.ok rs = true) : AcquireRun tr

/-- C13. The read of an acquiring operation is ordered before everything after the operation. -/
def AcquireOK : Prop := ∀ tr, A.AcquireRun tr → Acquires A.imp (monOf tr) = true

/-- A completed run of an operation whose write must have release semantics. -/
inductive ReleaseRun : List TEv → Prop
  | store {o w a v B tr rs} (h : A.Store o w a v B) (ho : o.releases = true)
      (hr : B.Completed A.e tr rs) : ReleaseRun tr
  | swap {o w a v B tr rs} (h : A.Swap o w a v B) (ho : o.releases = true)
      (hr : B.Completed A.e tr rs) : ReleaseRun tr
  | cas {s f w a old new B tr rs} (h : A.Cas s f w a old new B ∨ A.CasWeak s f w a old new B)
      (ho : s.releases = true) (hr : B.Completed A.e tr rs) (hok : B.ok rs = true) : ReleaseRun tr

/-- C14. The write of a releasing operation is ordered after everything before the operation. -/
def ReleaseOK : Prop := ∀ tr, A.ReleaseRun tr → Releases A.imp (monOf tr) = true

/-- C16. The read of a failed compare_exchange acquires if the failure ordering does. -/
def FailureOK : Prop := ∀ s f w a old new B tr rs,
  (A.Cas s f w a old new B ∨ A.CasWeak s f w a old new B) → f.acquires = true →
  B.Completed A.e tr rs → B.ok rs = false → Acquires A.imp (monOf tr) = true

/-- A completed run of a SeqCst operation. -/
inductive SeqCstRun : List TEv → Prop
  | load {w a B tr rs} (h : A.Load .seqCst w a B) (hr : B.Completed A.e tr rs) : SeqCstRun tr
  | store {w a v B tr rs} (h : A.Store .seqCst w a v B) (hr : B.Completed A.e tr rs) : SeqCstRun tr
  | swap {w a v B tr rs} (h : A.Swap .seqCst w a v B) (hr : B.Completed A.e tr rs) : SeqCstRun tr
  | casOk {f w a old new B tr rs}
      (h : A.Cas .seqCst f w a old new B ∨ A.CasWeak .seqCst f w a old new B)
      (hr : B.Completed A.e tr rs) (hok : B.ok rs = true) : SeqCstRun tr
  | casFail {s w a old new B tr rs}
      (h : A.Cas s .seqCst w a old new B ∨ A.CasWeak s .seqCst w a old new B)
      (hr : B.Completed A.e tr rs) (hok : B.ok rs = false) : SeqCstRun tr

/-- C15. All accesses of a SeqCst operation are ordered before all accesses of any later SeqCst
operation of the same thread. -/
def SeqCstOK : Prop := ∀ tr1 tr2, A.SeqCstRun tr1 → A.SeqCstRun tr2 →
  Ordered A.imp (monOf tr1) (monOf tr2) = true

/-- Some block of the back end. -/
inductive IsBlock : {w : Nat} → Block W w → Prop
  | load {o w a B} (h : A.Load o w a B) : IsBlock B
  | store {o w a v B} (h : A.Store o w a v B) : IsBlock B
  | swap {o w a v B} (h : A.Swap o w a v B) : IsBlock B
  | cas {s f w a old new B} (h : A.Cas s f w a old new B) : IsBlock B
  | casWeak {s f w a old new B} (h : A.CasWeak s f w a old new B) : IsBlock B

/-- C17. A block changes only the registers it declares, in every run, finished or not; and it leaves
the flags alone if it says so. -/
def ContractOK : Prop := ∀ {w : Nat} (B : Block W w), A.IsBlock B →
  Frame A.e B.code B.outs ∧ (B.keepsFlags = true → KeepsFlags A.e B.code)

/-- C17 as seen by the compiler: when a block is finished, every register it does not declare has its old
content (a block may save and restore a register it does not declare); and so have the flags, if it says so.
Follows from `ContractOK` (`ContractOK.done`). -/
def ContractDone : Prop := ∀ {w : Nat} (B : Block W w), A.IsBlock B → ∀ (c0 : Cfg W) tr c, c0.pc = 0 →
  B.pre c0.rs → Run A.e B.code c0 tr c → c.pc = B.code.length →
  (∀ j, ¬ B.outs j → c.rs.r j = c0.rs.r j) ∧
  (B.keepsFlags = true → c.rs.z = c0.rs.z ∧ c.rs.cc = c0.rs.cc)

theorem ContractOK.done {A : Backend W} (h : A.ContractOK) : A.ContractDone :=
  fun B hB c0 tr c _ _ hr _ => ⟨fun j hj => (h B hB).1 c0 tr c hr j hj, fun hk => (h B hB).2 hk c0 tr c hr⟩

/-- C19. What is asserted with `assert_unchecked` after a block is true. -/
def AssumesOK : Prop := ∀ {w : Nat} (B : Block W w) tr rs, A.IsBlock B →
  B.Completed A.e tr rs → B.assumes rs

/-- C06. No own step of any operation changes a byte outside the object. -/
def NeighboursOK : Prop := ∀ w a (B : Block W w) tr rs,
  ((∃ o, A.Load o w a B) ∨ (∃ o v, A.Store o w a v B) ∨ (∃ o v, A.Swap o w a v B) ∨
    (∃ s f old new, A.Cas s f w a old new B ∨ A.CasWeak s f w a old new B)) →
  B.Completed A.e tr rs →
  ∀ ev m m', TEv.own ev m m' ∈ tr → ∀ x, (x < a ∨ a + w / 8 ≤ x) → m' x = m x

/-- C11. For every supported object size, every naturally aligned object address (a `P`-bit pointer)
and every ordering the API accepts, the back end has a block: no accepted ordering runs into
`unreachable!()`. -/
structure Total (P : Nat) (size rmwSize : Nat → Prop) : Prop where
  load : ∀ o w (p : BitVec P), size w → p.toNat % (w / 8) = 0 → assertLoadOrdering o = .ok () →
    ∃ B, A.Load o w p.toNat B
  store : ∀ o w (p : BitVec P) v, size w → p.toNat % (w / 8) = 0 → assertStoreOrdering o = .ok () →
    ∃ B, A.Store o w p.toNat v B
  swap : ∀ o w (p : BitVec P) v, rmwSize w → p.toNat % (w / 8) = 0 → ∃ B, A.Swap o w p.toNat v B
  cas : ∀ s f w (p : BitVec P) old new, rmwSize w → p.toNat % (w / 8) = 0 →
    assertCompareExchangeOrdering s f = .ok () → ∃ B, A.Cas s f w p.toNat old new B
  casWeak : ∀ s f w (p : BitVec P) old new, rmwSize w → p.toNat % (w / 8) = 0 →
    assertCompareExchangeOrdering s f = .ok () → ∃ B, A.CasWeak s f w p.toNat old new B

end Backend
end Verif
