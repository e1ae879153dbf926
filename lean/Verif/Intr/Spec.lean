/-
Single-core back ends that make operations atomic by disabling interrupts (AVR, MSP430).

The instructions are those of Verif/Core/Machine.lean, but somebody else can run only in an interrupt, and
interrupts are taken between two instructions only while they are enabled.

Assumption about handlers (their ABI): a handler restores all registers and the status register before it
returns. What it does to memory is arbitrary.
-/
import Verif.Contract

namespace Verif

/-- A back end whose operations rely on interrupts being disabled; `ien` says in which register states
the processor takes interrupts. -/
structure IBackend (W : Nat) extends Backend W where
  ien : RS W → Bool

/-- Runs of program `P` from `c0`: own instructions, interleaved with interrupts (which change memory
arbitrarily) whenever interrupts are enabled. -/
inductive IRun (e : Endian) {W : Nat} (ien : RS W → Bool) (P : List (Instr W)) (c0 : Cfg W) :
    List TEv → Cfg W → Prop where
  | nil : IRun e ien P c0 [] c0
  | own {tr c i ev c'} (h : IRun e ien P c0 tr c) (hi : P[c.pc]? = some i) (hs : Step e i c ev c') :
      IRun e ien P c0 (tr ++ [.own ev c.mem c'.mem]) c'
  | irq {tr c} (h : IRun e ien P c0 tr c) (he : ien c.rs = true) (m' : Mem) :
      IRun e ien P c0 (tr ++ [.env c.mem m']) { c with mem := m', resv := none }

/-- Runs with interrupts are runs in which anybody may interfere. -/
theorem IRun.toRun {e : Endian} {W : Nat} {ien : RS W → Bool} {P : List (Instr W)} {c0 : Cfg W} {tr : List TEv}
    {c : Cfg W} (h : IRun e ien P c0 tr c) : Run e P c0 tr c := by
  induction h with
  | nil => exact .nil
  | own _ hi hs ih => exact .own ih hi hs
  | irq _ _ m' ih => exact .env ih m' none (.inl rfl)

/-- The entries are own steps only, and lead from memory `m` to memory `m'`. -/
def OwnChain : Mem → List TEv → Mem → Prop
  | m, [], m' => m = m'
  | m, .own _ a b :: t, m' => m = a ∧ OwnChain b t m'
  | _, .env _ _ :: _, _ => False

/-- In the trace there is one non-empty section that nobody interrupts and that satisfies `spec` as a
whole; all own steps outside it leave memory unchanged. -/
def AtomicSection (tr : List TEv) (spec : Mem → Mem → Prop) : Prop :=
  ∃ pre sec post m m', tr = pre ++ sec ++ post ∧ sec ≠ [] ∧ OwnChain m sec m' ∧ spec m m' ∧
    ∀ ev m1 m2, TEv.own ev m1 m2 ∈ pre ++ post → m1 = m2

/-- A completed run of the block that starts in registers `rs0` and ends in registers `rs`. -/
def Block.ICompleted {W w : Nat} (e : Endian) (ien : RS W → Bool) (B : Block W w) (tr : List TEv)
    (rs0 rs : RS W) : Prop :=
  ∃ c0 c : Cfg W, c0.pc = 0 ∧ B.pre c0.rs ∧ IRun e ien B.code c0 tr c ∧ c.pc = B.code.length ∧
    c0.rs = rs0 ∧ c.rs = rs

namespace IBackend
variable {W : Nat} (A : IBackend W)

/-- Every completed run of the block is one atomic section. -/
def SectionAtomic {w : Nat} (B : Block W w) (post : Mem → Mem → RS W → Prop) : Prop :=
  ∀ tr rs0 rs, B.ICompleted A.e A.ien tr rs0 rs → AtomicSection tr (fun m m' => post m m' rs)

/-- C01 with interrupts. -/
def LoadsAtomic : Prop := ∀ o w a B, A.Load o w a B →
  A.SectionAtomic B fun m m' rs => LoadSpec A.e a w m m' (B.out rs)
/-- C02 with interrupts. -/
def StoresAtomic : Prop := ∀ o w a val B, A.Store o w a val B →
  A.SectionAtomic B fun m m' _ => StoreSpec A.e a w val m m'
/-- C03 with interrupts. -/
def SwapsAtomic : Prop := ∀ o w a val B, A.Swap o w a val B →
  A.SectionAtomic B fun m m' rs => SwapSpec A.e a w val m m' (B.out rs)
/-- C04 with interrupts. -/
def CasAtomic : Prop := ∀ s f w a old new B, A.Cas s f w a old new B →
  A.SectionAtomic B fun m m' rs => CasSpec A.e a w old new m m' (B.out rs) (B.ok rs)
/-- C05 with interrupts. -/
def WeakCasAtomic : Prop := ∀ s f w a old new B, A.CasWeak s f w a old new B →
  A.SectionAtomic B fun m m' rs => WeakCasSpec A.e a w old new m m' (B.out rs) (B.ok rs)

/-- C23. Every operation is atomic with respect to interrupts. -/
def AllAtomic : Prop :=
  A.LoadsAtomic ∧ A.StoresAtomic ∧ A.SwapsAtomic ∧ A.CasAtomic ∧ A.WeakCasAtomic

/-- C23. The whole status register (`sreg`), which contains the interrupt-enable bit, is after the operation
what it was before. -/
def StatusRestored (sreg : Nat) : Prop := ∀ {w : Nat} (B : Block W w), A.IsBlock B → ∀ tr rs0 rs,
  B.ICompleted A.e A.ien tr rs0 rs → rs.r sreg = rs0.r sreg

/-- C23. An operation called with interrupts disabled never enables them, not even temporarily: no
interrupt is taken during it. -/
def NestsOK : Prop := ∀ {w : Nat} (B : Block W w), A.IsBlock B →
  ∀ (c0 : Cfg W) tr c, c0.pc = 0 → B.pre c0.rs → A.ien c0.rs = false → IRun A.e A.ien B.code c0 tr c →
    A.ien c.rs = false ∧ ∀ m m', TEv.env m m' ∉ tr

/-- C06 with interrupts: no own step changes a byte outside the object, in any run, finished or not. -/
def NeighboursOK : Prop := ∀ w a (B : Block W w) (c0 : Cfg W) tr c,
  ((∃ o, A.Load o w a B) ∨ (∃ o v, A.Store o w a v B) ∨ (∃ o v, A.Swap o w a v B) ∨
    (∃ s f old new, A.Cas s f w a old new B ∨ A.CasWeak s f w a old new B)) →
  c0.pc = 0 → B.pre c0.rs → IRun A.e A.ien B.code c0 tr c →
  ∀ ev m m', TEv.own ev m m' ∈ tr → ∀ x, (x < a ∨ a + w / 8 ≤ x) → m' x = m x

/-- C17 with interrupts: a block changes only the registers it declares, in every run, finished or not. -/
def ContractOK : Prop := ∀ {w : Nat} (B : Block W w), A.IsBlock B →
  ∀ (c0 : Cfg W) tr c, IRun A.e A.ien B.code c0 tr c → ∀ j, ¬ B.outs j → c.rs.r j = c0.rs.r j

end IBackend
end Verif
