/-
A whole single-core program: the main program and interrupt handlers, nested to any depth, all performing
operations of one back end.
-/
import Verif.Intr.Spec
import Verif.Lin.Machine
import Verif.Lin.History

namespace Verif

/-- The main program or a handler: between operations, or inside one. -/
inductive IAct (W : Nat) where
  | idle
  | run (c : Call) (B : Block W c.width) (pc : Nat) (rs : RS W)

/-- The whole machine: memory, the running activation, and the interrupted ones below it (innermost first). The
activation at depth `i` counts as thread `i`. -/
structure IState (W : Nat) where
  mem : Mem
  top : IAct W
  rest : List (IAct W)

/-- Events. -/
inductive IEv where
  | h (x : HEv)
  | own (i : Nat) (ev : Ev) (m m' : Mem)
  | ext (m m' : Mem)
  | irq
  | reti

/-- Steps: the running activation calls an operation, executes one instruction of it, returns from it, or
accesses memory by other means; an interrupt starts a new handler, if interrupts are enabled (code between
operations may enable them at will); a handler returns. -/
inductive IStep {W : Nat} (A : IBackend W) (P : Call → Prop) : IState W → IEv → IState W → Prop where
  | inv (m rest c) (B : Block W c.width) (rs) (hp : P c) (hv : c.Valid) (hB : A.Runs c B) (hpre : B.pre rs) :
      IStep A P ⟨m, .idle, rest⟩ (.h (.inv rest.length c)) ⟨m, .run c B 0 rs, rest⟩
  | own (m rest c) (B : Block W c.width) (pc rs ins ev c') (hi : B.code[pc]? = some ins)
      (hs : Step A.e ins ⟨pc, rs, m, none⟩ ev c') :
      IStep A P ⟨m, .run c B pc rs, rest⟩ (.own rest.length ev m c'.mem) ⟨c'.mem, .run c B c'.pc c'.rs, rest⟩
  | ret (m rest c) (B : Block W c.width) (rs) :
      IStep A P ⟨m, .run c B B.code.length rs, rest⟩ (.h (.ret rest.length c (c.result B rs))) ⟨m, .idle, rest⟩
  | ext (m rest m') : IStep A P ⟨m, .idle, rest⟩ (.ext m m') ⟨m', .idle, rest⟩
  | irqIdle (m rest) : IStep A P ⟨m, .idle, rest⟩ .irq ⟨m, .idle, .idle :: rest⟩
  | irqRun (m rest c) (B : Block W c.width) (pc rs) (he : A.ien rs = true) :
      IStep A P ⟨m, .run c B pc rs, rest⟩ .irq ⟨m, .idle, .run c B pc rs :: rest⟩
  | reti (m t rest) : IStep A P ⟨m, .idle, t :: rest⟩ .reti ⟨m, t, rest⟩

/-- Runs. -/
inductive ISRun {W : Nat} (A : IBackend W) (P : Call → Prop) (g0 : IState W) : List IEv → IState W → Prop where
  | nil : ISRun A P g0 [] g0
  | snoc {tr g ev g'} (h : ISRun A P g0 tr g) (hs : IStep A P g ev g') : ISRun A P g0 (tr ++ [ev]) g'

/-- What is visible from outside: calls, answers, other memory accesses. -/
def IEv.vis : List IEv → List VEv
  | [] => []
  | .h x :: t => .h x :: vis t
  | .ext m m' :: t => .ext m m' :: vis t
  | .own _ _ _ _ :: t => vis t
  | .irq :: t => vis t
  | .reti :: t => vis t

/-- C21, C23. Linearizability on one core with interrupts: every run of the main program and any nesting of
handlers looks like a run of the canonical atomic object, with the same calls, answers and other memory
accesses in the same order; whenever no operation is being executed, memory is the same; at depths where
nothing runs, or no operation is under way, none is under way there either. -/
def IBackend.Linearizable {W : Nat} (A : IBackend W) (P : Call → Prop) : Prop :=
  ∀ (m0 : Mem) (tr : List IEv) (g : IState W), ISRun A P ⟨m0, .idle, []⟩ tr g →
    ∃ (str : List SEv) (s : SState), SRun A.e ⟨m0, fun _ => .idle⟩ str s ∧
      SEv.vis str = IEv.vis tr ∧ (g.top = .idle → s.mem = g.mem ∧ s.th g.rest.length = .idle) ∧
      ∀ i, g.rest.length < i → s.th i = .idle

/-- C36 on one core with interrupts: at every point where only the main program is active, and between
operations. -/
def IBackend.SwapConserves {W : Nat} (A : IBackend W) (P : Call → Prop) : Prop :=
  ∀ (w a : Nat), w % 8 = 0 → w ≠ 0 → ∀ (m0 m : Mem) (tr : List IEv),
    ISRun A P ⟨m0, .idle, []⟩ tr ⟨m, .idle, []⟩ → VRegular A.e w a LoadOrSwap (IEv.vis tr) →
    List.Perm (load A.e m0 a w :: (VEv.invs (IEv.vis tr)).flatMap fun (_, c) => swapIn w a c)
      (load A.e m a w :: (VEv.rets (IEv.vis tr)).flatMap fun (_, c, r) => swapOut w a c r)

/-- C31 on one core with interrupts. -/
def IBackend.NoLostUpdates {W : Nat} (A : IBackend W) (P : Call → Prop) : Prop :=
  ∀ (w a : Nat), w % 8 = 0 → w ≠ 0 → ∀ (f : Nat → BitVec w → Option (BitVec w)) (m0 m : Mem) (tr : List IEv),
    ISRun A P ⟨m0, .idle, []⟩ tr ⟨m, .idle, []⟩ → VRegular A.e w a (UpdateBy f) (IEv.vis tr) →
    ∃ l, List.Perm l ((VEv.rets (IEv.vis tr)).flatMap fun (i, c, r) => casOk w a i c r) ∧
      UpdateChain (load A.e m0 a w) l (load A.e m a w) ∧
      ∀ i old new, (i, old, new) ∈ l → f i old = some new

end Verif
