/-
Any number of threads running operations of one back end on shared memory.
-/
import Verif.Lin.Spec
import Verif.Contract

namespace Verif

/-- The blocks a back end may execute for a call (src/lib.rs l.316-660: each method checks the
orderings and calls the back end). -/
def Backend.Runs {W : Nat} (A : Backend W) : (c : Call) → Block W c.width → Prop
  | .load o w a, B => A.Load o w a B
  | .store o w a v, B => A.Store o w a v B
  | .swap o w a v, B => A.Swap o w a v B
  | .cas s f w a old new, B => A.Cas s f w a old new B
  | .casWeak s f w a old new, B => A.CasWeak s f w a old new B

/-- What the method returns, from the block's result registers. -/
def Call.result {W : Nat} : (c : Call) → Block W c.width → RS W → Ret
  | .load _ w _, B, rs => .bits w (B.out rs)
  | .store _ _ _ _, _, _ => .unit
  | .swap _ w _ _, B, rs => .bits w (B.out rs)
  | .cas _ _ w _ _ _, B, rs => .cas w (B.out rs) (B.ok rs)
  | .casWeak _ _ w _ _ _, B, rs => .cas w (B.out rs) (B.ok rs)

/-- A thread: between operations, or inside the block of one. -/
inductive Thread (W : Nat) where
  | idle
  | run (c : Call) (B : Block W c.width) (pc : Nat) (rs : RS W) (resv : Option (Nat × Nat))

/-- The whole machine. -/
structure GState (W : Nat) where
  mem : Mem
  th : Nat → Thread W

/-- Effect of a memory change `m → m'` on another thread: its reservation may disappear, and must
disappear if a reserved byte changed. -/
inductive Disturbed {W : Nat} (m m' : Mem) : Thread W → Thread W → Prop where
  | idle : Disturbed m m' .idle .idle
  | run (c B pc rs r r') (h : EnvResv m m' r r') : Disturbed m m' (.run c B pc rs r) (.run c B pc rs r')

/-- Events of the machine. -/
inductive GEv where
  | h (x : HEv)
  | own (i : Nat) (ev : Ev) (m m' : Mem)
  | ext (m m' : Mem)

/-- Steps of the machine: a thread calls an operation (the registers hold the operands, everything else
is arbitrary), executes one instruction of it, or returns; or memory is changed by something else
(non-atomic accesses of the program, devices, other processes). `P` restricts the calls. -/
inductive GStep {W : Nat} (A : Backend W) (P : Call → Prop) : GState W → GEv → GState W → Prop where
  | inv (g : GState W) (i c) (B : Block W c.width) (rs r) (hidle : g.th i = .idle) (hp : P c) (hv : c.Valid)
      (hB : A.Runs c B) (hpre : B.pre rs) :
      GStep A P g (.h (.inv i c)) { g with th := upd g.th i (.run c B 0 rs r) }
  | own (g : GState W) (i c) (B : Block W c.width) (pc rs r ins ev c') (th' : Nat → Thread W)
      (hrun : g.th i = .run c B pc rs r) (hi : B.code[pc]? = some ins)
      (hs : Step A.e ins ⟨pc, rs, g.mem, r⟩ ev c')
      (hth : th' i = .run c B c'.pc c'.rs c'.resv)
      (hd : ∀ j, j ≠ i → Disturbed g.mem c'.mem (g.th j) (th' j)) :
      GStep A P g (.own i ev g.mem c'.mem) ⟨c'.mem, th'⟩
  | ret (g : GState W) (i c) (B : Block W c.width) (rs r)
      (hrun : g.th i = .run c B B.code.length rs r) :
      GStep A P g (.h (.ret i c (c.result B rs))) { g with th := upd g.th i .idle }
  | ext (g : GState W) (m') (th' : Nat → Thread W)
      (hd : ∀ j, Disturbed g.mem m' (g.th j) (th' j)) :
      GStep A P g (.ext g.mem m') ⟨m', th'⟩

/-- Runs of the machine. -/
inductive GRun {W : Nat} (A : Backend W) (P : Call → Prop) (g0 : GState W) :
    List GEv → GState W → Prop where
  | nil : GRun A P g0 [] g0
  | snoc {tr g ev g'} (h : GRun A P g0 tr g) (hs : GStep A P g ev g') : GRun A P g0 (tr ++ [ev]) g'

/-- The visible part of a run of the machine, in order. -/
def GEv.vis : List GEv → List VEv
  | [] => []
  | .h x :: t => .h x :: vis t
  | .ext m m' :: t => .ext m m' :: vis t
  | .own _ _ _ _ :: t => vis t

/-- C21. Linearizability: every run of any number of threads, with any interleaving, finished or not,
looks like a run of the canonical atomic object: same calls, same answers and same memory changes from
outside in the same order, same memory at the end, and a thread
that is between operations is so in both. -/
def Backend.Linearizable {W : Nat} (A : Backend W) (P : Call → Prop) : Prop :=
  ∀ (m0 : Mem) (tr : List GEv) (g : GState W), GRun A P ⟨m0, fun _ => .idle⟩ tr g →
    ∃ (str : List SEv) (s : SState), SRun A.e ⟨m0, fun _ => .idle⟩ str s ∧
      SEv.vis str = GEv.vis tr ∧ s.mem = g.mem ∧ ∀ i, g.th i = .idle → s.th i = .idle

end Verif
