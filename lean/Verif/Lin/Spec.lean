/-
Specification of the concurrent behaviour: the canonical atomic object.

Everything here is independent of how the operations are implemented.
-/
import Verif.Spec
import Verif.Core.Ordering

namespace Verif

/-- A call of one of the five operations on the `w`-bit object at address `a`. -/
inductive Call where
  | load (o : Ordering) (w a : Nat)
  | store (o : Ordering) (w a : Nat) (v : BitVec w)
  | swap (o : Ordering) (w a : Nat) (v : BitVec w)
  | cas (s f : Ordering) (w a : Nat) (old new : BitVec w)
  | casWeak (s f : Ordering) (w a : Nat) (old new : BitVec w)

/-- What a call returns: nothing, some bits, or `Ok(bits)` / `Err(bits)`. -/
inductive Ret where
  | unit
  | bits (w : Nat) (v : BitVec w)
  | cas (w : Nat) (v : BitVec w) (ok : Bool)

namespace Call
/-- size of the object in bits -/
def width : Call → Nat
  | load _ w _ | store _ w _ _ | swap _ w _ _ | cas _ _ w _ _ _ | casWeak _ _ w _ _ _ => w
/-- address of the object -/
def addr : Call → Nat
  | load _ _ a | store _ _ a _ | swap _ _ a _ | cas _ _ _ a _ _ | casWeak _ _ _ a _ _ => a
/-- the API accepts the orderings (it panics otherwise) -/
def Valid : Call → Prop
  | load o _ _ => assertLoadOrdering o = .ok ()
  | store o _ _ _ => assertStoreOrdering o = .ok ()
  | swap _ _ _ _ => True
  | cas s f _ _ _ _ | casWeak s f _ _ _ _ => assertCompareExchangeOrdering s f = .ok ()
/-- Sequential meaning of a call: memory before and after, value returned. -/
def Sem (e : Endian) : Call → Mem → Mem → Ret → Prop
  | load _ w a, m, m', r => ∃ v, LoadSpec e a w m m' v ∧ r = .bits w v
  | store _ w a v, m, m', r => StoreSpec e a w v m m' ∧ r = .unit
  | swap _ w a v, m, m', r => ∃ x, SwapSpec e a w v m m' x ∧ r = .bits w x
  | cas _ _ w a old new, m, m', r => ∃ x ok, CasSpec e a w old new m m' x ok ∧ r = .cas w x ok
  | casWeak _ _ w a old new, m, m', r => ∃ x ok, WeakCasSpec e a w old new m m' x ok ∧ r = .cas w x ok
end Call

/-- What an observer sees: thread `i` calls, thread `i` gets its answer. -/
inductive HEv where
  | inv (i : Nat) (c : Call)
  | ret (i : Nat) (c : Call) (r : Ret)

/-- Events of the canonical atomic object: observable events, the instant at which thread `i`'s
operation takes effect, and memory changes by somebody else. -/
inductive SEv where
  | h (x : HEv)
  | pt (i : Nat) (c : Call) (r : Ret)
  | ext (m m' : Mem)

/-- A thread of the canonical atomic object. -/
inductive SThread where
  | idle
  | pending (c : Call)
  | done (c : Call) (r : Ret)

/-- State of the canonical atomic object. -/
structure SState where
  mem : Mem
  th : Nat → SThread

/-- Change the state of one thread. -/
def upd {α : Type _} (f : Nat → α) (i : Nat) (x : α) : Nat → α := fun j => if j = i then x else f j

/-- Steps of the canonical atomic object: an operation takes effect at exactly one instant between its
call and its return, where it does what it means sequentially. -/
inductive SStep (e : Endian) : SState → SEv → SState → Prop where
  | inv (s : SState) (i : Nat) (c : Call) (h : s.th i = .idle) :
      SStep e s (.h (.inv i c)) { s with th := upd s.th i (.pending c) }
  | pt (s : SState) (i : Nat) (c : Call) (r : Ret) (m' : Mem) (h : s.th i = .pending c)
      (hs : c.Sem e s.mem m' r) : SStep e s (.pt i c r) ⟨m', upd s.th i (.done c r)⟩
  | ret (s : SState) (i : Nat) (c : Call) (r : Ret) (h : s.th i = .done c r) :
      SStep e s (.h (.ret i c r)) { s with th := upd s.th i .idle }
  | ext (s : SState) (m' : Mem) : SStep e s (.ext s.mem m') { s with mem := m' }

/-- Runs of the canonical atomic object. -/
inductive SRun (e : Endian) (s0 : SState) : List SEv → SState → Prop where
  | nil : SRun e s0 [] s0
  | snoc {tr s ev s'} (h : SRun e s0 tr s) (hs : SStep e s ev s') : SRun e s0 (tr ++ [ev]) s'

/-- What is visible from outside in a run: calls, answers, memory changes made by somebody else. -/
inductive VEv where
  | h (x : HEv)
  | ext (m m' : Mem)

/-- The visible part of a run of the canonical object, in order. -/
def SEv.vis : List SEv → List VEv
  | [] => []
  | .h x :: t => .h x :: vis t
  | .ext m m' :: t => .ext m m' :: vis t
  | .pt _ _ _ :: t => vis t

end Verif
