/-
Consequences of linearizability that users rely on, about whole histories: what a read returns (C08), CAS
with an observed value (C34), disjoint objects (C22), conservation under swap (C36), no lost updates (C31).

This file has the specifications; the proofs are in Verif/Lin/HistoryProof.lean.
-/
import Verif.Lin.Machine

namespace Verif

/-- The call is on the `w`-bit object at `a`. -/
def Call.On (c : Call) (w a : Nat) : Prop := c.width = w ∧ c.addr = a

/-- The call's object does not overlap the `w`-bit object at `a`. -/
def Call.Off (c : Call) (w a : Nat) : Prop := c.addr + c.width / 8 ≤ a ∨ a + w / 8 ≤ c.addr

/-- The value the object at `a` has after call `c` answered `r`, if it was `cur` before: a store or swap
leaves its argument, a successful compare-exchange its new value, everything else `cur`. -/
def Call.after (w a : Nat) (cur : BitVec w) : Call → Ret → BitVec w
  | .store _ w' a' v, _ => if w' = w ∧ a' = a then v.setWidth w else cur
  | .swap _ w' a' v, _ => if w' = w ∧ a' = a then v.setWidth w else cur
  | .cas _ _ w' a' _ new, .cas _ _ true => if w' = w ∧ a' = a then new.setWidth w else cur
  | .casWeak _ _ w' a' _ new, .cas _ _ true => if w' = w ∧ a' = a then new.setWidth w else cur
  | _, _ => cur

/-- The last value written to the object in a history, `init` if there is none. -/
def lastWrite (w a : Nat) (init : BitVec w) : List SEv → BitVec w
  | [] => init
  | .pt _ c r :: t => lastWrite w a (c.after w a init r) t
  | .h _ :: t => lastWrite w a init t
  | .ext _ _ :: t => lastWrite w a init t

/-- `r` is the right answer to `c` if its object holds `cur`. -/
def Call.Answer {w : Nat} (cur : BitVec w) : Call → Ret → Prop
  | .load _ _ _, r => r = .bits w cur
  | .store _ _ _ _, r => r = .unit
  | .swap _ _ _ _, r => r = .bits w cur
  | .cas _ _ _ _ old _, r => r = .cas w cur (decide (cur = old.setWidth w))
  | .casWeak _ _ _ _ old _, r => ∃ ok, r = .cas w cur ok ∧ (ok = true → cur = old.setWidth w)

/-- In this history, all accesses are to the object or to disjoint ones, and memory changes from outside
leave the object alone. -/
def Regular (e : Endian) (w a : Nat) (str : List SEv) : Prop :=
  (∀ i c r, SEv.pt i c r ∈ str → c.On w a ∨ c.Off w a) ∧
  (∀ m m', SEv.ext m m' ∈ str → load e m' a w = load e m a w)

/-- The effects in a history of the canonical object, in order. -/
def SEv.pts : List SEv → List (Nat × Call × Ret)
  | [] => []
  | .pt i c r :: t => (i, c, r) :: pts t
  | .h _ :: t => pts t
  | .ext _ _ :: t => pts t

/-- The answers in a visible history, in order. -/
def VEv.rets : List VEv → List (Nat × Call × Ret)
  | [] => []
  | .h (.ret i c r) :: t => (i, c, r) :: rets t
  | .h (.inv _ _) :: t => rets t
  | .ext _ _ :: t => rets t

/-- The calls in a visible history, in order. -/
def VEv.invs : List VEv → List (Nat × Call)
  | [] => []
  | .h (.inv i c) :: t => (i, c) :: invs t
  | .h (.ret _ _ _) :: t => invs t
  | .ext _ _ :: t => invs t

/-- In a visible history all calls are on the object (and satisfy `Q`) or on disjoint objects, and nobody
else changes the object. -/
def VRegular (e : Endian) (w a : Nat) (Q : Nat → Call → Prop) (v : List VEv) : Prop :=
  (∀ i c, VEv.h (.inv i c) ∈ v → (c.On w a ∧ Q i c) ∨ c.Off w a) ∧
  (∀ m m', VEv.ext m m' ∈ v → load e m' a w = load e m a w)

/-- The argument of a swap on the object. -/
def swapIn (w a : Nat) : Call → List (BitVec w)
  | .swap _ w' a' v => if w' = w ∧ a' = a then [v.setWidth w] else []
  | _ => []

/-- The answer of a swap on the object. -/
def swapOut (w a : Nat) : Call → Ret → List (BitVec w)
  | .swap _ w' a' _, .bits _ x => if w' = w ∧ a' = a then [x.setWidth w] else []
  | _, _ => []

/-- A load or a swap. -/
def LoadOrSwap (_ : Nat) : Call → Prop
  | .load _ _ _ | .swap _ _ _ _ => True
  | _ => False

/-- C36. If all accesses to an object are loads and swaps, then at every quiescent point the initial value
together with all values handed in is a permutation of the final value together with all values handed
out. -/
def Backend.SwapConserves {W : Nat} (A : Backend W) (P : Call → Prop) : Prop :=
  ∀ (w a : Nat), w % 8 = 0 → w ≠ 0 → ∀ (m0 : Mem) (tr : List GEv) (g : GState W),
    GRun A P ⟨m0, fun _ => .idle⟩ tr g → (∀ i, g.th i = .idle) →
    VRegular A.e w a LoadOrSwap (GEv.vis tr) →
    List.Perm (load A.e m0 a w :: (VEv.invs (GEv.vis tr)).flatMap fun (_, c) => swapIn w a c)
      (load A.e g.mem a w :: (VEv.rets (GEv.vis tr)).flatMap fun (_, c, r) => swapOut w a c r)

/-- Thread and expected/new value of a successful compare-exchange on the object. -/
def casOk (w a : Nat) (i : Nat) : Call → Ret → List (Nat × BitVec w × BitVec w)
  | .cas _ _ w' a' old new, .cas _ _ true =>
    if w' = w ∧ a' = a then [(i, old.setWidth w, new.setWidth w)] else []
  | .casWeak _ _ w' a' old new, .cas _ _ true =>
    if w' = w ∧ a' = a then [(i, old.setWidth w, new.setWidth w)] else []
  | _, _ => []

/-- `l` is a chain of updates from `x` to `y`: each starts with the value its predecessor left. -/
def UpdateChain {w : Nat} : BitVec w → List (Nat × BitVec w × BitVec w) → BitVec w → Prop
  | x, [], y => x = y
  | x, (_, old, new) :: l, y => x = old ∧ UpdateChain new l y

/-- A load, or a compare-exchange of thread `i` from some `v` to `f i v`, as issued by `fetch_update` with
closure `f i`. -/
def UpdateBy {w : Nat} (f : Nat → BitVec w → Option (BitVec w)) (i : Nat) : Call → Prop
  | .load _ _ _ => True
  | .cas _ _ _ _ old new | .casWeak _ _ _ _ old new => f i (old.setWidth w) = some (new.setWidth w)
  | _ => False

/-- C31. If all accesses to an object are loads and compare-exchange attempts, as made by `fetch_update` with
functions `f i`, then at every quiescent point the successful updates can be put into an order in which each
was applied to the result of the previous one, from the initial to the final value: none is lost. -/
def Backend.NoLostUpdates {W : Nat} (A : Backend W) (P : Call → Prop) : Prop :=
  ∀ (w a : Nat), w % 8 = 0 → w ≠ 0 → ∀ (f : Nat → BitVec w → Option (BitVec w)) (m0 : Mem) (tr : List GEv)
    (g : GState W), GRun A P ⟨m0, fun _ => .idle⟩ tr g → (∀ i, g.th i = .idle) →
    VRegular A.e w a (UpdateBy f) (GEv.vis tr) →
    ∃ l, List.Perm l ((VEv.rets (GEv.vis tr)).flatMap fun (i, c, r) => casOk w a i c r) ∧
      UpdateChain (load A.e m0 a w) l (load A.e g.mem a w) ∧
      ∀ i old new, (i, old, new) ∈ l → f i old = some new

end Verif
