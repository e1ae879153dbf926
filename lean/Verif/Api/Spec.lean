/-
What users of the methods rely on (C09, C10), stated for every back end.
-/
import Verif.Api.Methods

namespace Verif

/-- Closure states that can occur: the closure is called again and again, starting with its initial state. -/
inductive Closure.Reach {w : Nat} (f : Closure w) : f.σ → Prop where
  | init : f.Reach f.init
  | call {s : f.σ} (h : f.Reach s) (v : BitVec w) : f.Reach (f.call s v).2

/-- C09. `fetch_update` is an atomic read-modify-write.
* `Ok(prev)`: at one instant the object held `prev` and became the value the closure returned for `prev`; no
  other own step of the whole call changes memory.
* `Err(prev)`: at one instant of the call the object held `prev`, the closure returned `None` for `prev`, and
  no own step of the whole call changed memory. -/
structure Backend.FetchUpdateOK {W : Nat} (A : Backend W) : Prop where
  ok : ∀ w a so fo (f : Closure w) tr cs prev, (fetchUpdateM w a so fo f).Returns A tr cs (.ok prev) →
    ∃ s x s', f.Reach s ∧ f.call s prev = (some x, s') ∧
      AtomicTrace tr fun m m' => load A.e m a w = prev ∧ m' = store A.e m a w x
  err : ∀ w a so fo (f : Closure w) tr cs prev, (fetchUpdateM w a so fo f).Returns A tr cs (.error prev) →
    ∃ s s', f.Reach s ∧ f.call s prev = (none, s') ∧
      AtomicTrace tr fun m m' => load A.e m a w = prev ∧ m' = m

/-- Nothing was done by the thread itself. -/
def NoOwn (tr : List TEv) : Prop := ∀ ev m m', TEv.own ev m m' ∉ tr

/-- The method panics, and always before it does anything. -/
def Method.AlwaysPanics {α : Type} {W : Nat} (A : Backend W) (M : Method α) : Prop :=
  M.Panics A [] [] ∧ (∀ tr cs s, M.Run A tr cs s → NoOwn tr ∧ cs = [] ∧ M.act s = .panic)

/-- The method never panics. -/
def Method.NeverPanics {α : Type} {W : Nat} (A : Backend W) (M : Method α) : Prop :=
  ∀ tr cs, ¬ M.Panics A tr cs

/-- C10. Which orderings panic. -/
structure Backend.PanicsOK {W : Nat} (A : Backend W) : Prop where
  load : ∀ w a o, if o = .release ∨ o = .acqRel then (loadM w a o).AlwaysPanics A
    else (loadM w a o).NeverPanics A
  store : ∀ w a v o, if o = .acquire ∨ o = .acqRel then (storeM w a v o).AlwaysPanics A
    else (storeM w a v o).NeverPanics A
  swap : ∀ w a v o, (swapM w a v o).NeverPanics A
  cas : ∀ w a c n s f, if f = .release ∨ f = .acqRel then (casM w a c n s f).AlwaysPanics A
    else (casM w a c n s f).NeverPanics A
  casWeak : ∀ w a c n s f, if f = .release ∨ f = .acqRel then (casWeakM w a c n s f).AlwaysPanics A
    else (casWeakM w a c n s f).NeverPanics A
  fetchUpdate : ∀ w a so fo g, if fo = .release ∨ fo = .acqRel then
      (fetchUpdateM w a so fo g).AlwaysPanics A
    else (fetchUpdateM w a so fo g).NeverPanics A

end Verif
