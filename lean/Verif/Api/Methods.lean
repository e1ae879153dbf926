/-
The methods of `AtomicMaybeUninit<T>` (src/lib.rs) above the back ends: ordering checks, the call of the
back end, and `fetch_update`.

A method is a state machine: in each state it calls the back end, is finished, or panics.
-/
import Verif.Lin.Machine

namespace Verif

/-- Type of what the back end returns for a call (src/raw.rs l.30-150: `MaybeUninit<T>`, `()` or
`(MaybeUninit<T>, bool)`). -/
def Call.RetTy : Call → Type
  | .load _ w _ => BitVec w
  | .store _ _ _ _ => Unit
  | .swap _ w _ _ => BitVec w
  | .cas _ _ w _ _ _ => BitVec w × Bool
  | .casWeak _ _ w _ _ _ => BitVec w × Bool

/-- What the back end returns, from the block's result registers. -/
def Call.value {W : Nat} : (c : Call) → Block W c.width → RS W → c.RetTy
  | .load _ _ _, B, rs => B.out rs
  | .store _ _ _ _, _, _ => ()
  | .swap _ _ _ _, B, rs => B.out rs
  | .cas _ _ _ _ _ _, B, rs => (B.out rs, B.ok rs)
  | .casWeak _ _ _ _ _ _, B, rs => (B.out rs, B.ok rs)

/-- What a method does in a state. -/
inductive Act (S α : Type) where
  | call (c : Call) (k : c.RetTy → S)
  | done (a : α)
  | panic

/-- A method body. -/
structure Method (α : Type) where
  S : Type
  init : S
  act : S → Act S α

/-- `assert_..._ordering(..)` followed by one call of the back end. -/
def checkedCall {α : Type} (chk : Res Unit) (c : Call) (k : c.RetTy → α) : Method α where
  S := Option α
  init := none
  act
    | none => match chk with
      | .ok () => .call c fun r => some (k r)
      | .panic => .panic
    | some a => .done a

/-- `if ok { Ok(out) } else { Err(out) }` -/
def toResult {w : Nat} (r : BitVec w × Bool) : Except (BitVec w) (BitVec w) :=
  if r.2 then .ok r.1 else .error r.1

/-- src/lib.rs l.295-306 `load` -/
def loadM (w a : Nat) (o : Ordering) : Method (BitVec w) :=
  checkedCall (assertLoadOrdering o) (.load o w a) id

/-- src/lib.rs l.330-344 `store` (`black_box` is the identity) -/
def storeM (w a : Nat) (val : BitVec w) (o : Ordering) : Method Unit :=
  checkedCall (assertStoreOrdering o) (.store o w a val) id

/-- src/lib.rs l.367-380 `swap` (no check) -/
def swapM (w a : Nat) (val : BitVec w) (o : Ordering) : Method (BitVec w) :=
  checkedCall (.ok ()) (.swap o w a val) id

/-- src/lib.rs l.536-563 `compare_exchange` -/
def casM (w a : Nat) (current new : BitVec w) (s f : Ordering) : Method (Except (BitVec w) (BitVec w)) :=
  checkedCall (assertCompareExchangeOrdering s f) (.cas s f w a current new) toResult

/-- src/lib.rs l.622-650 `compare_exchange_weak` -/
def casWeakM (w a : Nat) (current new : BitVec w) (s f : Ordering) :
    Method (Except (BitVec w) (BitVec w)) :=
  checkedCall (assertCompareExchangeOrdering s f) (.casWeak s f w a current new) toResult

/-- The closure passed to `fetch_update`: `FnMut(MaybeUninit<T>) -> Option<MaybeUninit<T>>`, with its
captured state. -/
structure Closure (w : Nat) where
  σ : Type
  init : σ
  call : σ → BitVec w → Option (BitVec w) × σ

/-- Local state of `fetch_update`: before the load; in the body of the `while`, about to compare-exchange `prev` with
`next` (`s` is the closure state); finished. -/
inductive FU {w : Nat} (f : Closure w) where
  | start
  | set (prev next : BitVec w) (s : f.σ)
  | fin (r : Except (BitVec w) (BitVec w))

/-- `let mut prev = ...; while let Some(next) = f(prev) { .. } Err(prev)`: what happens after `prev` is
known (src/lib.rs l.720-726). -/
def FU.next {w : Nat} (f : Closure w) (prev : BitVec w) (s : f.σ) : FU f :=
  match f.call s prev with
  | (some next, s') => .set prev next s'
  | (none, _) => .fin (.error prev)

/-- src/lib.rs l.709-727 `fetch_update`. -/
def fetchUpdateM (w a : Nat) (setOrder fetchOrder : Ordering) (f : Closure w) :
    Method (Except (BitVec w) (BitVec w)) where
  S := FU f
  init := .start
  act
    | .start => match assertLoadOrdering fetchOrder with
      | .ok () => .call (.load fetchOrder w a) fun prev => FU.next f prev f.init
      | .panic => .panic
    | .set prev next s => match assertCompareExchangeOrdering setOrder fetchOrder with
      | .ok () => .call (.casWeak setOrder fetchOrder w a prev next) fun r =>
          match toResult r with
          | .ok x => .fin (.ok x)
          | .error nextPrev => FU.next f nextPrev s
      | .panic => .panic
    | .fin r => .done r

namespace Method
variable {α : Type} {W : Nat}

/-- Executions of a method on a back end: `tr` is everything that happened (own memory steps and those of
others), `cs` the calls of the back end. Between and during the calls the rest of the world does
anything. -/
inductive Run (A : Backend W) (M : Method α) : List TEv → List Call → M.S → Prop where
  | start : Run A M [] [] M.init
  | env {tr cs s} (h : Run A M tr cs s) (m m' : Mem) : Run A M (tr ++ [.env m m']) cs s
  | call {tr cs s c k B t rs} (h : Run A M tr cs s) (ha : M.act s = .call c k) (hB : A.Runs c B)
      (hr : B.Completed A.e t rs) : Run A M (tr ++ t) (cs ++ [c]) (k (c.value B rs))

/-- The method returned `a` after the events `tr` and calls `cs`. -/
def Returns (A : Backend W) (M : Method α) (tr : List TEv) (cs : List Call) (a : α) : Prop :=
  ∃ s, M.Run A tr cs s ∧ M.act s = .done a

/-- The method panicked after the events `tr`. -/
def Panics (A : Backend W) (M : Method α) (tr : List TEv) (cs : List Call) : Prop :=
  ∃ s, M.Run A tr cs s ∧ M.act s = .panic

end Method
end Verif
