/-
C01-C05 and C13-C16 for the methods of `AtomicMaybeUninit<T>` themselves (src/lib.rs), from the arguments the
caller passes to the value it gets back, on any back end.
-/
import Verif.Api.Spec
import Verif.Contract

namespace Verif

variable {W : Nat}

/-- C01-C03 for the methods. In every execution of a method that returns, with the rest of the world doing
anything meanwhile, the back end is called once, and at one instant `m → m'` of it the object (`w` bits at
address `a`) is accessed as documented; no other own step changes memory. -/
structure Backend.MethodsAtomic (A : Backend W) : Prop where
  /-- `load` returns the bits the object had. -/
  load : ∀ w a o tr cs r, (loadM w a o).Returns A tr cs r →
    cs = [.load o w a] ∧ AtomicTrace tr fun m m' => r = Verif.load A.e m a w ∧ m' = m
  /-- `store` replaces the bits of the object by `v`. -/
  store : ∀ w a v o tr cs r, (storeM w a v o).Returns A tr cs r →
    cs = [.store o w a v] ∧ AtomicTrace tr fun m m' => m' = Verif.store A.e m a w v
  /-- `swap` replaces the bits of the object by `v` and returns the bits it had. -/
  swap : ∀ w a v o tr cs r, (swapM w a v o).Returns A tr cs r →
    cs = [.swap o w a v] ∧ AtomicTrace tr fun m m' => r = Verif.load A.e m a w ∧ m' = Verif.store A.e m a w v

/-- C04 for the method `compare_exchange`, in the same sense.
`S w` are the widths for which a failed `compare_exchange` must have seen a different value. -/
structure Backend.CasMethodAtomic (A : Backend W) (S : Nat → Prop) : Prop where
  /-- `compare_exchange(current, new)` returns `Ok(current)` only if the object had the bits `current` and now
  has the bits `new`. -/
  casOk : ∀ w a current new s f tr cs prev, (casM w a current new s f).Returns A tr cs (.ok prev) →
    cs = [.cas s f w a current new] ∧ prev = current ∧
    AtomicTrace tr fun m m' => Verif.load A.e m a w = current ∧ m' = Verif.store A.e m a w new
  /-- `compare_exchange(current, new)` returns `Err(prev)` only if the object had the bits `prev`, different from
  `current`, and keeps them. -/
  casErr : ∀ w a current new s f tr cs prev, (casM w a current new s f).Returns A tr cs (.error prev) →
    cs = [.cas s f w a current new] ∧
    AtomicTrace tr (fun m m' => Verif.load A.e m a w = prev ∧ m' = m) ∧ (S w → prev ≠ current)

/-- C05 for the method `compare_exchange_weak`, in the same sense. -/
structure Backend.WeakCasMethodAtomic (A : Backend W) : Prop where
  /-- `compare_exchange_weak`, success: as `compare_exchange`. -/
  casWeakOk : ∀ w a current new s f tr cs prev, (casWeakM w a current new s f).Returns A tr cs (.ok prev) →
    cs = [.casWeak s f w a current new] ∧ prev = current ∧
    AtomicTrace tr fun m m' => Verif.load A.e m a w = current ∧ m' = Verif.store A.e m a w new
  /-- `compare_exchange_weak`, failure: `Err(prev)` only if the object had the bits `prev` and keeps them. -/
  casWeakErr : ∀ w a current new s f tr cs prev, (casWeakM w a current new s f).Returns A tr cs (.error prev) →
    cs = [.casWeak s f w a current new] ∧
    AtomicTrace tr fun m m' => Verif.load A.e m a w = prev ∧ m' = m

/-- The method returned after the events `tr`, and all its effects had to be SeqCst. -/
inductive Backend.SeqCstReturn (A : Backend W) : List TEv → Prop where
  | load {w a tr cs r} (h : (loadM w a .seqCst).Returns A tr cs r) : SeqCstReturn A tr
  | store {w a v tr cs r} (h : (storeM w a v .seqCst).Returns A tr cs r) : SeqCstReturn A tr
  | swap {w a v tr cs r} (h : (swapM w a v .seqCst).Returns A tr cs r) : SeqCstReturn A tr
  | casOk {w a old new f tr cs r} (h : (casM w a old new .seqCst f).Returns A tr cs (.ok r)) : SeqCstReturn A tr
  | casErr {w a old new s tr cs r} (h : (casM w a old new s .seqCst).Returns A tr cs (.error r)) :
      SeqCstReturn A tr
  | casWeakOk {w a old new f tr cs r} (h : (casWeakM w a old new .seqCst f).Returns A tr cs (.ok r)) :
      SeqCstReturn A tr
  | casWeakErr {w a old new s tr cs r} (h : (casWeakM w a old new s .seqCst).Returns A tr cs (.error r)) :
      SeqCstReturn A tr

/-- C13-C16 for the methods: `Acquires`/`Releases` (Spec.lean) of everything the method did, for the ordering the
caller passed: the success ordering if the compare-exchange returned `Ok`, the failure ordering if it returned
`Err`; `set_order` and `fetch_order` of `fetch_update`. -/
structure Backend.MethodsOrdered (A : Backend W) : Prop where
  load : ∀ w a o tr cs r, (loadM w a o).Returns A tr cs r →
    o.acquires = true → Acquires A.imp (monOf tr) = true
  store : ∀ w a v o tr cs r, (storeM w a v o).Returns A tr cs r →
    o.releases = true → Releases A.imp (monOf tr) = true
  swap : ∀ w a v o tr cs r, (swapM w a v o).Returns A tr cs r →
    (o.acquires = true → Acquires A.imp (monOf tr) = true) ∧
    (o.releases = true → Releases A.imp (monOf tr) = true)
  casOk : ∀ w a old new s f tr cs r, (casM w a old new s f).Returns A tr cs (.ok r) →
    (s.acquires = true → Acquires A.imp (monOf tr) = true) ∧
    (s.releases = true → Releases A.imp (monOf tr) = true)
  casErr : ∀ w a old new s f tr cs r, (casM w a old new s f).Returns A tr cs (.error r) →
    f.acquires = true → Acquires A.imp (monOf tr) = true
  casWeakOk : ∀ w a old new s f tr cs r, (casWeakM w a old new s f).Returns A tr cs (.ok r) →
    (s.acquires = true → Acquires A.imp (monOf tr) = true) ∧
    (s.releases = true → Releases A.imp (monOf tr) = true)
  casWeakErr : ∀ w a old new s f tr cs r, (casWeakM w a old new s f).Returns A tr cs (.error r) →
    f.acquires = true → Acquires A.imp (monOf tr) = true
  fetchUpdateOk : ∀ w a so fo g tr cs r, (fetchUpdateM w a so fo g).Returns A tr cs (.ok r) →
    (so.acquires = true → Acquires A.imp (monOf tr) = true) ∧
    (so.releases = true → Releases A.imp (monOf tr) = true)
  fetchUpdateErr : ∀ w a so fo g tr cs r, (fetchUpdateM w a so fo g).Returns A tr cs (.error r) →
    fo.acquires = true → Acquires A.imp (monOf tr) = true
  /-- All accesses of a SeqCst method call are ordered before all accesses of any later one of the same thread. -/
  seqCst : ∀ tr1 tr2, A.SeqCstReturn tr1 → A.SeqCstReturn tr2 →
    Ordered A.imp (monOf tr1) (monOf tr2) = true

end Verif
