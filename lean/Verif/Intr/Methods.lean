/-
C01-C05 and C09 for the methods of `AtomicMaybeUninit<T>` (src/lib.rs) on the single-core back ends (AVR, MSP430),
with interrupts.
-/
import Verif.Intr.Spec
import Verif.Api.MethodProof

namespace Verif

variable {W : Nat}

namespace Method
variable {α : Type}

/-- Executions of a method on a single core: like `Method.Run`, but somebody else runs only in interrupts, which
happen between the calls of the back end (`irq`) and, while they are enabled, inside them (`ICompleted`). -/
inductive IRun (A : IBackend W) (M : Method α) : List TEv → List Call → M.S → Prop where
  | start : IRun A M [] [] M.init
  | irq {tr cs s} (h : IRun A M tr cs s) (m m' : Mem) : IRun A M (tr ++ [.env m m']) cs s
  | call {tr cs s c k B t rs0 rs} (h : IRun A M tr cs s) (ha : M.act s = .call c k) (hB : A.Runs c B)
      (hr : B.ICompleted A.e A.ien t rs0 rs) : IRun A M (tr ++ t) (cs ++ [c]) (k (c.value B rs))

/-- The method returned `a` after the events `tr` and calls `cs`. -/
def IReturns (A : IBackend W) (M : Method α) (tr : List TEv) (cs : List Call) (a : α) : Prop :=
  ∃ s, M.IRun A tr cs s ∧ M.act s = .done a

end Method

/-- C01-C05 for the methods on a single core. In every execution of a method that returns, whatever interrupt
handlers do meanwhile, the back end is called once, and in one uninterrupted section `m → m'` of it the object (`w` bits at
address `a`) is accessed as documented; no own step outside it changes memory. -/
structure IBackend.MethodsAtomic (A : IBackend W) : Prop where
  /-- `load` returns the bits the object had. -/
  load : ∀ w a o tr cs r, (loadM w a o).IReturns A tr cs r →
    cs = [.load o w a] ∧ AtomicSection tr fun m m' => r = Verif.load A.e m a w ∧ m' = m
  /-- `store` replaces the bits of the object by `v`. -/
  store : ∀ w a v o tr cs r, (storeM w a v o).IReturns A tr cs r →
    cs = [.store o w a v] ∧ AtomicSection tr fun m m' => m' = Verif.store A.e m a w v
  /-- `swap` replaces the bits of the object by `v` and returns the bits it had. -/
  swap : ∀ w a v o tr cs r, (swapM w a v o).IReturns A tr cs r →
    cs = [.swap o w a v] ∧ AtomicSection tr fun m m' => r = Verif.load A.e m a w ∧ m' = Verif.store A.e m a w v
  /-- `compare_exchange(current, new)` returns `Ok(current)` only if the object had the bits `current` and now
  has the bits `new`. -/
  casOk : ∀ w a current new s f tr cs prev, (casM w a current new s f).IReturns A tr cs (.ok prev) →
    cs = [.cas s f w a current new] ∧ prev = current ∧
    AtomicSection tr fun m m' => Verif.load A.e m a w = current ∧ m' = Verif.store A.e m a w new
  /-- `compare_exchange(current, new)` returns `Err(prev)` only if the object had the bits `prev`, different from
  `current`, and keeps them. -/
  casErr : ∀ w a current new s f tr cs prev, (casM w a current new s f).IReturns A tr cs (.error prev) →
    cs = [.cas s f w a current new] ∧
    AtomicSection tr (fun m m' => Verif.load A.e m a w = prev ∧ m' = m) ∧ prev ≠ current
  /-- `compare_exchange_weak`, success: as `compare_exchange`. -/
  casWeakOk : ∀ w a current new s f tr cs prev, (casWeakM w a current new s f).IReturns A tr cs (.ok prev) →
    cs = [.casWeak s f w a current new] ∧ prev = current ∧
    AtomicSection tr fun m m' => Verif.load A.e m a w = current ∧ m' = Verif.store A.e m a w new
  /-- `compare_exchange_weak`, failure: `Err(prev)` only if the object had the bits `prev` and keeps them. -/
  casWeakErr : ∀ w a current new s f tr cs prev, (casWeakM w a current new s f).IReturns A tr cs (.error prev) →
    cs = [.casWeak s f w a current new] ∧
    AtomicSection tr fun m m' => Verif.load A.e m a w = prev ∧ m' = m

/-- Nobody else ever sees a change made by the own steps of the trace: it consists of steps of others, own steps
that leave memory unchanged, and uninterrupted sections of own steps that end with the memory they started with. -/
inductive Unseen : List TEv → Prop where
  | nil : Unseen []
  | env {t} (h : Unseen t) (m m' : Mem) : Unseen (t ++ [.env m m'])
  | own {t} (h : Unseen t) (ev : Ev) (m : Mem) : Unseen (t ++ [.own ev m m])
  | sec {t s} (h : Unseen t) (m : Mem) (hs : OwnChain m s m) : Unseen (t ++ s)

/-- In the trace there is one non-empty section that nobody interrupts and that satisfies `spec` as a whole; nobody
sees a change made outside it. -/
def OneSection (tr : List TEv) (spec : Mem → Mem → Prop) : Prop :=
  ∃ pre sec post m m', tr = pre ++ sec ++ post ∧ sec ≠ [] ∧ OwnChain m sec m' ∧ spec m m' ∧
    Unseen pre ∧ Unseen post

/-- C09. `fetch_update` is an atomic read-modify-write, with interrupts.
* `Ok(prev)`: in one uninterrupted section the object held `prev` and became the value the closure returned for `prev`; nobody
  sees a change made by any other own step of the call.
* `Err(prev)`: in one uninterrupted section of the call the object held `prev`, the closure returned `None` for `prev`, and
  nobody sees a change made by any own step of the call. -/
structure IBackend.FetchUpdateOK (A : IBackend W) : Prop where
  ok : ∀ w a so fo (f : Closure w) tr cs prev, (fetchUpdateM w a so fo f).IReturns A tr cs (.ok prev) →
    ∃ s x s', f.Reach s ∧ f.call s prev = (some x, s') ∧
      OneSection tr fun m m' => load A.e m a w = prev ∧ m' = store A.e m a w x
  err : ∀ w a so fo (f : Closure w) tr cs prev, (fetchUpdateM w a so fo f).IReturns A tr cs (.error prev) →
    ∃ s s', f.Reach s ∧ f.call s prev = (none, s') ∧
      OneSection tr fun m m' => load A.e m a w = prev ∧ m' = m

/-! ### Proofs -/

theorem AtomicSection.prepend {t u : List TEv} {spec : Mem → Mem → Prop} (hq : Quiet t)
    (h : AtomicSection u spec) : AtomicSection (t ++ u) spec := by
  obtain ⟨pre, sec, post, m, m', rfl, hne, hc, hs, hid⟩ := h
  refine ⟨t ++ pre, sec, post, m, m', by simp, hne, hc, hs, ?_⟩
  intro ev' a b hm
  rw [List.append_assoc] at hm
  exact (List.mem_append.1 hm).elim (hq ev' a b) (hid ev' a b)

theorem AtomicSection.append {t u : List TEv} {spec : Mem → Mem → Prop} (hq : Quiet u)
    (h : AtomicSection t spec) : AtomicSection (t ++ u) spec := by
  obtain ⟨pre, sec, post, m, m', rfl, hne, hc, hs, hid⟩ := h
  refine ⟨pre, sec, post ++ u, m, m', by simp, hne, hc, hs, ?_⟩
  intro ev' a b hm
  rw [← List.append_assoc] at hm
  exact (List.mem_append.1 hm).elim (hid ev' a b) (hq ev' a b)

theorem AtomicSection.imp {t : List TEv} {s1 s2 : Mem → Mem → Prop} (h : AtomicSection t s1)
    (h12 : ∀ m m', s1 m m' → s2 m m') : AtomicSection t s2 := by
  obtain ⟨pre, sec, post, m, m', ht, hne, hc, hs, hid⟩ := h
  exact ⟨pre, sec, post, m, m', ht, hne, hc, h12 _ _ hs, hid⟩

theorem AtomicSection.surround {t1 t t2 : List TEv} {spec : Mem → Mem → Prop} (h1 : EnvOnly t1) (h2 : EnvOnly t2)
    (h : AtomicSection t spec) : AtomicSection (t1 ++ t ++ t2) spec :=
  (AtomicSection.prepend h1.quiet h).append h2.quiet

theorem AtomicSection.const {t : List TEv} {P : Prop} {spec : Mem → Mem → Prop}
    (h : AtomicSection t fun m m' => P ∧ spec m m') : P ∧ AtomicSection t spec :=
  ⟨by obtain ⟨_, _, _, _, _, _, _, _, h, _⟩ := h; exact h.1, h.imp fun _ _ h => h.2⟩

/-- what is known in each state of `checkedCall` -/
def ICheckedInv {α : Type} (A : IBackend W) (chk : Res Unit) (c : Call) (k : c.RetTy → α) (tr : List TEv)
    (cs : List Call) : Option α → Prop
  | none => EnvOnly tr ∧ cs = []
  | some a => chk = .ok () ∧ cs = [c] ∧ ∃ B t1 t t2 rs0 rs, A.Runs c B ∧ B.ICompleted A.e A.ien t rs0 rs ∧
      a = k (c.value B rs) ∧ tr = t1 ++ t ++ t2 ∧ EnvOnly t1 ∧ EnvOnly t2

theorem ichecked_inv {α : Type} {A : IBackend W} {chk : Res Unit} {c : Call} {k : c.RetTy → α} {tr : List TEv}
    {cs : List Call} {s : (checkedCall chk c k).S} (hr : (checkedCall chk c k).IRun A tr cs s) :
    ICheckedInv A chk c k tr cs s := by
  induction hr with
  | start => exact ⟨fun _ h => (nomatch h), rfl⟩
  | irq h m m' ih =>
    rename_i s
    cases s with
    | none => exact ⟨ih.1.snoc m m', ih.2⟩
    | some a =>
      obtain ⟨h0, h1, B, t1, t, t2, rs0, rs, h2, h3, h4, h5, h6, h7⟩ := ih
      exact ⟨h0, h1, B, t1, t, t2 ++ [.env m m'], rs0, rs, h2, h3, h4, by rw [h5]; simp, h6, h7.snoc m m'⟩
  | call h ha hB hr ih =>
    rename_i tr cs s c' k' B t rs0 rs
    cases s with
    | some a => simp [checkedCall] at ha
    | none =>
      simp only [checkedCall] at ha
      cases hc : chk with
      | panic => rw [hc] at ha; cases ha
      | ok u =>
        rw [hc] at ha
        cases ha
        exact ⟨by cases u; rfl, by rw [ih.2]; rfl, B, tr, t, [], rs0, rs, hB, hr, rfl, by simp, ih.1, fun _ h => (nomatch h)⟩

theorem ichecked_returns {α : Type} {A : IBackend W} {chk : Res Unit} {c : Call} {k : c.RetTy → α} {tr : List TEv}
    {cs : List Call} {r : α} (h : (checkedCall chk c k).IReturns A tr cs r) :
    chk = .ok () ∧ cs = [c] ∧ ∃ B t1 t t2 rs0 rs, A.Runs c B ∧ B.ICompleted A.e A.ien t rs0 rs ∧ r = k (c.value B rs) ∧
      tr = t1 ++ t ++ t2 ∧ EnvOnly t1 ∧ EnvOnly t2 := by
  obtain ⟨s, hr, hd⟩ := h
  have key := ichecked_inv hr
  cases s with
  | none =>
    simp only [checkedCall] at hd
    split at hd <;> cases hd
  | some a =>
    simp only [checkedCall] at hd
    cases hd
    exact key

theorem iweak_ok {e : Endian} {w a : Nat} {old new out : BitVec w} {ok : Bool} {t : List TEv} (hok : ok = true)
    (h : AtomicSection t fun m m' => WeakCasSpec e a w old new m m' out ok) :
    out = old ∧ AtomicSection t fun m m' => load e m a w = old ∧ m' = store e m a w new := by
  refine AtomicSection.const (h.imp ?_)
  rintro m m' ⟨h, ⟨h1, _, h2⟩ | ⟨h1, _⟩⟩
  · exact ⟨h.trans h1, h1, h2⟩
  · rw [hok] at h1; cases h1

theorem iweak_err {e : Endian} {w a : Nat} {old new out : BitVec w} {ok : Bool} {t : List TEv} (hok : ok = false)
    (h : AtomicSection t fun m m' => WeakCasSpec e a w old new m m' out ok) :
    AtomicSection t fun m m' => load e m a w = out ∧ m' = m := by
  refine h.imp ?_
  rintro m m' ⟨h, ⟨_, h1, _⟩ | ⟨_, h1⟩⟩
  · rw [hok] at h1; cases h1
  · exact ⟨h.symm, h1⟩

theorem istrong_err {e : Endian} {w a : Nat} {old new out : BitVec w} {ok : Bool} {t : List TEv} (hok : ok = false)
    (h : AtomicSection t fun m m' => CasSpec e a w old new m m' out ok) : out ≠ old := by
  obtain ⟨_, _, _, m, m', _, _, _, ⟨h, ⟨_, h1, _⟩ | ⟨h1, _⟩⟩, _⟩ := h
  · rw [hok] at h1; cases h1
  · rw [h]; exact h1

/-- C01-C05 of the back end, with interrupts, give C01-C05 of the methods. -/
theorem IBackend.methodsAtomic {A : IBackend W} (h1 : A.LoadsAtomic) (h2 : A.StoresAtomic)
    (h3 : A.SwapsAtomic)
    (h4 : A.CasAtomic)
    (h5 : A.WeakCasAtomic) : A.MethodsAtomic where
  load := by
    intro w a o tr cs r h
    obtain ⟨_, hc, B, t1, t, t2, rs0, rs, hB, hr, rfl, rfl, e1, e2⟩ := ichecked_returns h
    exact ⟨hc, (h1 _ _ _ _ hB _ _ _ hr).surround e1 e2⟩
  store := by
    intro w a v o tr cs r h
    obtain ⟨_, hc, B, t1, t, t2, rs0, rs, hB, hr, -, rfl, e1, e2⟩ := ichecked_returns h
    exact ⟨hc, (h2 _ _ _ _ _ hB _ _ _ hr).surround e1 e2⟩
  swap := by
    intro w a v o tr cs r h
    obtain ⟨_, hc, B, t1, t, t2, rs0, rs, hB, hr, rfl, rfl, e1, e2⟩ := ichecked_returns h
    exact ⟨hc, (h3 _ _ _ _ _ hB _ _ _ hr).surround e1 e2⟩
  casOk := by
    intro w a old new s f tr cs p h
    obtain ⟨_, hc, B, t1, t, t2, rs0, rs, hB, hr, hp, rfl, e1, e2⟩ := ichecked_returns h
    obtain ⟨hok, rfl⟩ := toResult_ok hp
    have := iweak_ok hok ((h4 _ _ _ _ _ _ _ hB _ _ _ hr).imp fun _ _ h => h.weak)
    exact ⟨hc, this.1, this.2.surround e1 e2⟩
  casErr := by
    intro w a old new s f tr cs p h
    obtain ⟨_, hc, B, t1, t, t2, rs0, rs, hB, hr, hp, rfl, e1, e2⟩ := ichecked_returns h
    obtain ⟨hok, rfl⟩ := toResult_error hp
    exact ⟨hc, (iweak_err hok ((h4 _ _ _ _ _ _ _ hB _ _ _ hr).imp fun _ _ h => h.weak)).surround e1 e2,
      istrong_err hok (h4 _ _ _ _ _ _ _ hB _ _ _ hr)⟩
  casWeakOk := by
    intro w a old new s f tr cs p h
    obtain ⟨_, hc, B, t1, t, t2, rs0, rs, hB, hr, hp, rfl, e1, e2⟩ := ichecked_returns h
    obtain ⟨hok, rfl⟩ := toResult_ok hp
    have := iweak_ok hok (h5 _ _ _ _ _ _ _ hB _ _ _ hr)
    exact ⟨hc, this.1, this.2.surround e1 e2⟩
  casWeakErr := by
    intro w a old new s f tr cs p h
    obtain ⟨_, hc, B, t1, t, t2, rs0, rs, hB, hr, hp, rfl, e1, e2⟩ := ichecked_returns h
    obtain ⟨hok, rfl⟩ := toResult_error hp
    exact ⟨hc, (iweak_err hok (h5 _ _ _ _ _ _ _ hB _ _ _ hr)).surround e1 e2⟩

theorem Unseen.append {t u : List TEv} (h : Unseen t) (h' : Unseen u) : Unseen (t ++ u) := by
  induction h' with
  | nil => simpa using h
  | env _ m m' ih => rw [← List.append_assoc]; exact ih.env m m'
  | own _ ev m ih => rw [← List.append_assoc]; exact ih.own ev m
  | sec _ m hs ih => rw [← List.append_assoc]; exact ih.sec m hs

theorem Unseen.of_quiet {t : List TEv} (h : Quiet t) : Unseen t := by
  induction t with
  | nil => exact .nil
  | cons x t ih =>
    have ht : Unseen t := ih fun ev m m' hm => h ev m m' (List.mem_cons_of_mem _ hm)
    have hx : Unseen [x] := by
      cases x with
      | env m m' => exact Unseen.env .nil m m'
      | own ev m m' => cases h ev m m' (by simp); exact Unseen.own .nil ev m
    exact hx.append ht

theorem AtomicSection.one {t : List TEv} {spec : Mem → Mem → Prop} (h : AtomicSection t spec) : OneSection t spec := by
  obtain ⟨pre, sec, post, m, m', ht, hne, hc, hs, hid⟩ := h
  exact ⟨pre, sec, post, m, m', ht, hne, hc, hs,
    .of_quiet fun ev a b hm => hid ev a b (List.mem_append.2 (.inl hm)),
    .of_quiet fun ev a b hm => hid ev a b (List.mem_append.2 (.inr hm))⟩

theorem OneSection.prepend {t u : List TEv} {spec : Mem → Mem → Prop} (hq : Unseen t)
    (h : OneSection u spec) : OneSection (t ++ u) spec := by
  obtain ⟨pre, sec, post, m, m', rfl, hne, hc, hs, h1, h2⟩ := h
  exact ⟨t ++ pre, sec, post, m, m', by simp, hne, hc, hs, hq.append h1, h2⟩

theorem OneSection.append {t u : List TEv} {spec : Mem → Mem → Prop} (hq : Unseen u)
    (h : OneSection t spec) : OneSection (t ++ u) spec := by
  obtain ⟨pre, sec, post, m, m', rfl, hne, hc, hs, h1, h2⟩ := h
  exact ⟨pre, sec, post ++ u, m, m', by simp, hne, hc, hs, h1, h2.append hq⟩

theorem OneSection.imp {t : List TEv} {s1 s2 : Mem → Mem → Prop} (h : OneSection t s1)
    (h12 : ∀ m m', s1 m m' → s2 m m') : OneSection t s2 := by
  obtain ⟨pre, sec, post, m, m', ht, hne, hc, hs, hid⟩ := h
  exact ⟨pre, sec, post, m, m', ht, hne, hc, h12 _ _ hs, hid⟩

theorem OneSection.unseen {t : List TEv} {spec : Mem → Mem → Prop} (h : OneSection t spec)
    (hs : ∀ m m', spec m m' → m = m') : Unseen t := by
  obtain ⟨pre, sec, post, m, m', rfl, hne, hc, hsp, h1, h2⟩ := h
  cases hs _ _ hsp
  exact (h1.sec m hc).append h2

section IFetchUpdate
variable {A : IBackend W} {w a : Nat} {so fo : Ordering} {f : Closure w}

/-- what is known in each state of `fetch_update` -/
def IFUInv (A : IBackend W) (a : Nat) (f : Closure w) (tr : List TEv) : FU f → Prop
  | .start => Unseen tr
  | .set prev next s' => Unseen tr ∧ ∃ s, f.Reach s ∧ f.call s prev = (some next, s')
  | .fin (.ok prev) => ∃ s x s', f.Reach s ∧ f.call s prev = (some x, s') ∧
      OneSection tr fun m m' => load A.e m a w = prev ∧ m' = store A.e m a w x
  | .fin (.error prev) => ∃ s s', f.Reach s ∧ f.call s prev = (none, s') ∧
      OneSection tr fun m m' => load A.e m a w = prev ∧ m' = m

theorem IFUInv.next {tr : List TEv} {prev : BitVec w} {s : f.σ} (hs : f.Reach s)
    (h : OneSection tr fun m m' => load A.e m a w = prev ∧ m' = m) :
    IFUInv A a f tr (FU.next f prev s) := by
  unfold FU.next
  split
  · rename_i next s' hc
    exact ⟨h.unseen fun _ _ h => h.2.symm, s, hs, hc⟩
  · rename_i s' hc
    exact ⟨s, s', hs, hc, h⟩

theorem ifu_inv (h1 : A.LoadsAtomic) (h5 : A.WeakCasAtomic) {tr : List TEv} {cs : List Call}
    {s : (fetchUpdateM w a so fo f).S}
    (h : (fetchUpdateM w a so fo f).IRun A tr cs s) : IFUInv A a f tr s := by
  induction h with
  | start => exact .nil
  | irq h m m' ih =>
    rename_i s
    cases s with
    | start => exact ih.append (.env .nil m m')
    | set prev next s' => exact ⟨ih.1.append (.env .nil m m'), ih.2⟩
    | fin r =>
      cases r with
      | ok prev => obtain ⟨s, x, s', h1, h2, h3⟩ := ih; exact ⟨s, x, s', h1, h2, h3.append (.env .nil m m')⟩
      | error prev => obtain ⟨s, s', h1, h2, h3⟩ := ih; exact ⟨s, s', h1, h2, h3.append (.env .nil m m')⟩
  | call h ha hB hr ih =>
    rename_i tr cs s c k B t rs0 rs
    cases s with
    | start =>
      simp only [fetchUpdateM] at ha
      split at ha
      · cases ha
        refine IFUInv.next .init (OneSection.prepend ih ?_)
        refine (h1 _ _ _ _ hB _ _ _ hr).one.imp ?_
        rintro m m' ⟨h, h'⟩
        exact ⟨h.symm, h'⟩
      · cases ha
    | set prev next s' =>
      obtain ⟨hq, s0, hs0, hc⟩ := ih
      have hs' : f.Reach s' := by have := hs0.call prev; rw [hc] at this; exact this
      simp only [fetchUpdateM] at ha
      split at ha
      · cases ha
        have hat := h5 _ _ _ _ _ _ _ hB _ _ _ hr
        simp only [Call.value]
        cases hok : B.ok rs with
        | true =>
          simp only [toResult, if_true]
          simp only [hok] at hat
          have hat2 : AtomicSection t fun m m' =>
              B.out rs = prev ∧ load A.e m a w = prev ∧ m' = store A.e m a w next := by
            refine hat.imp ?_
            rintro m m' ⟨ho, ⟨h, _, h'⟩ | ⟨h, _⟩⟩
            · exact ⟨ho.trans h, h, h'⟩
            · cases h
          have ho : B.out rs = prev := by
            exact (AtomicSection.const hat2).1
          rw [ho]
          exact ⟨s0, next, s', hs0, hc, OneSection.prepend hq (hat2.one.imp fun _ _ h => h.2)⟩
        | false =>
          simp only [toResult, Bool.false_eq_true, if_false]
          simp only [hok] at hat
          refine IFUInv.next hs' (OneSection.prepend hq (hat.one.imp ?_))
          rintro m m' ⟨ho, ⟨_, h, _⟩ | ⟨_, h⟩⟩
          · cases h
          · exact ⟨ho.symm, h⟩
      · cases ha
    | fin r => simp [fetchUpdateM] at ha

end IFetchUpdate

/-- C09 for every single-core back end with atomic loads and weak compare-exchanges. -/
theorem IBackend.fetchUpdateOK {A : IBackend W} (h1 : A.LoadsAtomic) (h5 : A.WeakCasAtomic) :
    A.FetchUpdateOK where
  ok := by
    rintro w a so fo f tr cs prev ⟨s, hr, hd⟩
    have := ifu_inv h1 h5 hr
    cases s with
    | start => simp only [fetchUpdateM] at hd; split at hd <;> cases hd
    | set => simp only [fetchUpdateM] at hd; split at hd <;> cases hd
    | fin r => simp only [fetchUpdateM, Act.done.injEq] at hd; subst hd; exact this
  err := by
    rintro w a so fo f tr cs prev ⟨s, hr, hd⟩
    have := ifu_inv h1 h5 hr
    cases s with
    | start => simp only [fetchUpdateM] at hd; split at hd <;> cases hd
    | set => simp only [fetchUpdateM] at hd; split at hd <;> cases hd
    | fin r => simp only [fetchUpdateM, Act.done.injEq] at hd; subst hd; exact this


end Verif
