/-
C56 on one core with interrupts (AVR, MSP430): methods that panic or are stopped.
-/
import Verif.Intr.Methods
import Verif.Intr.Abandon
import Verif.Api.Unwind

namespace Verif

variable {W : Nat}

/-- The method panicked after the events `tr`. -/
def Method.IPanics {α : Type} (A : IBackend W) (M : Method α) (tr : List TEv) (cs : List Call) : Prop :=
  ∃ s, M.IRun A tr cs s ∧ M.act s = .panic

/-- Everything that happened until a moment at which an interrupt can be taken (nobody else can look at memory at any other
moment): between two calls of the back end, or inside one while interrupts are enabled. -/
def Method.IStopped {α : Type} (A : IBackend W) (M : Method α) (tr : List TEv) : Prop :=
  ∃ t1 cs s, M.IRun A t1 cs s ∧ (tr = t1 ∨ ∃ c k B c0 t2 cfg, M.act s = .call c k ∧ A.Runs c B ∧ c0.pc = 0 ∧ B.pre c0.rs ∧
    Verif.IRun A.e A.ien B.code c0 t2 cfg ∧ A.ien cfg.rs = true ∧ tr = t1 ++ t2)

/-- Either nobody sees a change made by an own step, or there is one uninterrupted section that is as `spec` says, and nobody
sees a change made outside it. -/
def IAllOrNone (tr : List TEv) (spec : Mem → Mem → Prop) : Prop := Unseen tr ∨ OneSection tr spec

/-- C56 with interrupts. Methods that panic or are stopped have done all or nothing. -/
structure IBackend.UnwindOK (A : IBackend W) : Prop where
  /-- If `fetch_update` panics, either the orderings are invalid and nothing has been done, or the closure panicked, called with
  a value that the object held in one uninterrupted section, and nobody sees a change made by any own step of the whole call. -/
  panics : ∀ w a so fo (f : PClosure w) tr cs, (fetchUpdateP w a so fo f).IPanics A tr cs →
    (fo = .release ∨ fo = .acqRel) ∧ (∀ ev m m', TEv.own ev m m' ∉ tr) ∨
    ∃ s prev, f.Reach s ∧ f.call s prev = none ∧ OneSection tr fun m m' => load A.e m a w = prev ∧ m' = m
  /-- If `fetch_update` returns, the closure has not panicked: its last call returned `Some(x)`, and the value it was called with
  has been replaced by `x`, or it returned `None`, and nobody sees a change. -/
  returns : ∀ w a so fo (f : PClosure w) tr cs r, (fetchUpdateP w a so fo f).IReturns A tr cs r →
    match r with
    | .ok prev => ∃ s x s', f.Reach s ∧ f.call s prev = some (some x, s') ∧
        OneSection tr fun m m' => load A.e m a w = prev ∧ m' = store A.e m a w x
    | .error prev => ∃ s s', f.Reach s ∧ f.call s prev = some (none, s') ∧
        OneSection tr fun m m' => load A.e m a w = prev ∧ m' = m
  /-- `fetch_update`, stopped anywhere: nothing, or one replacement of a value by what the closure returned for it. -/
  fetchUpdate : ∀ w a so fo (f : PClosure w) tr, (fetchUpdateP w a so fo f).IStopped A tr →
    IAllOrNone tr fun m m' => ∃ s x s', f.Reach s ∧ f.call s (load A.e m a w) = some (some x, s') ∧ m' = store A.e m a w x
  load : ∀ w a o tr, (loadM w a o).IStopped A tr → Unseen tr
  store : ∀ w a v o tr, (storeM w a v o).IStopped A tr → IAllOrNone tr fun m m' => m' = Verif.store A.e m a w v
  swap : ∀ w a v o tr, (swapM w a v o).IStopped A tr → IAllOrNone tr fun m m' => m' = Verif.store A.e m a w v
  cas : ∀ w a current new s f tr, (casM w a current new s f).IStopped A tr →
    IAllOrNone tr fun m m' => Verif.load A.e m a w = current ∧ m' = Verif.store A.e m a w new
  casWeak : ∀ w a current new s f tr, (casWeakM w a current new s f).IStopped A tr →
    IAllOrNone tr fun m m' => Verif.load A.e m a w = current ∧ m' = Verif.store A.e m a w new

/-! ### Proofs -/

theorem IAllOrNone.prepend {t u : List TEv} {spec : Mem → Mem → Prop} (hq : Unseen t) (h : IAllOrNone u spec) :
    IAllOrNone (t ++ u) spec := h.imp hq.append (OneSection.prepend hq)

theorem IAllOrNone.append {t u : List TEv} {spec : Mem → Mem → Prop} (hq : Unseen u) (h : IAllOrNone t spec) :
    IAllOrNone (t ++ u) spec := h.imp (fun h => h.append hq) (fun h => h.append hq)

theorem IAllOrNone.imp {t : List TEv} {s1 s2 : Mem → Mem → Prop} (h : IAllOrNone t s1) (h12 : ∀ m m', s1 m m' → s2 m m') :
    IAllOrNone t s2 := Or.imp id (fun h => h.imp h12) h

theorem AtomicSection.iAllOrNone {A : IBackend W} {c : Call} {t : List TEv}
    (h : NoChange t ∨ AtomicSection t (fun m m' => m' = m) ∨ AtomicSection t (fun m m' => c.Effect A.e m m')) :
    IAllOrNone t (c.Effect A.e) := by
  rcases h with h | h | h
  · exact .inl (Unseen.of_quiet h.quiet)
  · exact .inl (h.one.unseen fun _ _ h => h.symm)
  · exact .inr h.one

section
variable {A : IBackend W} {w a : Nat} {so fo : Ordering} {f : PClosure w}

/-- what is known in each state of `fetch_update` -/
def IFUPInv (A : IBackend W) (a : Nat) (fo : Ordering) (f : PClosure w) (tr : List TEv) : FUP f → Prop
  | .start => EnvOnly tr
  | .set prev next s' => (assertLoadOrdering fo = .ok ()) ∧ Unseen tr ∧ ∃ s, f.Reach s ∧ f.call s prev = some (some next, s')
  | .fin (.ok prev) => ∃ s x s', f.Reach s ∧ f.call s prev = some (some x, s') ∧
      OneSection tr fun m m' => load A.e m a w = prev ∧ m' = store A.e m a w x
  | .fin (.error prev) => ∃ s s', f.Reach s ∧ f.call s prev = some (none, s') ∧
      OneSection tr fun m m' => load A.e m a w = prev ∧ m' = m
  | .unwound => ∃ s prev, f.Reach s ∧ f.call s prev = none ∧ OneSection tr fun m m' => load A.e m a w = prev ∧ m' = m

theorem IFUPInv.next {tr : List TEv} {prev : BitVec w} {s : f.σ} (hs : f.Reach s) (hfo : assertLoadOrdering fo = .ok ())
    (h : OneSection tr fun m m' => load A.e m a w = prev ∧ m' = m) :
    IFUPInv A a fo f tr (FUP.next f prev s) := by
  unfold FUP.next
  split
  · rename_i next s' hc
    exact ⟨hfo, h.unseen fun _ _ h => h.2.symm, s, hs, hc⟩
  · rename_i s' hc
    exact ⟨s, s', hs, hc, h⟩
  · rename_i hc
    exact ⟨s, prev, hs, hc, h⟩

theorem ifup_inv (h1 : A.LoadsAtomic) (h5 : A.WeakCasAtomic) {tr : List TEv} {cs : List Call}
    {s : (fetchUpdateP w a so fo f).S}
    (h : (fetchUpdateP w a so fo f).IRun A tr cs s) : IFUPInv A a fo f tr s := by
  induction h with
  | start => intro ev h; simp at h
  | irq h m m' ih =>
    rename_i s
    cases s with
    | start => exact ih.snoc m m'
    | set prev next s' => exact ⟨ih.1, ih.2.1.env m m', ih.2.2⟩
    | unwound => obtain ⟨s, x, h1, h2, h3⟩ := ih; exact ⟨s, x, h1, h2, h3.append (.env .nil m m')⟩
    | fin r =>
      cases r with
      | ok prev => obtain ⟨s, x, s', h1, h2, h3⟩ := ih; exact ⟨s, x, s', h1, h2, h3.append (.env .nil m m')⟩
      | error prev => obtain ⟨s, s', h1, h2, h3⟩ := ih; exact ⟨s, s', h1, h2, h3.append (.env .nil m m')⟩
  | call h ha hB hr ih =>
    rename_i tr cs s c k B t rs0 rs
    cases s with
    | start =>
      simp only [fetchUpdateP] at ha
      split at ha
      · rename_i hfo
        cases ha
        refine IFUPInv.next .init hfo (OneSection.prepend (Unseen.of_quiet ih.quiet) ?_)
        refine (h1 _ _ _ _ hB _ _ _ hr).one.imp ?_
        rintro m m' ⟨h, h'⟩
        exact ⟨h.symm, h'⟩
      · cases ha
    | set prev next s' =>
      obtain ⟨hfo, hq, s0, hs0, hc⟩ := ih
      have hs' : f.Reach s' := hs0.call hc
      simp only [fetchUpdateP] at ha
      split at ha
      · cases ha
        have hat := h5 _ _ _ _ _ _ _ hB _ _ _ hr
        simp only [Call.value]
        cases hok : B.ok rs with
        | true =>
          simp only [toResult, if_true]
          simp only [hok] at hat
          have hat2 : AtomicSection t fun m m' =>
              B.out rs = prev ∧ load A.e m a w = prev ∧ m' = store A.e m a w next := by
            refine hat.imp ?_
            rintro m m' ⟨ho, ⟨h, _, h'⟩ | ⟨h, _⟩⟩
            · exact ⟨ho.trans h, h, h'⟩
            · cases h
          have ho : B.out rs = prev := (AtomicSection.const hat2).1
          rw [ho]
          exact ⟨s0, next, s', hs0, hc, OneSection.prepend hq (hat2.one.imp fun _ _ h => h.2)⟩
        | false =>
          simp only [toResult, Bool.false_eq_true, if_false]
          simp only [hok] at hat
          refine IFUPInv.next hs' hfo (OneSection.prepend hq (hat.one.imp ?_))
          rintro m m' ⟨ho, ⟨_, h, _⟩ | ⟨_, h⟩⟩
          · cases h
          · exact ⟨ho.symm, h⟩
      · cases ha
    | fin r => simp [fetchUpdateP] at ha
    | unwound => simp [fetchUpdateP] at ha

theorem ifup_stopped (h1 : A.LoadsAtomic) (h5 : A.WeakCasAtomic) (h40 : A.AllOrNothing) {tr : List TEv}
    (h : (fetchUpdateP w a so fo f).IStopped A tr) :
    IAllOrNone tr fun m m' => ∃ s x s', f.Reach s ∧ f.call s (load A.e m a w) = some (some x, s') ∧
      m' = store A.e m a w x := by
  obtain ⟨t1, cs, s, hr, h⟩ := h
  have hi := ifup_inv h1 h5 hr
  rcases h with rfl | ⟨c, k, B, c0, t2, cfg, ha, hB, h0, hp, hrun2, hen, rfl⟩
  · cases s with
    | start => exact .inl (Unseen.of_quiet (EnvOnly.quiet hi))
    | set prev next s' => exact .inl hi.2.1
    | unwound => obtain ⟨s, x, h1, h2, h3⟩ := hi; exact .inl (h3.unseen fun _ _ h => h.2.symm)
    | fin r =>
      cases r with
      | ok prev =>
        obtain ⟨s, x, s', h1, h2, h3⟩ := hi
        refine .inr (h3.imp ?_)
        rintro m m' ⟨rfl, rfl⟩
        exact ⟨s, x, s', h1, h2, rfl⟩
      | error prev => obtain ⟨s, s', h1, h2, h3⟩ := hi; exact .inl (h3.unseen fun _ _ h => h.2.symm)
  · have h40 := AtomicSection.iAllOrNone (h40 c B hB c0 t2 cfg h0 hp hrun2 hen)
    cases s with
    | start =>
      simp only [fetchUpdateP] at ha
      split at ha
      · cases ha
        refine .inl ((Unseen.of_quiet (EnvOnly.quiet hi)).append ?_)
        exact h40.elim id fun h => h.unseen fun _ _ h => Eq.symm h
      · cases ha
    | set prev next s' =>
      obtain ⟨hfo, hq, s0, hs0, hc⟩ := hi
      simp only [fetchUpdateP] at ha
      split at ha
      · cases ha
        refine IAllOrNone.prepend hq (IAllOrNone.imp (s1 := (Call.casWeak so fo w a prev next).Effect A.e) h40 ?_)
        rintro m m' ⟨rfl, h⟩
        exact ⟨s0, next, s', hs0, hc, h⟩
      · cases ha
    | fin r => simp [fetchUpdateP] at ha
    | unwound => simp [fetchUpdateP] at ha

theorem ichecked_stopped {α : Type} {chk : Res Unit} {c : Call} {k : c.RetTy → α} {spec : Mem → Mem → Prop}
    (h40 : A.AllOrNothing) (hfull : ∀ B, A.Runs c B → ∀ t rs0 rs, B.ICompleted A.e A.ien t rs0 rs → IAllOrNone t spec)
    (hs : ∀ m m', c.Effect A.e m m' → spec m m') {tr : List TEv}
    (h : (checkedCall chk c k).IStopped A tr) : IAllOrNone tr spec := by
  obtain ⟨t1, cs, s, hr, h⟩ := h
  have hi := ichecked_inv hr
  cases s with
  | none =>
    have hq := Unseen.of_quiet (EnvOnly.quiet hi.1)
    rcases h with rfl | ⟨c', k, B, c0, t2, cfg, ha, hB, h0, hp, hrun2, hen, rfl⟩
    · exact .inl hq
    · simp only [checkedCall] at ha
      split at ha
      · cases ha
        exact IAllOrNone.prepend hq ((AtomicSection.iAllOrNone (h40 _ B hB c0 t2 cfg h0 hp hrun2 hen)).imp hs)
      · cases ha
  | some x =>
    rcases h with rfl | ⟨c', k, B, c0, t2, cfg, ha, hB, h0, hp, hrun2, hen, rfl⟩
    · obtain ⟨_, _, B, t1, t, t2, rs0, rs, hB, hc, _, rfl, hq1, hq2⟩ := hi
      exact (IAllOrNone.prepend (Unseen.of_quiet hq1.quiet) (hfull B hB _ _ _ hc)).append (Unseen.of_quiet hq2.quiet)
    · simp [checkedCall] at ha

end

/-- C56 for every single-core back end. -/
theorem IBackend.unwindOK {A : IBackend W} (hA : A.AllAtomic) (h40 : A.AllOrNothing) : A.UnwindOK where
  panics := by
    rintro w a so fo f tr cs ⟨s, hr, hp⟩
    have hi := ifup_inv hA.1 hA.2.2.2.2 hr
    cases s with
    | start =>
      simp only [fetchUpdateP] at hp
      split at hp
      · cases hp
      · rename_i hfo
        refine .inl ⟨?_, fun ev m m' hm => by obtain ⟨x, y, h⟩ := hi _ hm; cases h⟩
        cases fo <;> simp_all [assertLoadOrdering]
    | set prev next s' =>
      simp only [fetchUpdateP] at hp
      split at hp
      · cases hp
      · rename_i hf
        have := hi.1
        cases fo <;> simp_all [assertLoadOrdering, assertCompareExchangeOrdering]
    | fin r => simp [fetchUpdateP] at hp
    | unwound => exact .inr hi
  returns := by
    rintro w a so fo f tr cs r ⟨s, hr, hd⟩
    have hi := ifup_inv hA.1 hA.2.2.2.2 hr
    cases s with
    | start => simp only [fetchUpdateP] at hd; split at hd <;> cases hd
    | set prev next s' => simp only [fetchUpdateP] at hd; split at hd <;> cases hd
    | unwound => simp [fetchUpdateP] at hd
    | fin r' =>
      simp only [fetchUpdateP] at hd
      cases hd
      cases r <;> exact hi
  fetchUpdate := fun w a so fo f tr h => ifup_stopped hA.1 hA.2.2.2.2 h40 h
  load := by
    intro w a o tr h
    have := ichecked_stopped (c := .load o w a) (spec := fun m m' => m' = m) h40 (fun B hB t rs0 rs hc =>
      .inr ((hA.1 _ _ _ _ hB _ _ _ hc).one.imp fun _ _ h => h.2)) (fun _ _ h => h) h
    exact this.elim id fun h => h.unseen fun _ _ h => h.symm
  store := fun w a v o tr h => ichecked_stopped (c := .store o w a v) h40 (fun B hB t rs0 rs hc =>
    .inr ((hA.2.1 _ _ _ _ _ hB _ _ _ hc).one)) (fun _ _ h => h) h
  swap := fun w a v o tr h => ichecked_stopped (c := .swap o w a v) h40 (fun B hB t rs0 rs hc =>
    .inr ((hA.2.2.1 _ _ _ _ _ hB _ _ _ hc).one.imp fun _ _ h => h.2)) (fun _ _ h => h) h
  cas := fun w a current new s f tr h => ichecked_stopped (c := .cas s f w a current new) h40 (fun B hB t rs0 rs hc => by
    have hh := hA.2.2.2.1 _ _ _ _ _ _ _ hB _ _ _ hc
    rcases hh.imp' (P := fun m m' => m' = m)
      (Q := fun m m' => Verif.load A.e m a w = current ∧ m' = Verif.store A.e m a w new)
      (fun m m' h => h.2.elim (fun h => .inr ⟨h.1, h.2.2⟩) fun h => .inl h.2.2) with h | h
    · exact .inl (h.one.unseen fun _ _ h => h.symm)
    · exact .inr h.one) (fun _ _ h => h) h
  casWeak := fun w a current new s f tr h => ichecked_stopped (c := .casWeak s f w a current new) h40 (fun B hB t rs0 rs hc => by
    have hh := hA.2.2.2.2 _ _ _ _ _ _ _ hB _ _ _ hc
    rcases hh.imp' (P := fun m m' => m' = m)
      (Q := fun m m' => Verif.load A.e m a w = current ∧ m' = Verif.store A.e m a w new)
      (fun m m' h => h.2.elim (fun h => .inr ⟨h.1, h.2.2⟩) fun h => .inl h.2) with h | h
    · exact .inl (h.one.unseen fun _ _ h => h.symm)
    · exact .inr h.one) (fun _ _ h => h) h

end Verif
