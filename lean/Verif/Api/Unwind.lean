/-
C56: methods that do not return. The closure of `fetch_update` is the caller's code: it may panic. And a thread may be
stopped at any instruction of any method (killed, suspended for ever, or somebody else looks while it runs).
-/
import Verif.Api.Methods
import Verif.Lin.Abandon
import Verif.Api.MethodProof

namespace Verif

variable {W : Nat}

/-- The closure passed to `fetch_update`, which may panic (`none`). -/
structure PClosure (w : Nat) where
  σ : Type
  init : σ
  call : σ → BitVec w → Option (Option (BitVec w) × σ)

/-- Closure states that can occur. -/
inductive PClosure.Reach {w : Nat} (f : PClosure w) : f.σ → Prop where
  | init : f.Reach f.init
  | call {s s' : f.σ} {v : BitVec w} {r} (h : f.Reach s) (hc : f.call s v = some (r, s')) : f.Reach s'

/-- Local state of `fetch_update`, as `FU`; `unwound`: the closure has panicked. -/
inductive FUP {w : Nat} (f : PClosure w) where
  | start
  | set (prev next : BitVec w) (s : f.σ)
  | fin (r : Except (BitVec w) (BitVec w))
  | unwound

/-- src/lib.rs l.720-726, as `FU.next`: `while let Some(next) = f(prev) { .. } Err(prev)`. -/
def FUP.next {w : Nat} (f : PClosure w) (prev : BitVec w) (s : f.σ) : FUP f :=
  match f.call s prev with
  | some (some next, s') => .set prev next s'
  | some (none, _) => .fin (.error prev)
  | none => .unwound

/-- src/lib.rs l.709-727 `fetch_update`, as `fetchUpdateM`, with a closure that may panic. There is nothing to run while
unwinding: `self` is a shared reference and the values are `Copy`. -/
def fetchUpdateP (w a : Nat) (setOrder fetchOrder : Ordering) (f : PClosure w) :
    Method (Except (BitVec w) (BitVec w)) where
  S := FUP f
  init := .start
  act
    | .start => match assertLoadOrdering fetchOrder with
      | .ok () => .call (.load fetchOrder w a) fun prev => FUP.next f prev f.init
      | .panic => .panic
    | .set prev next s => match assertCompareExchangeOrdering setOrder fetchOrder with
      | .ok () => .call (.casWeak setOrder fetchOrder w a prev next) fun r =>
          match toResult r with
          | .ok x => .fin (.ok x)
          | .error nextPrev => FUP.next f nextPrev s
      | .panic => .panic
    | .fin r => .done r
    | .unwound => .panic

/-- Everything that happened until a method is stopped: between two calls of the back end, or at some instruction of one. -/
def Method.Stopped {α : Type} (A : Backend W) (M : Method α) (tr : List TEv) : Prop :=
  ∃ t1 cs s, M.Run A t1 cs s ∧ (tr = t1 ∨ ∃ c k B c0 t2 cfg, M.act s = .call c k ∧ A.Runs c B ∧ c0.pc = 0 ∧ B.pre c0.rs ∧
    Verif.Run A.e B.code c0 t2 cfg ∧ tr = t1 ++ t2)

/-- Either no own step has changed memory, or exactly one has, and that one is as `spec` says. -/
def AllOrNone (tr : List TEv) (spec : Mem → Mem → Prop) : Prop :=
  NoChange tr ∨ ∃ pre ev m m' post, tr = pre ++ TEv.own ev m m' :: post ∧ NoChange (pre ++ post) ∧ spec m m'

/-- C56. Methods that panic or are stopped have done all or nothing. -/
structure Backend.UnwindOK (A : Backend W) : Prop where
  /-- If `fetch_update` panics, either the orderings are invalid and nothing has been done, or the closure panicked, called with
  a value that the object held at one instant, and no own step of the whole call has changed memory. -/
  panics : ∀ w a so fo (f : PClosure w) tr cs, (fetchUpdateP w a so fo f).Panics A tr cs →
    (fo = .release ∨ fo = .acqRel) ∧ (∀ ev m m', TEv.own ev m m' ∉ tr) ∨
    ∃ s prev, f.Reach s ∧ f.call s prev = none ∧ AtomicTrace tr fun m m' => load A.e m a w = prev ∧ m' = m
  /-- If `fetch_update` returns, the closure has not panicked: its last call returned `Some(x)`, and the value it was called with
  has been replaced by `x`, or it returned `None`, and nothing has been changed. -/
  returns : ∀ w a so fo (f : PClosure w) tr cs r, (fetchUpdateP w a so fo f).Returns A tr cs r →
    match r with
    | .ok prev => ∃ s x s', f.Reach s ∧ f.call s prev = some (some x, s') ∧
        AtomicTrace tr fun m m' => load A.e m a w = prev ∧ m' = store A.e m a w x
    | .error prev => ∃ s s', f.Reach s ∧ f.call s prev = some (none, s') ∧
        AtomicTrace tr fun m m' => load A.e m a w = prev ∧ m' = m
  /-- `fetch_update`, stopped anywhere: nothing, or one replacement of a value by what the closure returned for it. -/
  fetchUpdate : ∀ w a so fo (f : PClosure w) tr, (fetchUpdateP w a so fo f).Stopped A tr →
    AllOrNone tr fun m m' => ∃ s x s', f.Reach s ∧ f.call s (load A.e m a w) = some (some x, s') ∧ m' = store A.e m a w x
  load : ∀ w a o tr, (loadM w a o).Stopped A tr → NoChange tr
  store : ∀ w a v o tr, (storeM w a v o).Stopped A tr → AllOrNone tr fun m m' => m' = Verif.store A.e m a w v
  swap : ∀ w a v o tr, (swapM w a v o).Stopped A tr → AllOrNone tr fun m m' => m' = Verif.store A.e m a w v
  cas : ∀ w a current new s f tr, (casM w a current new s f).Stopped A tr →
    AllOrNone tr fun m m' => Verif.load A.e m a w = current ∧ m' = Verif.store A.e m a w new
  casWeak : ∀ w a current new s f tr, (casWeakM w a current new s f).Stopped A tr →
    AllOrNone tr fun m m' => Verif.load A.e m a w = current ∧ m' = Verif.store A.e m a w new

/-! ### Proofs -/

theorem NoChange.append {t u : List TEv} (h : NoChange t) (h' : NoChange u) : NoChange (t ++ u) := fun ev m m' hm =>
  (List.mem_append.1 hm).elim (h ev m m') (h' ev m m')

theorem Quiet.noChange {t : List TEv} (h : Quiet t) : NoChange t := fun ev m m' hm => (h ev m m' hm).symm
theorem NoChange.quiet {t : List TEv} (h : NoChange t) : Quiet t := fun ev m m' hm => (h ev m m' hm).symm

theorem AllOrNone.prepend {t u : List TEv} {spec : Mem → Mem → Prop} (hq : NoChange t) (h : AllOrNone u spec) :
    AllOrNone (t ++ u) spec := by
  rcases h with h | ⟨pre, ev, m, m', post, rfl, hn, hs⟩
  · exact .inl (hq.append h)
  · exact .inr ⟨t ++ pre, ev, m, m', post, by simp, by rw [List.append_assoc]; exact hq.append hn, hs⟩

theorem AllOrNone.append {t u : List TEv} {spec : Mem → Mem → Prop} (hq : NoChange u) (h : AllOrNone t spec) :
    AllOrNone (t ++ u) spec := by
  rcases h with h | ⟨pre, ev, m, m', post, rfl, hn, hs⟩
  · exact .inl (h.append hq)
  · exact .inr ⟨pre, ev, m, m', post ++ u, by simp, by rw [← List.append_assoc]; exact hn.append hq, hs⟩

theorem AllOrNone.imp {t : List TEv} {s1 s2 : Mem → Mem → Prop} (h : AllOrNone t s1) (h12 : ∀ m m', s1 m m' → s2 m m') :
    AllOrNone t s2 := by
  rcases h with h | ⟨pre, ev, m, m', post, ht, hn, hs⟩
  · exact .inl h
  · exact .inr ⟨pre, ev, m, m', post, ht, hn, h12 _ _ hs⟩

theorem AtomicTrace.allOrNone {t : List TEv} {s1 : Mem → Mem → Prop} (h : AtomicTrace t s1) : AllOrNone t s1 := by
  obtain ⟨pre, ev, m, m', post, ht, hn, hs⟩ := h
  exact .inr ⟨pre, ev, m, m', post, ht, fun ev m m' hm => (hn ev m m' hm).symm, hs⟩

section
variable {A : Backend W} {w a : Nat} {so fo : Ordering} {f : PClosure w}

/-- what is known in each state of `fetch_update` -/
def FUPInv (A : Backend W) (a : Nat) (fo : Ordering) (f : PClosure w) (tr : List TEv) : FUP f → Prop
  | .start => EnvOnly tr
  | .set prev next s' => (assertLoadOrdering fo = .ok ()) ∧ Quiet tr ∧ ∃ s, f.Reach s ∧ f.call s prev = some (some next, s')
  | .fin (.ok prev) => ∃ s x s', f.Reach s ∧ f.call s prev = some (some x, s') ∧
      AtomicTrace tr fun m m' => load A.e m a w = prev ∧ m' = store A.e m a w x
  | .fin (.error prev) => ∃ s s', f.Reach s ∧ f.call s prev = some (none, s') ∧
      AtomicTrace tr fun m m' => load A.e m a w = prev ∧ m' = m
  | .unwound => ∃ s prev, f.Reach s ∧ f.call s prev = none ∧ AtomicTrace tr fun m m' => load A.e m a w = prev ∧ m' = m

theorem FUPInv.next {tr : List TEv} {prev : BitVec w} {s : f.σ} (hs : f.Reach s) (hfo : assertLoadOrdering fo = .ok ())
    (h : AtomicTrace tr fun m m' => load A.e m a w = prev ∧ m' = m) :
    FUPInv A a fo f tr (FUP.next f prev s) := by
  unfold FUP.next
  split
  · rename_i next s' hc
    exact ⟨hfo, h.quiet fun _ _ h => h.2.symm, s, hs, hc⟩
  · rename_i s' hc
    exact ⟨s, s', hs, hc, h⟩
  · rename_i hc
    exact ⟨s, prev, hs, hc, h⟩

theorem fup_inv (h1 : A.LoadsAtomic) (h5 : A.WeakCasAtomic) {tr : List TEv} {cs : List Call}
    {s : (fetchUpdateP w a so fo f).S}
    (h : (fetchUpdateP w a so fo f).Run A tr cs s) : FUPInv A a fo f tr s := by
  induction h with
  | start => intro ev h; simp at h
  | env h m m' ih =>
    rename_i s
    cases s with
    | start => exact ih.snoc m m'
    | set prev next s' => exact ⟨ih.1, ih.2.1.append (quiet_env m m'), ih.2.2⟩
    | unwound => obtain ⟨s, x, h1, h2, h3⟩ := ih; exact ⟨s, x, h1, h2, h3.append (quiet_env m m')⟩
    | fin r =>
      cases r with
      | ok prev => obtain ⟨s, x, s', h1, h2, h3⟩ := ih; exact ⟨s, x, s', h1, h2, h3.append (quiet_env m m')⟩
      | error prev => obtain ⟨s, s', h1, h2, h3⟩ := ih; exact ⟨s, s', h1, h2, h3.append (quiet_env m m')⟩
  | call h ha hB hr ih =>
    rename_i tr cs s c k B t rs
    cases s with
    | start =>
      simp only [fetchUpdateP] at ha
      split at ha
      · rename_i hfo
        cases ha
        refine FUPInv.next .init hfo (AtomicTrace.prepend ih.quiet ?_)
        refine (h1 _ _ _ _ hB _ _ hr).imp ?_
        rintro m m' ⟨h, h'⟩
        exact ⟨h.symm, h'⟩
      · cases ha
    | set prev next s' =>
      obtain ⟨hfo, hq, s0, hs0, hc⟩ := ih
      have hs' : f.Reach s' := hs0.call hc
      simp only [fetchUpdateP] at ha
      split at ha
      · cases ha
        have hat := h5 _ _ _ _ _ _ _ hB _ _ hr
        simp only [Call.value]
        cases hok : B.ok rs with
        | true =>
          simp only [toResult, if_true]
          simp only [hok] at hat
          have hat2 : AtomicTrace t fun m m' =>
              B.out rs = prev ∧ load A.e m a w = prev ∧ m' = store A.e m a w next := by
            refine hat.imp ?_
            rintro m m' ⟨ho, ⟨h, _, h'⟩ | ⟨h, _⟩⟩
            · exact ⟨ho.trans h, h, h'⟩
            · cases h
          have ho : B.out rs = prev := by
            obtain ⟨_, _, m, m', _, _, _, h⟩ := hat2; exact h.1
          rw [ho]
          exact ⟨s0, next, s', hs0, hc, AtomicTrace.prepend hq (hat2.imp fun _ _ h => h.2)⟩
        | false =>
          simp only [toResult, Bool.false_eq_true, if_false]
          simp only [hok] at hat
          refine FUPInv.next hs' hfo (AtomicTrace.prepend hq (hat.imp ?_))
          rintro m m' ⟨ho, ⟨_, h, _⟩ | ⟨_, h⟩⟩
          · cases h
          · exact ⟨ho.symm, h⟩
      · cases ha
    | fin r => simp [fetchUpdateP] at ha
    | unwound => simp [fetchUpdateP] at ha

theorem fup_stopped (h1 : A.LoadsAtomic) (h5 : A.WeakCasAtomic) (h40 : A.AllOrNothing) {tr : List TEv}
    (h : (fetchUpdateP w a so fo f).Stopped A tr) :
    AllOrNone tr fun m m' => ∃ s x s', f.Reach s ∧ f.call s (load A.e m a w) = some (some x, s') ∧ m' = store A.e m a w x := by
  obtain ⟨t1, cs, s, hr, h⟩ := h
  have hi := fup_inv h1 h5 hr
  have hrun : AllOrNone t1 fun m m' => ∃ s x s', f.Reach s ∧ f.call s (load A.e m a w) = some (some x, s') ∧
      m' = store A.e m a w x := by
    cases s with
    | start => exact .inl (EnvOnly.quiet hi).noChange
    | set prev next s' => exact .inl hi.2.1.noChange
    | unwound => obtain ⟨s, x, h1, h2, h3⟩ := hi; exact .inl (h3.quiet fun _ _ h => h.2.symm).noChange
    | fin r =>
      cases r with
      | ok prev =>
        obtain ⟨s, x, s', h1, h2, h3⟩ := hi
        refine h3.allOrNone.imp ?_
        rintro m m' ⟨rfl, rfl⟩
        exact ⟨s, x, s', h1, h2, rfl⟩
      | error prev => obtain ⟨s, s', h1, h2, h3⟩ := hi; exact .inl (h3.quiet fun _ _ h => h.2.symm).noChange
  rcases h with rfl | ⟨c, k, B, c0, t2, cfg, ha, hB, h0, hp, hrun2, rfl⟩
  · exact hrun
  · have h40 := h40 c B hB c0 t2 cfg h0 hp hrun2
    cases s with
    | start =>
      simp only [fetchUpdateP] at ha
      split at ha
      · cases ha
        refine AllOrNone.prepend (EnvOnly.quiet hi).noChange ?_
        rcases h40 with h40 | ⟨pre, ev, m, m', post, rfl, hn, he⟩
        · exact .inl h40
        · left
          intro ev' x y hx
          simp only [List.mem_append, List.mem_cons] at hx
          rcases hx with hx | hx | hx
          · exact hn ev' x y (by simp [hx])
          · cases hx; exact he
          · exact hn ev' x y (by simp [hx])
      · cases ha
    | set prev next s' =>
      obtain ⟨hfo, hq, s0, hs0, hc⟩ := hi
      simp only [fetchUpdateP] at ha
      split at ha
      · cases ha
        refine AllOrNone.prepend hq.noChange (AllOrNone.imp (s1 := (Call.casWeak so fo w a prev next).Effect A.e) h40 ?_)
        rintro m m' ⟨rfl, h⟩
        exact ⟨s0, next, s', hs0, hc, h⟩
      · cases ha
    | fin r => simp [fetchUpdateP] at ha
    | unwound => simp [fetchUpdateP] at ha

/-- C56 for a method that calls the back end once. -/
theorem checked_stopped {α : Type} {chk : Res Unit} {c : Call} {k : c.RetTy → α} (h40 : A.AllOrNothing) {tr : List TEv}
    (h : (checkedCall chk c k).Stopped A tr) : AllOrNone tr (c.Effect A.e) := by
  obtain ⟨t1, cs, s, hr, h⟩ := h
  have hi := checked_inv hr
  cases s with
  | none =>
    have hq := (EnvOnly.quiet hi.1).noChange
    rcases h with rfl | ⟨c', k, B, c0, t2, cfg, ha, hB, h0, hp, hrun2, rfl⟩
    · exact .inl hq
    · simp only [checkedCall] at ha
      split at ha
      · cases ha
        exact AllOrNone.prepend hq (h40 _ B hB c0 t2 cfg h0 hp hrun2)
      · cases ha
  | some x =>
    rcases h with rfl | ⟨c', k, B, c0, t2, cfg, ha, hB, h0, hp, hrun2, rfl⟩
    · obtain ⟨_, _, B, t1, t, t2, rs, hB, ⟨c0, c1, h0, hp, hr1, -, -⟩, _, rfl, hq1, hq2⟩ := hi
      exact (AllOrNone.prepend hq1.quiet.noChange (h40 _ B hB c0 t c1 h0 hp hr1)).append hq2.quiet.noChange
    · simp [checkedCall] at ha

end

/-! ### `fetchUpdateP` extends `fetchUpdateM` -/

/-- A closure that never panics. -/
def Closure.total {w : Nat} (f : Closure w) : PClosure w := ⟨f.σ, f.init, fun s v => some (f.call s v)⟩

/-- The states of the two models that correspond. -/
def FU.toP {w : Nat} {f : Closure w} : FU f → FUP f.total
  | .start => .start
  | .set prev next s => .set prev next s
  | .fin r => .fin r

theorem FU.toP_next {w : Nat} (f : Closure w) (prev : BitVec w) (s : f.σ) :
    (FU.next f prev s).toP = FUP.next f.total prev s := by
  unfold FU.next FUP.next
  simp only [Closure.total]
  split <;> rename_i h <;> simp only [h] <;> rfl

private def contM {w : Nat} (f : Closure w) (s : f.σ) (r : BitVec w × Bool) : FU f :=
  match toResult r with
  | .ok x => .fin (.ok x)
  | .error nextPrev => FU.next f nextPrev s

private def contP {w : Nat} (f : Closure w) (s : f.σ) (r : BitVec w × Bool) : FUP f.total :=
  match toResult r with
  | .ok x => .fin (.ok x)
  | .error nextPrev => FUP.next f.total nextPrev s

private theorem contM_toP {w : Nat} (f : Closure w) (s : f.σ) (r : BitVec w × Bool) : (contM f s r).toP = contP f s r := by
  unfold contM contP
  split
  · rfl
  · exact FU.toP_next f _ _

/-- With a closure that never panics, the model is that of C09. -/
theorem fetchUpdateP_total {A : Backend W} {w a : Nat} {so fo : Ordering} {f : Closure w} {tr : List TEv} {cs : List Call}
    {r : Except (BitVec w) (BitVec w)} :
    (fetchUpdateP w a so fo f.total).Returns A tr cs r ↔ (fetchUpdateM w a so fo f).Returns A tr cs r := by
  have aM1 : assertLoadOrdering fo = .ok () → (fetchUpdateM w a so fo f).act FU.start =
      .call (.load fo w a) fun prev => FU.next f prev f.init := by intro h; simp only [fetchUpdateM, h]
  have aP1 : assertLoadOrdering fo = .ok () → (fetchUpdateP w a so fo f.total).act FUP.start =
      .call (.load fo w a) fun prev => FUP.next f.total prev f.init := by intro h; simp only [fetchUpdateP, h]; rfl
  have aM2 : ∀ prev next s, assertCompareExchangeOrdering so fo = .ok () → (fetchUpdateM w a so fo f).act (FU.set prev next s) =
      .call (.casWeak so fo w a prev next) (contM f s) := by intro _ _ _ h; simp only [fetchUpdateM, h]; rfl
  have aP2 : ∀ prev next s, assertCompareExchangeOrdering so fo = .ok () →
      (fetchUpdateP w a so fo f.total).act (FUP.set prev next s) =
      .call (.casWeak so fo w a prev next) (contP f s) := by intro _ _ _ h; simp only [fetchUpdateP, h]; rfl
  constructor
  · rintro ⟨s, hr, hd⟩
    have : ∃ s0 : FU f, s0.toP = s ∧ (fetchUpdateM w a so fo f).Run A tr cs s0 := by
      clear hd
      induction hr with
      | start => exact ⟨.start, rfl, .start⟩
      | env h m m' ih => obtain ⟨s0, h1, h2⟩ := ih; exact ⟨s0, h1, h2.env m m'⟩
      | call h ha hB hr ih =>
        rename_i tr cs s c k B t rs
        obtain ⟨s0, rfl, h2⟩ := ih
        cases s0 with
        | start =>
          cases hc : assertLoadOrdering fo with
          | panic => simp [FU.toP, fetchUpdateP, hc] at ha
          | ok u =>
            rw [FU.toP, aP1 hc] at ha
            cases ha
            exact ⟨_, FU.toP_next f _ _, h2.call (aM1 hc) hB hr⟩
        | set prev next s' =>
          cases hc : assertCompareExchangeOrdering so fo with
          | panic => simp [FU.toP, fetchUpdateP, hc] at ha
          | ok u =>
            have ha := (aP2 prev next s' hc).symm.trans ha
            cases ha
            exact ⟨_, contM_toP f _ _, h2.call (aM2 _ _ _ hc) hB hr⟩
        | fin r => simp [FU.toP, fetchUpdateP] at ha
    obtain ⟨s0, rfl, h2⟩ := this
    refine ⟨s0, h2, ?_⟩
    cases s0 with
    | start => simp only [FU.toP, fetchUpdateP] at hd; split at hd <;> cases hd
    | set => simp only [FU.toP, fetchUpdateP] at hd; split at hd <;> cases hd
    | fin r => simp only [FU.toP, fetchUpdateP, Act.done.injEq] at hd; subst hd; rfl
  · rintro ⟨s, hr, hd⟩
    have : (fetchUpdateP w a so fo f.total).Run A tr cs (FU.toP s) := by
      clear hd
      induction hr with
      | start => exact .start
      | env h m m' ih => exact ih.env m m'
      | call h ha hB hr ih =>
        rename_i tr cs s c k B t rs
        cases s with
        | start =>
          cases hc : assertLoadOrdering fo with
          | panic => simp [fetchUpdateM, hc] at ha
          | ok u =>
            rw [aM1 hc] at ha
            cases ha
            have := ih.call (aP1 hc) hB hr
            exact (congrArg ((fetchUpdateP w a so fo f.total).Run A _ _) (FU.toP_next f _ _)).mpr this
        | set prev next s' =>
          cases hc : assertCompareExchangeOrdering so fo with
          | panic => simp [fetchUpdateM, hc] at ha
          | ok u =>
            rw [aM2 _ _ _ hc] at ha
            cases ha
            have := ih.call (aP2 prev next s' hc) hB hr
            exact (congrArg ((fetchUpdateP w a so fo f.total).Run A _ _) (contM_toP f _ _)).mpr this
        | fin r => simp [fetchUpdateM] at ha
    refine ⟨_, this, ?_⟩
    cases s with
    | start => simp only [fetchUpdateM] at hd; split at hd <;> cases hd
    | set => simp only [fetchUpdateM] at hd; split at hd <;> cases hd
    | fin r => simp only [fetchUpdateM, Act.done.injEq] at hd; subst hd; rfl

/-- C56 for every back end. -/
theorem Backend.unwindOK {A : Backend W} (h1 : A.LoadsAtomic) (h5 : A.WeakCasAtomic) (h40 : A.AllOrNothing) : A.UnwindOK where
  panics := by
    rintro w a so fo f tr cs ⟨s, hr, hp⟩
    have hi := fup_inv h1 h5 hr
    cases s with
    | start =>
      simp only [fetchUpdateP] at hp
      split at hp
      · cases hp
      · rename_i hfo
        refine .inl ⟨?_, fun ev m m' hm => by obtain ⟨x, y, h⟩ := hi _ hm; cases h⟩
        cases fo <;> simp_all [assertLoadOrdering]
    | set prev next s' =>
      simp only [fetchUpdateP] at hp
      split at hp
      · cases hp
      · rename_i hf
        have := hi.1
        cases fo <;> simp_all [assertLoadOrdering, assertCompareExchangeOrdering]
    | fin r => simp [fetchUpdateP] at hp
    | unwound => exact .inr hi
  returns := by
    rintro w a so fo f tr cs r ⟨s, hr, hd⟩
    have hi := fup_inv h1 h5 hr
    cases s with
    | start => simp only [fetchUpdateP] at hd; split at hd <;> cases hd
    | set prev next s' => simp only [fetchUpdateP] at hd; split at hd <;> cases hd
    | unwound => simp [fetchUpdateP] at hd
    | fin r' =>
      simp only [fetchUpdateP] at hd
      cases hd
      cases r <;> exact hi
  fetchUpdate := fun w a so fo f tr h => fup_stopped h1 h5 h40 h
  load := by
    intro w a o tr h
    rcases checked_stopped h40 h with h | ⟨pre, ev, m, m', post, rfl, hn, he⟩
    · exact h
    · intro ev' x y hx
      simp only [List.mem_append, List.mem_cons] at hx
      rcases hx with hx | hx | hx
      · exact hn ev' x y (by simp [hx])
      · cases hx; exact he
      · exact hn ev' x y (by simp [hx])
  store := fun w a v o tr h => checked_stopped h40 h
  swap := fun w a v o tr h => checked_stopped h40 h
  cas := fun w a current new s f tr h => checked_stopped h40 h
  casWeak := fun w a current new s f tr h => checked_stopped h40 h

end Verif
