/-
Proofs of C09 and C10 for every back end with the atomicity properties.
-/
import Verif.Api.Spec
import Verif.Core.BackendLemmas

namespace Verif

variable {W : Nat}

/-- no own step changes memory -/
def Quiet (tr : List TEv) : Prop := ∀ ev m m', TEv.own ev m m' ∈ tr → m = m'

theorem Quiet.append {t u : List TEv} (h : Quiet t) (h' : Quiet u) : Quiet (t ++ u) := fun ev m m' hm =>
  (List.mem_append.1 hm).elim (h ev m m') (h' ev m m')

theorem quiet_env (m m' : Mem) : Quiet [.env m m'] := by intro ev a b h; simp at h

theorem AtomicTrace.prepend {t u : List TEv} {spec : Mem → Mem → Prop} (hq : Quiet t)
    (h : AtomicTrace u spec) : AtomicTrace (t ++ u) spec := by
  obtain ⟨pre, ev, m, m', post, rfl, hid, hs⟩ := h
  refine ⟨t ++ pre, ev, m, m', post, by simp, ?_, hs⟩
  intro ev' a b hm
  rw [List.append_assoc] at hm
  exact (List.mem_append.1 hm).elim (hq ev' a b) (hid ev' a b)

theorem AtomicTrace.append {t u : List TEv} {spec : Mem → Mem → Prop} (hq : Quiet u)
    (h : AtomicTrace t spec) : AtomicTrace (t ++ u) spec := by
  obtain ⟨pre, ev, m, m', post, rfl, hid, hs⟩ := h
  refine ⟨pre, ev, m, m', post ++ u, by simp, ?_, hs⟩
  intro ev' a b hm
  rw [← List.append_assoc] at hm
  exact (List.mem_append.1 hm).elim (hid ev' a b) (hq ev' a b)

theorem AtomicTrace.quiet {t : List TEv} {spec : Mem → Mem → Prop} (h : AtomicTrace t spec)
    (hs : ∀ m m', spec m m' → m = m') : Quiet t := by
  obtain ⟨pre, ev, m, m', post, rfl, hid, hsp⟩ := h
  intro ev' a b hm
  rcases List.mem_append.1 hm with hm | hm
  · exact hid ev' a b (List.mem_append.2 (.inl hm))
  · rcases List.mem_cons.1 hm with hm | hm
    · injection hm with h1 h2 h3; subst h2 h3; exact hs _ _ hsp
    · exact hid ev' a b (List.mem_append.2 (.inr hm))

theorem AtomicTrace.imp {t : List TEv} {s1 s2 : Mem → Mem → Prop} (h : AtomicTrace t s1)
    (h12 : ∀ m m', s1 m m' → s2 m m') : AtomicTrace t s2 := by
  obtain ⟨pre, ev, m, m', post, ht, hid, hs⟩ := h
  exact ⟨pre, ev, m, m', post, ht, hid, h12 _ _ hs⟩

section FetchUpdate
variable {A : Backend W} {w a : Nat} {so fo : Ordering} {f : Closure w}

/-- what is known in each state of `fetch_update` -/
def FUInv (A : Backend W) (a : Nat) (f : Closure w) (tr : List TEv) : FU f → Prop
  | .start => Quiet tr
  | .set prev next s' => Quiet tr ∧ ∃ s, f.Reach s ∧ f.call s prev = (some next, s')
  | .fin (.ok prev) => ∃ s x s', f.Reach s ∧ f.call s prev = (some x, s') ∧
      AtomicTrace tr fun m m' => load A.e m a w = prev ∧ m' = store A.e m a w x
  | .fin (.error prev) => ∃ s s', f.Reach s ∧ f.call s prev = (none, s') ∧
      AtomicTrace tr fun m m' => load A.e m a w = prev ∧ m' = m

theorem FUInv.next {tr : List TEv} {prev : BitVec w} {s : f.σ} (hs : f.Reach s)
    (h : AtomicTrace tr fun m m' => load A.e m a w = prev ∧ m' = m) :
    FUInv A a f tr (FU.next f prev s) := by
  unfold FU.next
  split
  · rename_i next s' hc
    exact ⟨h.quiet fun _ _ h => h.2.symm, s, hs, hc⟩
  · rename_i s' hc
    exact ⟨s, s', hs, hc, h⟩

theorem fu_inv (h1 : A.LoadsAtomic) (h5 : A.WeakCasAtomic) {tr : List TEv} {cs : List Call}
    {s : (fetchUpdateM w a so fo f).S}
    (h : (fetchUpdateM w a so fo f).Run A tr cs s) : FUInv A a f tr s := by
  induction h with
  | start => intro ev m m' h; simp at h
  | env h m m' ih =>
    rename_i s
    cases s with
    | start => exact ih.append (quiet_env m m')
    | set prev next s' => exact ⟨ih.1.append (quiet_env m m'), ih.2⟩
    | fin r =>
      cases r with
      | ok prev => obtain ⟨s, x, s', h1, h2, h3⟩ := ih; exact ⟨s, x, s', h1, h2, h3.append (quiet_env m m')⟩
      | error prev => obtain ⟨s, s', h1, h2, h3⟩ := ih; exact ⟨s, s', h1, h2, h3.append (quiet_env m m')⟩
  | call h ha hB hr ih =>
    rename_i tr cs s c k B t rs
    cases s with
    | start =>
      simp only [fetchUpdateM] at ha
      split at ha
      · cases ha
        refine FUInv.next .init (AtomicTrace.prepend ih ?_)
        refine (h1 _ _ _ _ hB _ _ hr).imp ?_
        rintro m m' ⟨h, h'⟩
        exact ⟨h.symm, h'⟩
      · cases ha
    | set prev next s' =>
      obtain ⟨hq, s0, hs0, hc⟩ := ih
      have hs' : f.Reach s' := by have := hs0.call prev; rw [hc] at this; exact this
      simp only [fetchUpdateM] at ha
      split at ha
      · cases ha
        have hat := h5 _ _ _ _ _ _ _ hB _ _ hr
        simp only [Call.value]
        cases hok : B.ok rs with
        | true =>
          simp only [toResult, if_true]
          simp only [hok] at hat
          have hat2 : AtomicTrace t fun m m' =>
              B.out rs = prev ∧ load A.e m a w = prev ∧ m' = store A.e m a w next := by
            refine hat.imp ?_
            rintro m m' ⟨ho, ⟨h, _, h'⟩ | ⟨h, _⟩⟩
            · exact ⟨ho.trans h, h, h'⟩
            · cases h
          have ho : B.out rs = prev := by
            obtain ⟨_, _, m, m', _, _, _, h⟩ := hat2; exact h.1
          rw [ho]
          exact ⟨s0, next, s', hs0, hc, AtomicTrace.prepend hq (hat2.imp fun _ _ h => h.2)⟩
        | false =>
          simp only [toResult, Bool.false_eq_true, if_false]
          simp only [hok] at hat
          refine FUInv.next hs' (AtomicTrace.prepend hq (hat.imp ?_))
          rintro m m' ⟨ho, ⟨_, h, _⟩ | ⟨_, h⟩⟩
          · cases h
          · exact ⟨ho.symm, h⟩
      · cases ha
    | fin r => simp [fetchUpdateM] at ha

end FetchUpdate

/-- C09 for every back end with atomic loads and weak compare-exchanges. -/
theorem Backend.fetchUpdateOK {A : Backend W} (h1 : A.LoadsAtomic) (h5 : A.WeakCasAtomic) :
    A.FetchUpdateOK where
  ok := by
    rintro w a so fo f tr cs prev ⟨s, hr, hd⟩
    have := fu_inv h1 h5 hr
    cases s with
    | start => simp only [fetchUpdateM] at hd; split at hd <;> cases hd
    | set => simp only [fetchUpdateM] at hd; split at hd <;> cases hd
    | fin r => simp only [fetchUpdateM, Act.done.injEq] at hd; subst hd; exact this
  err := by
    rintro w a so fo f tr cs prev ⟨s, hr, hd⟩
    have := fu_inv h1 h5 hr
    cases s with
    | start => simp only [fetchUpdateM] at hd; split at hd <;> cases hd
    | set => simp only [fetchUpdateM] at hd; split at hd <;> cases hd
    | fin r => simp only [fetchUpdateM, Act.done.injEq] at hd; subst hd; exact this

/-- C31/C09: the calls `fetch_update` makes are loads and weak compare-exchanges from some `prev` to what the
closure returned for `prev`. -/
theorem C31_fetch_update_calls {A : Backend W} {w a : Nat} {so fo : Ordering} {f : Closure w} {tr : List TEv}
    {cs : List Call} {s : (fetchUpdateM w a so fo f).S} (h : (fetchUpdateM w a so fo f).Run A tr cs s) :
    (∀ prev next s', s = FU.set prev next s' → ∃ s0, f.Reach s0 ∧ f.call s0 prev = (some next, s')) ∧
    ∀ c ∈ cs, c = .load fo w a ∨ ∃ prev next s0 s', f.Reach s0 ∧ f.call s0 prev = (some next, s') ∧
      c = .casWeak so fo w a prev next := by
  have hnext : ∀ (prev : BitVec w) (s : f.σ), f.Reach s → ∀ prev' next s', FU.next f prev s = FU.set prev' next s' →
      ∃ s0, f.Reach s0 ∧ f.call s0 prev' = (some next, s') := by
    intro prev s hs prev' next s' he
    unfold FU.next at he
    split at he
    · rename_i n s1 hc; cases he; exact ⟨s, hs, hc⟩
    · cases he
  induction h with
  | start => exact ⟨fun _ _ _ h => (nomatch h), fun c hc => (nomatch hc)⟩
  | env h m m' ih => exact ih
  | call h ha hB hr ih =>
    rename_i tr cs s c k B t rs
    cases s with
    | start =>
      simp only [fetchUpdateM] at ha
      split at ha
      · cases ha
        refine ⟨hnext _ _ .init, ?_⟩
        intro c hc
        rcases List.mem_append.1 hc with hc | hc
        · exact ih.2 c hc
        · exact .inl (List.mem_singleton.1 hc)
      · cases ha
    | set prev next s' =>
      obtain ⟨s0, hs0, hc0⟩ := ih.1 prev next s' rfl
      have hs' : f.Reach s' := by have := hs0.call prev; rw [hc0] at this; exact this
      simp only [fetchUpdateM] at ha
      split at ha
      · cases ha
        refine ⟨?_, ?_⟩
        · intro p n s1 he
          simp only [Call.value] at he
          cases hok : B.ok rs with
          | true => rw [hok] at he; simp only [toResult, if_true] at he; cases he
          | false =>
            rw [hok] at he
            simp only [toResult, Bool.false_eq_true, if_false] at he
            exact hnext _ _ hs' _ _ _ he
        · intro c hc
          rcases List.mem_append.1 hc with hc | hc
          · exact ih.2 c hc
          · exact .inr ⟨prev, next, s0, s', hs0, hc0, List.mem_singleton.1 hc⟩
      · cases ha
    | fin r => simp [fetchUpdateM] at ha

/-! ### C10 -/

theorem stuck_panics {α : Type} {A : Backend W} {M : Method α} (hp : M.act M.init = .panic) :
    M.AlwaysPanics A := by
  refine ⟨⟨_, .start, hp⟩, ?_⟩
  intro tr cs s h
  have : NoOwn tr ∧ cs = [] ∧ s = M.init := by
    induction h with
    | start => exact ⟨fun _ _ _ h => by simp at h, rfl, rfl⟩
    | env h m m' ih =>
      refine ⟨fun ev a b h' => ?_, ih.2⟩
      rcases List.mem_append.1 h' with h' | h'
      · exact ih.1 ev a b h'
      · simp at h'
    | call h ha hB hr ih =>
      obtain ⟨_, _, rfl⟩ := ih
      rw [hp] at ha; cases ha
  exact ⟨this.1, this.2.1, this.2.2 ▸ hp⟩

theorem never_panics {α : Type} {A : Backend W} {M : Method α} (hp : ∀ s, M.act s ≠ .panic) :
    M.NeverPanics A := by
  rintro tr cs ⟨s, _, h⟩; exact hp s h

theorem checked_panics {α : Type} {A : Backend W} {chk : Res Unit} {c : Call} {k : c.RetTy → α}
    (h : chk = .panic) : (checkedCall chk c k).AlwaysPanics A :=
  stuck_panics (by simp [checkedCall, h])

theorem checked_never {α : Type} {A : Backend W} {chk : Res Unit} {c : Call} {k : c.RetTy → α}
    (h : chk = .ok ()) : (checkedCall chk c k).NeverPanics A :=
  never_panics (by rintro (_ | _) <;> simp [checkedCall, h])

/-- C10 for every back end. -/
theorem Backend.panicsOK (A : Backend W) : A.PanicsOK where
  load w a o := by
    cases o <;> simp only [reduceCtorEq, or_false, or_true, if_true, if_false] <;>
      first | exact checked_never rfl | exact checked_panics rfl
  store w a v o := by
    cases o <;> simp only [reduceCtorEq, or_false, or_true, if_true, if_false] <;>
      first | exact checked_never rfl | exact checked_panics rfl
  swap w a v o := checked_never rfl
  cas w a c n s f := by
    cases f <;> simp only [reduceCtorEq, or_false, or_true, if_true, if_false] <;>
      first | exact checked_never rfl | exact checked_panics rfl
  casWeak w a c n s f := by
    cases f <;> simp only [reduceCtorEq, or_false, or_true, if_true, if_false] <;>
      first | exact checked_never rfl | exact checked_panics rfl
  fetchUpdate w a so fo g := by
    cases fo <;> simp only [reduceCtorEq, or_false, or_true, if_true, if_false] <;>
      first
      | exact stuck_panics (by simp [fetchUpdateM, assertLoadOrdering])
      | exact never_panics (by
          rintro (_ | _ | _) <;> simp [fetchUpdateM, assertLoadOrdering, assertCompareExchangeOrdering])

end Verif
