/-
Operations that are abandoned half-way: a thread may be killed, suspended for ever, or still be running when somebody
looks. Whatever has been executed of an operation, it has either changed nothing or done all of its one change.
-/
import Verif.Lin.Machine
import Verif.Core.Progress

namespace Verif

/-- The only change of memory a call may ever make. -/
def Call.Effect (e : Endian) : Call → Mem → Mem → Prop
  | .load _ _ _, m, m' => m' = m
  | .store _ w a v, m, m' => m' = Verif.store e m a w v
  | .swap _ w a v, m, m' => m' = Verif.store e m a w v
  | .cas _ _ w a old new, m, m' | .casWeak _ _ w a old new, m, m' => Verif.load e m a w = old ∧ m' = Verif.store e m a w new

/-- No own step of the trace changes memory. -/
def NoChange (tr : List TEv) : Prop := ∀ ev m m', TEv.own ev m m' ∈ tr → m' = m

/-- C40. In every run of every operation, finished or not, with any interference: either no step of the operation has
changed memory, or exactly one has, and that one did the whole effect of the operation (for compare_exchange:
replaced `current` by `new`). -/
def Backend.AllOrNothing {W : Nat} (A : Backend W) : Prop :=
  ∀ (c : Call) (B : Block W c.width), A.Runs c B → ∀ (c0 : Cfg W) tr cfg, c0.pc = 0 → B.pre c0.rs →
    Run A.e B.code c0 tr cfg →
    NoChange tr ∨
    ∃ pre ev m m' post, tr = pre ++ TEv.own ev m m' :: post ∧ NoChange (pre ++ post) ∧ c.Effect A.e m m'

/-- C06 for every run, finished or not: no own step changes a byte outside the object. -/
def Backend.NeighboursAlways {W : Nat} (A : Backend W) : Prop :=
  ∀ (c : Call) (B : Block W c.width), A.Runs c B → ∀ (c0 : Cfg W) tr cfg, c0.pc = 0 → B.pre c0.rs →
    Run A.e B.code c0 tr cfg →
    ∀ ev m m', TEv.own ev m m' ∈ tr → ∀ x, (x < c.addr ∨ c.addr + c.width / 8 ≤ x) → m' x = m x

/-! ### Proofs -/

/-- A run that can finish is the beginning of a completed run. -/
theorem Finishes.extends {e : Endian} {W : Nat} {P : List (Instr W)} {n : Nat} {c0 c : Cfg W}
    {tr : List TEv} (hr : Run e P c0 tr c) (h : Finishes e P n c) :
    ∃ tr' c', Run e P c0 (tr ++ tr') c' ∧ c'.pc = P.length := by
  induction n generalizing c tr with
  | zero => exact ⟨[], c, by simpa using hr, h⟩
  | succ n ih =>
    rcases h with h | ⟨i, hi, ⟨c', hq⟩, h3⟩
    · exact ⟨[], c, by simpa using hr, h⟩
    · obtain ⟨ev, hs, hh⟩ := hq
      obtain ⟨tr', c2, h1, h2⟩ := ih (hr.own hi hs) (h3 c' ⟨ev, hs, hh⟩)
      exact ⟨_ :: tr', c2, by simpa using h1, h2⟩

theorem AtomicTrace.prefix {tr u : List TEv} {spec : Mem → Mem → Prop} (h : AtomicTrace (tr ++ u) spec) :
    NoChange tr ∨ ∃ pre ev m m' post, tr = pre ++ TEv.own ev m m' :: post ∧ NoChange (pre ++ post) ∧ spec m m' := by
  obtain ⟨pre, ev, m, m', post, heq, hid, hs⟩ := h
  rcases List.append_eq_append_iff.mp heq with ⟨a, h1, h2⟩ | ⟨a, h1, h2⟩
  · left
    intro ev' x y hx
    exact (hid ev' x y (by rw [h1]; simp [hx])).symm
  · cases a with
    | nil =>
      left
      intro ev' x y hx
      refine (hid ev' x y ?_).symm
      simp at h1; rw [h1] at hx; simp [hx]
    | cons z a =>
      right
      simp only [List.cons_append, List.cons.injEq] at h2
      obtain ⟨rfl, h2⟩ := h2
      refine ⟨pre, ev, m, m', a, h1, ?_, hs⟩
      intro ev' x y hx
      refine (hid ev' x y ?_).symm
      rw [h2]; simp at hx ⊢; rcases hx with hx | hx <;> simp [hx]

variable {W : Nat}

theorem Backend.allOrNothing {A : Backend W} (hl : A.LoadsAtomic) (hst : A.StoresAtomic) (hsw : A.SwapsAtomic)
    (hc : ∀ s f w a old new B, A.Cas s f w a old new B →
      B.Atomic A.e fun m m' rs => WeakCasSpec A.e a w old new m m' (B.out rs) (B.ok rs))
    (hw : A.WeakCasAtomic) (hp : A.ProgressOK) : A.AllOrNothing := by
  intro c B hB c0 tr cfg h0 hpre hr
  have hib : A.IsBlock B := by
    cases c with
    | load => exact .load hB
    | store => exact .store hB
    | swap => exact .swap hB
    | cas => exact .cas hB
    | casWeak => exact .casWeak hB
  obtain ⟨N, -, hN⟩ := hp B hib
  obtain ⟨u, c', h1, h2⟩ := (hN c0 tr cfg h0 hpre hr).extends hr
  have hcomp : B.Completed A.e (tr ++ u) c'.rs := ⟨c0, c', h0, hpre, h1, h2, rfl⟩
  have weak : ∀ w a (old new : BitVec w) m m' out ok, WeakCasSpec A.e a w old new m m' out ok →
      m' = m ∨ (load A.e m a w = old ∧ m' = store A.e m a w new) := by
    rintro w a old new m m' out ok ⟨-, ⟨h1, -, h2⟩ | ⟨-, h2⟩⟩
    · exact .inr ⟨h1, h2⟩
    · exact .inl h2
  have fin : ∀ spec, AtomicTrace (tr ++ u) spec → (∀ m m', spec m m' → m' = m ∨ c.Effect A.e m m') →
      NoChange tr ∨ ∃ pre ev m m' post, tr = pre ++ TEv.own ev m m' :: post ∧ NoChange (pre ++ post) ∧
        c.Effect A.e m m' := by
    intro spec ha hsp
    rcases ha.prefix with h | ⟨pre, ev, m, m', post, rfl, hn, hs⟩
    · exact .inl h
    · rcases hsp m m' hs with h | h
      · left
        intro ev' x y hx
        simp only [List.mem_append, List.mem_cons] at hx
        rcases hx with hx | hx | hx
        · exact hn ev' x y (by simp [hx])
        · cases hx; exact h
        · exact hn ev' x y (by simp [hx])
      · exact .inr ⟨pre, ev, m, m', post, rfl, hn, h⟩
  cases c with
  | load o w a => exact fin _ (hl _ _ _ _ hB _ _ hcomp) fun m m' h => .inl h.2
  | store o w a v => exact fin _ (hst _ _ _ _ _ hB _ _ hcomp) fun m m' h => .inr h
  | swap o w a v => exact fin _ (hsw _ _ _ _ _ hB _ _ hcomp) fun m m' h => .inr h.2
  | cas s f w a old new =>
    exact fin _ (hc _ _ _ _ _ _ _ hB _ _ hcomp) fun m m' h => weak _ _ _ _ _ _ _ _ h
  | casWeak s f w a old new =>
    exact fin _ (hw _ _ _ _ _ _ _ hB _ _ hcomp) fun m m' h => weak _ _ _ _ _ _ _ _ h

theorem Backend.allOrNothing' {A : Backend W} (hl : A.LoadsAtomic) (hst : A.StoresAtomic) (hsw : A.SwapsAtomic)
    (hc : A.CasAtomic) (hw : A.WeakCasAtomic) (hp : A.ProgressOK) : A.AllOrNothing := by
  refine Backend.allOrNothing hl hst hsw (fun s f w a old new B hB tr rs hr => ?_) hw hp
  obtain ⟨pre, ev, m, m', post, h1, h2, h3, h4⟩ := hc s f w a old new B hB tr rs hr
  exact ⟨pre, ev, m, m', post, h1, h2, h3, h4.imp id fun h => h.2⟩

theorem Call.Effect.outside {e : Endian} {c : Call} {m m' : Mem} (h : c.Effect e m m') {x : Nat}
    (hx : x < c.addr ∨ c.addr + c.width / 8 ≤ x) : m' x = m x := by
  cases c with
  | load => rw [show m' = m from h]
  | store => rw [show m' = _ from h]; exact store_outside hx
  | swap => rw [show m' = _ from h]; exact store_outside hx
  | cas => rw [show m' = _ from h.2]; exact store_outside hx
  | casWeak => rw [show m' = _ from h.2]; exact store_outside hx

theorem Backend.AllOrNothing.neighbours {A : Backend W} (h : A.AllOrNothing) : A.NeighboursAlways := by
  intro c B hB c0 tr cfg h0 hpre hr ev m m' hm x hx
  rcases h c B hB c0 tr cfg h0 hpre hr with h | ⟨pre, ev', a, b, post, rfl, hn, he⟩
  · rw [h _ _ _ hm]
  · simp only [List.mem_append, List.mem_cons] at hm
    rcases hm with hm | hm | hm
    · rw [hn ev m m' (by simp [hm])]
    · cases hm; exact he.outside hx
    · rw [hn ev m m' (by simp [hm])]

end Verif
