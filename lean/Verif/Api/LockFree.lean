/-
C52, lock-freedom of the methods: in every endless run of finitely many threads that call the methods of
`AtomicMaybeUninit<T>`, `fetch_update` with any closure included, method calls return again and again.

C46 says so of the operations of the back ends. A compare-exchange that returns `Err` is one of them, so C46 does not exclude that
all threads fail for ever in their `fetch_update` loops; C52 does.
-/
import Verif.Api.Alone
import Verif.Lin.LockFree

namespace Verif

variable {W : Nat}

/-! ### Specification -/

/-- The methods of `AtomicMaybeUninit<T>` (src/lib.rs l.295-727); `fetch_update` for objects of the sizes in `S`. -/
inductive ApiMethod (S : Nat → Prop) : {α : Type} → Method α → Prop where
  | load (w a o) : ApiMethod S (loadM w a o)
  | store (w a v o) : ApiMethod S (storeM w a v o)
  | swap (w a v o) : ApiMethod S (swapM w a v o)
  | cas (w a old new s f) : ApiMethod S (casM w a old new s f)
  | casWeak (w a old new s f) : ApiMethod S (casWeakM w a old new s f)
  | fetchUpdate (w a s f) (g : Closure w) (h : S w) : ApiMethod S (fetchUpdateM w a s f g)

/-- Where a thread is: outside of the methods, or in a method (about to call the back end, or in this call). -/
inductive MPos : Type 1 where
  | out
  | within {α : Type} (M : Method α) (s : M.S)

/-- The event is a return of thread `i` from the back end. -/
def GEv.returnOf (i : Nat) : GEv → Prop
  | .h (.ret j _ _) => j = i
  | _ => False
/-- The event is a call of the back end by thread `i`. -/
def GEv.callOf (i : Nat) : GEv → Prop
  | .h (.inv j _) => j = i
  | _ => False

/-- What an event means for the method calls of thread `i` (in state `t` before the event): a call of the back end starts a
method or continues one; a return from the back end continues the method (`back`) or ends it (`fin`). -/
inductive MStep (S : Nat → Prop) (i : Nat) (t : Thread W) : GEv → MPos → MPos → Prop where
  | start {α : Type} (M : Method α) (c k) (hM : ApiMethod S M) (ha : M.act M.init = .call c k) :
      MStep S i t (.h (.inv i c)) .out (.within M M.init)
  | next {α : Type} (M : Method α) (s c k) (ha : M.act s = .call c k) :
      MStep S i t (.h (.inv i c)) (.within M s) (.within M s)
  | back {α : Type} (M : Method α) (s c k) (B : Block W c.width) (pc rs r res c' k') (ht : t = .run c B pc rs r)
      (ha : M.act s = .call c k) (ha' : M.act (k (c.value B rs)) = .call c' k') :
      MStep S i t (.h (.ret i c res)) (.within M s) (.within M (k (c.value B rs)))
  | fin {α : Type} (M : Method α) (s c k) (B : Block W c.width) (pc rs r res) (ht : t = .run c B pc rs r)
      (ha : M.act s = .call c k) (ha' : ∀ c' k', M.act (k (c.value B rs)) ≠ .call c' k') :
      MStep S i t (.h (.ret i c res)) (.within M s) .out
  | other (x p) (h1 : ¬ x.callOf i) (h2 : ¬ x.returnOf i) : MStep S i t x p p

/-- The calls of the back end in the run are those of methods: `mp n i` is where thread `i` is before event number `n`. -/
def ByMethods (S : Nat → Prop) (st : Nat → GState W) (ev : Nat → GEv) (mp : Nat → Nat → MPos) : Prop :=
  (∀ i, mp 0 i = .out) ∧ ∀ n i, MStep S i ((st n).th i) (ev n) (mp n i) (mp (n + 1) i)

/-- C52. In every endless run of finitely many threads that call methods, if memory is changed from outside only finitely
often and the hardware makes progress (`HardwareProgress`, as in C46), methods return again and again. -/
def Backend.MethodsLockFree (A : Backend W) (S : Nat → Prop) (P : Call → Prop) : Prop :=
  ∀ (st : Nat → GState W) (ev : Nat → GEv) (T : Nat) (mp : Nat → Nat → MPos), Endless A P st ev → ByMethods S st ev mp →
    (∀ n i, (ev n).thread = some i → i < T) → (∃ n0, ∀ n, n0 ≤ n → (ev n).thread ≠ none) → HardwareProgress A st ev →
    ∀ n, ∃ m, n ≤ m ∧ ∃ i, mp m i ≠ .out ∧ mp (m + 1) i = .out

/-- A weak compare_exchange that fails although the object holds the expected value has written nothing. -/
def Backend.QuietFailure (A : Backend W) (S : Nat → Prop) : Prop :=
  ∀ s f w a old new B, S w → A.CasWeak s f w a old new B → ∀ tr rs, B.Completed A.e tr rs → B.ok rs = false →
    B.out rs ≠ old ∨ (monOf tr).wr = none

/-! ### Following one operation of a thread -/

/-- The thread is in an operation; what happened to it since its call satisfies `Φ`. -/
def Trk (A : Backend W) (Φ : List TEv → Prop) (m : Mem) (t : Thread W) : Prop :=
  ∃ c, ∃ B : Block W c.width, ∃ pc rs r, t = .run c B pc rs r ∧ A.Runs c B ∧
    ∃ c0 tr, c0.pc = 0 ∧ B.pre c0.rs ∧ Run A.e B.code c0 tr ⟨pc, rs, m, r⟩ ∧ Φ tr

theorem Trk.disturbed {A : Backend W} {Φ Φ' : List TEv → Prop} {m m' : Mem} {t t' : Thread W} (h : Trk A Φ m t) (hd : Disturbed m m' t t')
    (hΦ : ∀ tr, Φ tr → Φ' (tr ++ [.env m m'])) : Trk A Φ' m' t' := by
  obtain ⟨c, B, pc, rs, r, rfl, hB, c0, tr, h0, hp, hr, hf⟩ := h
  generalize hy : Thread.run c B pc rs r = y at hd
  cases hd with
  | idle => cases hy
  | run c1 B1 pc1 rs1 r1 r' he =>
    injection hy with h1 h2 h3 h4 h5
    subst h1; cases h2; subst h3 h4 h5
    exact ⟨c, B, pc, rs, r', rfl, hB, c0, _, h0, hp, hr.env m' r' he, hΦ tr hf⟩

theorem Trk.step {A : Backend W} {P : Call → Prop} {Φ Φ' : List TEv → Prop} {g g' : GState W} {x : GEv} {i : Nat}
    (h : Trk A Φ g.mem (g.th i)) (hs : GStep A P g x g') (hret : ¬ x.returnOf i) (h0 : (∀ ev m m', x ≠ .own i ev m m') → ∀ tr, Φ tr → Φ' tr)
    (henv : (∀ ev m m', x ≠ .own i ev m m') → ∀ tr, Φ tr → Φ' (tr ++ [.env g.mem g'.mem]))
    (hown : ∀ tr ev, x = .own i ev g.mem g'.mem → Φ tr → Φ' (tr ++ [.own ev g.mem g'.mem])) : Trk A Φ' g'.mem (g'.th i) := by
  have mono : (∀ ev m m', x ≠ .own i ev m m') → Trk A Φ' g.mem (g.th i) := by
    intro hx
    obtain ⟨c, B, pc, rs, r, ht, hB, c0, tr, a, b, d, f⟩ := h
    exact ⟨c, B, pc, rs, r, ht, hB, c0, tr, a, b, d, h0 hx tr f⟩
  cases hs with
  | inv j c B rs r hidle hp hv hB hpre =>
    have hij : i ≠ j := by
      rintro rfl
      obtain ⟨c, B, pc, rs, r, h1, _⟩ := h
      rw [hidle] at h1; cases h1
    have := mono (by simp)
    simpa only [upd, if_neg hij] using this
  | ret j c B rs r hrun =>
    have hij : i ≠ j := fun h => hret h.symm
    have := mono (by simp)
    simpa only [upd, if_neg hij] using this
  | ext m' th' hd => exact h.disturbed (hd i) (henv (by simp))
  | own j c B pc rs r ins ev c' th' hrun hi hst hth hd =>
    by_cases hij : i = j
    · subst hij
      obtain ⟨c1, B1, pc1, rs1, r1, h1, hB, c0, tr, a, b, d, f⟩ := h
      rw [hrun] at h1
      injection h1 with h1 h2 h3 h4 h5
      subst h1; cases h2; subst h3 h4 h5
      exact ⟨c, B, _, _, _, hth, hB, c0, _, a, b, d.own hi hst, hown tr ev rfl f⟩
    · exact h.disturbed (hd i hij) (henv (by intro _ _ _ h; injection h with h; exact hij h.symm))

/-- The operation ends. -/
theorem Trk.completed {A : Backend W} {Φ : List TEv → Prop} {m : Mem} {c : Call} {B : Block W c.width} {rs : RS W}
    {r : Option (Nat × Nat)} (h : Trk A Φ m (.run c B B.code.length rs r)) : ∃ tr, B.Completed A.e tr rs ∧ Φ tr ∧ A.Runs c B := by
  obtain ⟨c1, B1, pc1, rs1, r1, h1, hB, c0, tr, a, b, d, f⟩ := h
  injection h1 with h1 h2 h3 h4 h5
  subst h1; cases h2; subst h4 h5
  rw [← h3] at d
  exact ⟨tr, ⟨c0, _, a, b, d, rfl, rfl⟩, f, hB⟩

section
variable {A : Backend W} {P : Call → Prop} {st : Nat → GState W} {ev : Nat → GEv} (h : Endless A P st ev)
include h

theorem Endless.trk {n i : Nat} {c : Call} {B : Block W c.width} {pc : Nat} {rs : RS W} {r : Option (Nat × Nat)}
    (ht : (st n).th i = .run c B pc rs r) : Trk A (fun _ => True) (st n).mem ((st n).th i) := by
  obtain ⟨m0, tr, hr⟩ := h.grun n
  obtain ⟨hB, t, c0, a, b, d⟩ := local_runs hr i c B pc rs r ht
  exact ⟨c, B, pc, rs, r, ht, hB, c0, t, a, b, d, trivial⟩

theorem Endless.ret_state {n i : Nat} (hx : (ev n).returnOf i) :
    (∃ c, ∃ B : Block W c.width, ∃ rs r, (st n).th i = .run c B B.code.length rs r) ∧ (st (n + 1)).th i = .idle := by
  have hs := h.2 n
  generalize ev n = x at hx hs
  generalize st (n + 1) = g' at hs
  cases hs with
  | ret j c B rs r hrun =>
    have : j = i := hx
    subst this
    exact ⟨⟨c, B, rs, r, hrun⟩, by simp [upd]⟩
  | _ => exact hx.elim

/-- From a moment when the thread is between operations on, `Φ` holds of each of its operations. -/
theorem Endless.fresh {i r : Nat} (hidle : (st r).th i = .idle) (Φ : List TEv → Prop) (h0 : Φ [])
    (henv : ∀ n, r ≤ n → ∀ tr, Φ tr → Φ (tr ++ [.env (st n).mem (st (n + 1)).mem]))
    (hown : ∀ n, r ≤ n → ∀ tr e, ev n = .own i e (st n).mem (st (n + 1)).mem → Φ tr → Φ (tr ++ [.own e (st n).mem (st (n + 1)).mem])) :
    ∀ d, (st (r + d)).th i = .idle ∨ Trk A Φ (st (r + d)).mem ((st (r + d)).th i) := by
  intro d
  induction d with
  | zero => exact .inl hidle
  | succ d ih =>
    have hs := h.2 (r + d)
    by_cases hret : (ev (r + d)).returnOf i
    · exact .inl (h.ret_state hret).2
    rcases ih with ih | ih
    · -- idle: stays idle or calls
      have henv' := henv (r + d) (by omega)
      rw [← Nat.add_assoc]
      generalize ev (r + d) = x at hs hret
      generalize st (r + d + 1) = g' at hs henv'
      generalize st (r + d) = g at hs ih henv'
      cases hs with
      | inv j c B rs r' hi hp hv hB hpre =>
        by_cases hij : i = j
        · subst hij
          exact .inr ⟨c, B, 0, rs, r', by simp [upd], hB, ⟨0, rs, _, r'⟩, [], rfl, hpre, .nil, h0⟩
        · exact .inl (by simpa only [upd, if_neg hij] using ih)
      | ret j c B rs r' hrun =>
        have hij : i ≠ j := fun h => hret h.symm
        exact .inl (by simpa only [upd, if_neg hij] using ih)
      | ext m' th' hd =>
        have := hd i
        rw [ih] at this
        generalize hy : th' i = y at this
        cases this
        exact .inl hy
      | own j c B pc rs r' ins e c' th' hrun hi hst hth hd =>
        have hij : i ≠ j := by rintro rfl; rw [ih] at hrun; cases hrun
        have := hd i hij
        rw [ih] at this
        generalize hy : th' i = y at this
        cases this
        exact .inl hy
    · exact .inr (ih.step hs hret (fun _ tr h => h) (fun _ => henv _ (by omega)) (hown _ (by omega)))

/-- While the thread does not return, it stays in its operation. -/
theorem Endless.upto {i n : Nat} {Φ : List TEv → Prop} (hΦ : ∀ tr y, Φ tr → Φ (tr ++ [y]))
    (ht : Trk A Φ (st n).mem ((st n).th i)) : ∀ d, (∀ k, k < d → ¬ (ev (n + k)).returnOf i) → Trk A Φ (st (n + d)).mem ((st (n + d)).th i) := by
  intro d
  induction d with
  | zero => intro _; exact ht
  | succ d ih =>
    intro hno
    exact (ih fun k hk => hno k (by omega)).step (h.2 (n + d)) (hno d (by omega)) (fun _ tr h => h) (fun _ tr => hΦ tr _) (fun tr e _ => hΦ tr _)
end

/-- The first of the moments with a property. -/
theorem first_of {p : Nat → Prop} {n m : Nat} (hm : p (n + m)) : ∃ d, p (n + d) ∧ ∀ k, k < d → ¬ p (n + k) := by
  induction m using Nat.strongRecOn with
  | _ m ih =>
    by_cases hk : ∃ k, k < m ∧ p (n + k)
    · obtain ⟨k, h1, h2⟩ := hk
      exact ih k h1 h2
    · exact ⟨m, hm, fun k h1 h2 => hk ⟨k, h1, h2⟩⟩

/-- Not for ever, so again and again. -/
theorem not_eventually {p : Nat → Prop} (h : ¬ ∃ n, ∀ m, n ≤ m → ¬ p m) (n : Nat) : ∃ d, p (n + d) := by
  apply Classical.byContradiction
  intro hn
  refine h ⟨n, fun m hm hp => hn ?_⟩
  obtain ⟨d, rfl⟩ := Nat.exists_eq_add_of_le hm
  exact ⟨d, hp⟩

theorem wr_of_write {tr : List TEv} (h : ∃ x m m', TEv.own x m m' ∈ tr ∧ x.isWrite = true) : (monOf tr).wr ≠ none := by
  have key : ∀ (tr : List TEv) (M : Mon), M.wr ≠ none ∨ (∃ x m m', TEv.own x m m' ∈ tr ∧ x.isWrite = true) → (tr.foldl Mon.onTEv M).wr ≠ none := by
    intro tr
    induction tr with
    | nil =>
      rintro M (h | ⟨x, m, m', h, _⟩)
      · exact h
      · cases h
    | cons y tr ih =>
      intro M h
      rw [List.foldl_cons]
      apply ih
      have keep : M.wr ≠ none → (M.onTEv y).wr ≠ none := by
        intro hM
        cases y with
        | env => exact hM
        | own e a b => cases e <;> simp [Mon.onTEv, Mon.onEv, Mon.onFence, Mon.onRd, Mon.onWr, hM]
      rcases h with h | ⟨x, m, m', h, hx⟩
      · exact .inl (keep h)
      · rcases List.mem_cons.1 h with rfl | h
        · left
          cases x with
          | wr | rmw => simp [Mon.onTEv, Mon.onEv, Mon.onWr]
          | _ => cases hx
        · exact .inr ⟨x, m, m', h, hx⟩
  exact key tr {} (.inr h)

/-! ### Threads that never leave their method -/

/-- The thread is where the method says. -/
def MInv (S : Nat → Prop) : MPos → Thread W → Prop
  | .out, t => t = .idle
  | .within M s, t => ApiMethod S M ∧ ∃ c k, M.act s = .call c k ∧ (t = .idle ∨ ∃ B pc rs r, t = .run c B pc rs r)

theorem disturbed_idle {m m' : Mem} {t : Thread W} (h : Disturbed m m' .idle t) : t = .idle := by cases h; rfl
theorem disturbed_run {m m' : Mem} {t : Thread W} {c : Call} {B : Block W c.width} {pc rs r} (h : Disturbed m m' (.run c B pc rs r) t) :
    ∃ r', t = .run c B pc rs r' := by
  generalize hy : Thread.run c B pc rs r = y at h
  cases h with
  | idle => cases hy
  | run c1 B1 pc1 rs1 r1 r' he =>
    injection hy with h1 h2 h3 h4 h5
    subst h1; cases h2; subst h3 h4
    exact ⟨r', rfl⟩

/-- Other events do not move a thread between idle and its operation. -/
theorem GStep.same {A : Backend W} {P : Call → Prop} {g g' : GState W} {x : GEv} {i : Nat} (hs : GStep A P g x g')
    (h1 : ¬ x.callOf i) (h2 : ¬ x.returnOf i) :
    (g.th i = .idle → g'.th i = .idle) ∧ ∀ c (B : Block W c.width) pc rs r, g.th i = .run c B pc rs r → ∃ pc rs r, g'.th i = .run c B pc rs r := by
  cases hs with
  | inv j c B rs r' hi hp hv hB hpre =>
    have hij : i ≠ j := fun h => h1 h.symm
    simp only [upd, if_neg hij]
    exact ⟨id, fun c B pc rs r h => ⟨pc, rs, r, h⟩⟩
  | ret j c B rs r' hrun =>
    have hij : i ≠ j := fun h => h2 h.symm
    simp only [upd, if_neg hij]
    exact ⟨id, fun c B pc rs r h => ⟨pc, rs, r, h⟩⟩
  | ext m' th' hd =>
    refine ⟨fun h => ?_, fun c B pc rs r h => ?_⟩
    · have := hd i; rw [h] at this; exact disturbed_idle this
    · have := hd i; rw [h] at this
      obtain ⟨r', h'⟩ := disturbed_run this
      exact ⟨pc, rs, r', h'⟩
  | own j c B pc rs r' ins e c' th' hrun hi hst hth hd =>
    by_cases hij : i = j
    · subst hij
      refine ⟨fun h => ?_, fun c B pc rs r h => ?_⟩
      · rw [h] at hrun; cases hrun
      · rw [h] at hrun
        injection hrun with e1 e2
        subst e1; cases e2
        exact ⟨_, _, _, hth⟩
    · refine ⟨fun h => ?_, fun c B pc rs r h => ?_⟩
      · have := hd i hij; rw [h] at this; exact disturbed_idle this
      · have := hd i hij; rw [h] at this
        obtain ⟨r', h'⟩ := disturbed_run this
        exact ⟨pc, rs, r', h'⟩

theorem GStep.inv_state {A : Backend W} {P : Call → Prop} {g g' : GState W} {i : Nat} {c : Call} (hs : GStep A P g (.h (.inv i c)) g') :
    g.th i = .idle ∧ g'.mem = g.mem ∧ ∃ B, ∃ rs r, g'.th i = .run c B 0 rs r ∧ A.Runs c B ∧ B.pre rs := by
  generalize hx : GEv.h (.inv i c) = x at hs
  cases hs with
  | inv j c' B rs r hidle hp hv hB hpre =>
    injection hx with hx
    injection hx with e1 e2
    subst e1 e2
    exact ⟨hidle, rfl, B, rs, r, by simp [upd], hB, hpre⟩
  | _ => cases hx

theorem GStep.ret_state' {A : Backend W} {P : Call → Prop} {g g' : GState W} {i : Nat} {c : Call} {res : Ret} (hs : GStep A P g (.h (.ret i c res)) g') :
    g'.th i = .idle ∧ g'.mem = g.mem ∧ ∃ B : Block W c.width, ∃ rs r, g.th i = .run c B B.code.length rs r := by
  generalize hx : GEv.h (.ret i c res) = x at hs
  cases hs with
  | ret j c' B rs r hrun =>
    injection hx with hx
    injection hx with e1 e2
    subst e1 e2
    exact ⟨by simp [upd], rfl, B, rs, r, hrun⟩
  | _ => cases hx

theorem MStep.inv {A : Backend W} {P : Call → Prop} {S : Nat → Prop} {i : Nat} {g g' : GState W} {x : GEv} {p p' : MPos} (hs : GStep A P g x g')
    (hp : MStep S i (g.th i) x p p') (ih : MInv S p (g.th i)) : MInv S p' (g'.th i) := by
  cases hp with
  | start M c k hM ha =>
    obtain ⟨-, -, B, rs, r, e, -⟩ := hs.inv_state
    exact ⟨hM, c, k, ha, .inr ⟨B, 0, rs, r, e⟩⟩
  | next M s c k ha =>
    obtain ⟨-, -, B, rs, r, e, -⟩ := hs.inv_state
    exact ⟨ih.1, c, k, ha, .inr ⟨B, 0, rs, r, e⟩⟩
  | back M s c k B pc rs r res c' k' ht ha ha' => exact ⟨ih.1, c', k', ha', .inl hs.ret_state'.1⟩
  | fin M s c k B pc rs r res ht ha ha' => exact hs.ret_state'.1
  | other _ _ h1 h2 =>
    have hsame := hs.same h1 h2
    cases p with
    | out => exact hsame.1 ih
    | within M s =>
      obtain ⟨a, c, k, b, d⟩ := ih
      refine ⟨a, c, k, b, ?_⟩
      rcases d with d | ⟨B, pc, rs, r, d⟩
      · exact .inl (hsame.1 d)
      · obtain ⟨pc', rs', r', d'⟩ := hsame.2 c B pc rs r d
        exact .inr ⟨B, pc', rs', r', d'⟩

section
variable {A : Backend W} {P : Call → Prop} {st : Nat → GState W} {ev : Nat → GEv} (h : Endless A P st ev)
  {S : Nat → Prop} {mp : Nat → Nat → MPos} (hm : ByMethods S st ev mp)
include h hm

theorem ByMethods.inv (n i : Nat) : MInv S (mp n i) ((st n).th i) := by
  induction n with
  | zero =>
    obtain ⟨m0, h0⟩ := h.1
    rw [hm.1 i, h0]
    rfl
  | succ n ih => exact MStep.inv (h.2 n) (hm.2 n i) ih

/-- A step of a thread that is in a method and stays in it. -/
theorem ByMethods.stay {n i : Nat} {α : Type} {M : Method α} {s : M.S} (hp : mp n i = .within M s) (hno : mp (n + 1) i ≠ .out) :
    (¬ (ev n).returnOf i → mp (n + 1) i = .within M s) ∧
    ((ev n).returnOf i → ∃ c k, ∃ B : Block W c.width, ∃ rs r, (st n).th i = .run c B B.code.length rs r ∧ M.act s = .call c k ∧
      mp (n + 1) i = .within M (k (c.value B rs)) ∧ ∃ c' k', M.act (k (c.value B rs)) = .call c' k') := by
  have hs := h.2 n
  have hst := hm.2 n i
  rw [hp] at hst
  generalize mp (n + 1) i = p' at hst hno
  generalize hy : MPos.within M s = p at hst
  generalize ev n = x at hs hst
  cases hst with
  | start => cases hy
  | next M' s' c k ha =>
    injection hy with e1 e2 e3
    subst e1; cases e2; cases e3
    exact ⟨fun _ => rfl, fun hx => hx.elim⟩
  | back M' s' c k B pc rs r res c' k' ht ha ha' =>
    injection hy with e1 e2 e3
    subst e1; cases e2; cases e3
    refine ⟨fun hx => absurd rfl hx, fun _ => ?_⟩
    obtain ⟨-, -, B1, rs1, r1, e⟩ := hs.ret_state'
    rw [e] at ht
    injection ht with e1 e2 e3 e4 e5
    cases e2; subst e3 e4
    exact ⟨c, k, _, _, r1, e, ha, rfl, c', k', ha'⟩
  | fin => exact absurd rfl hno
  | other _ _ h1 h2 => exact ⟨fun _ => rfl, fun hx => absurd hx h2⟩

end

/-- A method that goes on after a call of the back end is `fetch_update`. -/
theorem checkedCall_once {α : Type} {chk : Res Unit} {c : Call} {k : c.RetTy → α} {s : (checkedCall chk c k).S} {c1 k1}
    (h1 : (checkedCall chk c k).act s = .call c1 k1) (v : c1.RetTy) {c2 k2} : (checkedCall chk c k).act (k1 v) ≠ .call c2 k2 := by
  cases s with
  | none =>
    cases chk with
    | ok u =>
      cases u
      simp only [checkedCall] at h1
      cases h1
      simp [checkedCall]
    | panic => simp [checkedCall] at h1
  | some x => simp [checkedCall] at h1

/-- In the loop of `fetch_update`, having observed `prev`. -/
def InLoop {w : Nat} (a : Nat) (so fo : Ordering) (g : Closure w) (prev : BitVec w) (p : MPos) : Prop :=
  ∃ next σ, p = .within (fetchUpdateM w a so fo g) (.set prev next σ)

theorem FU.next_call {w a : Nat} {so fo : Ordering} {g : Closure w} {prev : BitVec w} {σ : g.σ} {c k}
    (h : (fetchUpdateM w a so fo g).act (FU.next g prev σ) = .call c k) : ∃ nx σ', FU.next g prev σ = .set prev nx σ' := by
  unfold FU.next at h ⊢
  split at h
  · exact ⟨_, _, rfl⟩
  · simp [fetchUpdateM] at h

theorem fetchUpdate_start {w a : Nat} {so fo : Ordering} {g : Closure w} {c k}
    (h : (fetchUpdateM w a so fo g).act .start = .call c k) {B : Block W c.width} {rs : RS W} {c' k'}
    (h' : (fetchUpdateM w a so fo g).act (k (c.value B rs)) = .call c' k') : ∃ prev nx σ, k (c.value B rs) = .set prev nx σ := by
  simp only [fetchUpdateM] at h
  split at h
  · cases h
    obtain ⟨nx, σ, e⟩ := FU.next_call (a := a) (so := so) (fo := fo) h'
    exact ⟨_, nx, σ, e⟩
  · cases h

theorem fetchUpdate_set {w a : Nat} {so fo : Ordering} {g : Closure w} {prev nx : BitVec w} {σ : g.σ} {c k}
    (h : (fetchUpdateM w a so fo g).act (.set prev nx σ) = .call c k) {B : Block W c.width} {rs : RS W} {c' k'}
    (h' : (fetchUpdateM w a so fo g).act (k (c.value B rs)) = .call c' k') :
    ∃ B' : Block W w, (⟨c, B⟩ : (c : Call) × Block W c.width) = ⟨.casWeak so fo w a prev nx, B'⟩ ∧ B'.ok rs = false ∧
      ∃ nx' σ', k (c.value B rs) = .set (B'.out rs) nx' σ' := by
  simp only [fetchUpdateM] at h
  split at h
  · cases h
    refine ⟨B, rfl, ?_⟩
    simp only [Call.value, toResult] at h' ⊢
    rcases Bool.eq_false_or_eq_true (B.ok rs) with hok | hok
    · simp [hok, fetchUpdateM] at h'
    · simp only [hok, Bool.false_eq_true, if_false] at h' ⊢
      obtain ⟨nx', σ', e⟩ := FU.next_call (a := a) (so := so) (fo := fo) h'
      exact ⟨trivial, nx', σ', e⟩
  · cases h


section
variable {A : Backend W} {P : Call → Prop} {st : Nat → GState W} {ev : Nat → GEv} (h : Endless A P st ev)
  {S : Nat → Prop} {mp : Nat → Nat → MPos} (hm : ByMethods S st ev mp)
  {n1 : Nat} (hno : ∀ n, n1 ≤ n → ∀ i, mp n i ≠ .out → mp (n + 1) i ≠ .out)
include h hm hno

/-- If no method ends any more, a thread that returns from the back end is in a `fetch_update`. -/
theorem inLoop_of_ret {n i : Nat} (hn : n1 ≤ n) (hx : (ev n).returnOf i) :
    ∃ (w a : Nat) (so fo : Ordering) (g : Closure w) (prev : BitVec w), S w ∧ InLoop a so fo g prev (mp (n + 1) i) := by
  have hi := ByMethods.inv h hm n i
  obtain ⟨⟨c, B, rs, r, ht⟩, -⟩ := h.ret_state hx
  cases hp : mp n i with
  | out => rw [hp, ht] at hi; cases hi
  | within M s =>
    rw [hp] at hi
    have hM := hi.1
    obtain ⟨c, k, B, rs, r, ht, ha, he, c', k', ha'⟩ := (ByMethods.stay h hm hp (hno n hn i (by rw [hp]; simp))).2 hx
    cases hM with
    | load => exact absurd ha' (checkedCall_once ha _)
    | store => exact absurd ha' (checkedCall_once ha _)
    | swap => exact absurd ha' (checkedCall_once ha _)
    | cas => exact absurd ha' (checkedCall_once ha _)
    | casWeak => exact absurd ha' (checkedCall_once ha _)
    | fetchUpdate w a so fo g hS =>
      refine ⟨w, a, so, fo, g, ?_⟩
      cases s with
      | start =>
        obtain ⟨prev, nx, σ, e⟩ := fetchUpdate_start ha ha'
        exact ⟨prev, hS, nx, σ, by rw [he, e]⟩
      | set prev nx σ =>
        obtain ⟨B', -, -, nx', σ', e⟩ := fetchUpdate_set ha ha'
        exact ⟨_, hS, nx', σ', by rw [he, e]⟩
      | fin x => simp [fetchUpdateM] at ha

theorem inLoop_step {w a : Nat} {so fo : Ordering} {g : Closure w} {prev : BitVec w} {n i : Nat} (hn : n1 ≤ n)
    (hl : InLoop a so fo g prev (mp n i)) :
    (¬ (ev n).returnOf i → InLoop a so fo g prev (mp (n + 1) i)) ∧
    ((ev n).returnOf i → ∃ nx, ∃ B : Block W w, ∃ rs r, (st n).th i = .run (.casWeak so fo w a prev nx) B B.code.length rs r ∧
      B.ok rs = false ∧ InLoop a so fo g (B.out rs) (mp (n + 1) i)) := by
  obtain ⟨nx, σ, hp⟩ := hl
  have hst := ByMethods.stay h hm hp (hno n hn i (by rw [hp]; simp))
  refine ⟨fun hx => ⟨nx, σ, hst.1 hx⟩, fun hx => ?_⟩
  obtain ⟨c, k, B, rs, r, ht, ha, he, c', k', ha'⟩ := hst.2 hx
  obtain ⟨B', e1, hok, nx', σ', e⟩ := fetchUpdate_set ha ha'
  refine ⟨nx, B', rs, r, ?_, hok, nx', σ', by rw [he, e]⟩
  cases e1
  exact ht

theorem inLoop_from {w a : Nat} {so fo : Ordering} {g : Closure w} {prev : BitVec w} {n i : Nat} (hn : n1 ≤ n)
    (hl : InLoop a so fo g prev (mp n i)) : ∀ d, ∃ prev, InLoop a so fo g prev (mp (n + d) i) := by
  intro d
  induction d with
  | zero => exact ⟨prev, hl⟩
  | succ d ih =>
    obtain ⟨p, ih⟩ := ih
    have hst := inLoop_step h hm hno (by omega) ih
    by_cases hx : (ev (n + d)).returnOf i
    · obtain ⟨nx, B, rs, r, -, -, e⟩ := hst.2 hx
      exact ⟨_, e⟩
    · exact ⟨p, hst.1 hx⟩

omit hm hno in
/-- A thread that does not return any more does not write any more, after some time. -/
theorem no_writes_of_no_returns (hw : A.WritesOnce) {i : Nat} (hfin : ∃ n, ∀ m, n ≤ m → ¬ (ev m).returnOf i) :
    ∃ n, ∀ m, n ≤ m → ¬ ((ev m).executes i ∧ (ev m).writes) := by
  obtain ⟨n0, hfin⟩ := hfin
  apply Classical.byContradiction
  intro hinf
  obtain ⟨d, hx⟩ := not_eventually hinf n0
  -- after the write
  let Φ : List TEv → Prop := fun tr => ∃ p x a b q, tr = p ++ TEv.own x a b :: q ∧ x.isWrite = true
  have h1 : Trk A Φ (st (n0 + d + 1)).mem ((st (n0 + d + 1)).th i) := by
    have hs := h.2 (n0 + d)
    have hnr := hfin (n0 + d) (by omega)
    have hop : ∃ c, ∃ B : Block W c.width, ∃ pc rs r, (st (n0 + d)).th i = .run c B pc rs r := by
      generalize ev (n0 + d) = x at hx hs
      generalize st (n0 + d + 1) = g' at hs
      cases hs with
      | own j c B pc rs r ins ev c' th' hrun =>
        have : j = i := hx.1
        subst this
        exact ⟨c, B, pc, rs, r, hrun⟩
      | _ => exact hx.1.elim
    obtain ⟨c, B, pc, rs, r, ht⟩ := hop
    have hown : ∃ e m m', ev (n0 + d) = .own i e m m' ∧ e.isWrite = true := by
      generalize ev (n0 + d) = x at hx
      cases x with
      | own j e m m' =>
        have : j = i := hx.1
        subst this
        exact ⟨e, m, m', rfl, hx.2⟩
      | _ => exact hx.1.elim
    obtain ⟨e, m, m', he, hwr⟩ := hown
    refine (h.trk ht).step hs hnr (fun hn => absurd he (hn e m m')) (fun hn => absurd he (hn e m m')) ?_
    intro tr e' he' _
    rw [he] at he'
    injection he' with _ e1
    subst e1
    exact ⟨tr, e, _, _, [], rfl, hwr⟩
  have hmono : ∀ tr y, Φ tr → Φ (tr ++ [y]) := by
    rintro tr y ⟨p, x, a, b, q, rfl, hx⟩
    exact ⟨p, x, a, b, q ++ [y], by simp, hx⟩
  refine hinf ⟨n0 + d + 1, fun m hm' hx' => ?_⟩
  obtain ⟨k, rfl⟩ := Nat.exists_eq_add_of_le hm'
  have ht := h.upto hmono h1 k (fun l hl => hfin _ (by omega))
  have hs := h.2 (n0 + d + 1 + k)
  generalize ev (n0 + d + 1 + k) = x at hx' hs
  generalize st (n0 + d + 1 + k + 1) = g' at hs
  generalize st (n0 + d + 1 + k) = g at hs ht
  cases hs with
  | own j c B pc rs r ins e c' th' hrun hi hst hth hd =>
    have : j = i := hx'.1
    subst this
    obtain ⟨c1, B1, pc1, rs1, r1, e1, hB, c0, tr, a0, b0, d0, p, x, a, b, q, rfl, hxw⟩ := ht
    rw [hrun] at e1
    injection e1 with e1 e2 e3 e4 e5
    subst e1; cases e2; subst e3 e4 e5
    have := hw B hB.isBlock c0 _ _ a0 b0 (d0.own hi hst) p x a b q e g.mem c'.mem [] (by simp) hxw
    have hwr : e.isWrite = true := hx'.2
    rw [this] at hwr; cases hwr
  | _ => exact hx'.1.elim

/-- A thread in a `fetch_update` that goes on for ever never changes memory. -/
theorem no_change {w a : Nat} {so fo : Ordering} {g : Closure w} (h5 : A.WeakCasAtomic) {n2 i : Nat} (hn2 : n1 ≤ n2)
    (hl : ∃ prev, InLoop a so fo g prev (mp n2 i)) (hinf : ¬ ∃ n, ∀ m, n ≤ m → ¬ (ev m).returnOf i) :
    ∀ m, n2 ≤ m → (ev m).executes i → (st (m + 1)).mem = (st m).mem := by
  intro m hm2 hx
  apply Classical.byContradiction
  intro hne
  let Φ : List TEv → Prop := fun tr => ∃ x a b, TEv.own x a b ∈ tr ∧ a ≠ b
  have hs := h.2 m
  have h1 : Trk A Φ (st (m + 1)).mem ((st (m + 1)).th i) := by
    have hown : ∃ e, ev m = .own i e (st m).mem (st (m + 1)).mem ∧ ∃ c, ∃ B : Block W c.width, ∃ pc rs r, (st m).th i = .run c B pc rs r := by
      clear hne
      generalize ev m = x at hx hs
      generalize st (m + 1) = g' at hs
      cases hs with
      | own j c B pc rs r ins ev c' th' hrun =>
        have : j = i := hx
        subst this
        exact ⟨ev, rfl, c, B, pc, rs, r, hrun⟩
      | _ => exact hx.elim
    obtain ⟨e, he, c, B, pc, rs, r, ht⟩ := hown
    have hnr : ¬ (ev m).returnOf i := by rw [he]; exact id
    refine (h.trk ht).step hs hnr (fun hn => absurd he (hn e _ _)) (fun hn => absurd he (hn e _ _)) ?_
    intro tr e' _ _
    exact ⟨e', _, _, by simp, fun h => hne h.symm⟩
  have hmono : ∀ tr y, Φ tr → Φ (tr ++ [y]) := by
    rintro tr y ⟨x, a, b, h1, h2⟩
    exact ⟨x, a, b, by simp [h1], h2⟩
  obtain ⟨d0, hd0⟩ := not_eventually hinf (m + 1)
  obtain ⟨d, hd, hfirst⟩ := first_of (p := fun k => (ev k).returnOf i) hd0
  have ht := h.upto hmono h1 d hfirst
  obtain ⟨k, hk⟩ := Nat.exists_eq_add_of_le (show n2 ≤ m + 1 + d by omega)
  obtain ⟨prev, hl⟩ := hl
  obtain ⟨prev', hl'⟩ := inLoop_from h hm hno hn2 hl k
  rw [← hk] at hl'
  obtain ⟨nx, B, rs, r, hrun, hok, -⟩ := (inLoop_step h hm hno (by omega) hl').2 hd
  rw [hrun] at ht
  obtain ⟨tr, hc, ⟨x, a', b', hmem, hab⟩, hB⟩ := ht.completed
  obtain ⟨pre, e, m1, m2, post, rfl, hothers, -, hspec⟩ := h5 _ _ _ _ _ _ B hB tr rs hc
  rcases hspec with ⟨-, hok', -⟩ | ⟨-, hmm⟩
  · rw [hok] at hok'; cases hok'
  · simp only [List.mem_append, List.mem_cons, TEv.own.injEq] at hmem
    rcases hmem with hmem | ⟨rfl, rfl, rfl⟩ | hmem
    · exact hab (hothers x a' b' (List.mem_append.2 (.inl hmem)))
    · exact hab hmm.symm
    · exact hab (hothers x a' b' (List.mem_append.2 (.inr hmem)))

omit hm hno in
/-- A step that does not write changes nothing. -/
theorem quiet_step {m i : Nat} (hx : (ev m).executes i) (hw : ¬ (ev m).writes) : (st (m + 1)).mem = (st m).mem := by
  have hs := h.2 m
  generalize ev m = x at hx hw hs
  generalize st (m + 1) = g' at hs
  cases hs with
  | own j c B pc rs r ins e c' th' hrun hi hst hth hd =>
    refine hst.silent ?_
    cases hv : e.isWrite with
    | false => rfl
    | true => exact absurd hv hw
  | _ => exact hx.elim

/-- After a while nobody changes memory. -/
theorem eventually_const (hw : A.WritesOnce) (h5 : A.WeakCasAtomic) {T : Nat} (hT : ∀ n i, (ev n).thread = some i → i < T)
    (hext : ∃ n0, ∀ n, n0 ≤ n → (ev n).thread ≠ none) : ∃ n3 m, ∀ n, n3 ≤ n → (st n).mem = m := by
  have hchg : ∀ i, ∃ n, ∀ m, n ≤ m → ((ev m).executes i → (st (m + 1)).mem = (st m).mem) := by
    intro i
    by_cases hfin : ∃ n, ∀ m, n ≤ m → ¬ (ev m).returnOf i
    · obtain ⟨n, hn⟩ := no_writes_of_no_returns h hw hfin
      exact ⟨n, fun m hm hx => quiet_step h hx fun hwr => hn m hm ⟨hx, hwr⟩⟩
    · obtain ⟨d, hx⟩ := not_eventually hfin n1
      obtain ⟨w, a, so, fo, g, prev, hS, hl⟩ := inLoop_of_ret h hm hno (by omega) hx
      exact ⟨_, no_change h hm hno h5 (n2 := n1 + d + 1) (by omega) ⟨prev, hl⟩ hfin⟩
  obtain ⟨n2, hchg⟩ := common_bound T hchg
  obtain ⟨n0, hext⟩ := hext
  refine ⟨max n0 n2, (st (max n0 n2)).mem, fun n hn => ?_⟩
  obtain ⟨d, rfl⟩ := Nat.exists_eq_add_of_le hn
  clear hn
  induction d with
  | zero => rfl
  | succ d ih =>
    rw [← ih, ← Nat.add_assoc]
    generalize hk : max n0 n2 + d = n
    have h0 : n0 ≤ n := by have := Nat.le_max_left n0 n2; omega
    have h2 : n2 ≤ n := by have := Nat.le_max_right n0 n2; omega
    have hs := h.2 n
    have hx := fun i hi => hchg i hi n h2
    have he := hext n h0
    have ht := hT n
    generalize ev n = x at hx he ht hs
    generalize st (n + 1) = g' at hs hx
    generalize st n = g at hs hx
    cases hs with
    | inv => rfl
    | ret => rfl
    | ext => exact absurd rfl he
    | own j => exact hx j (ht j rfl) rfl

omit hm hno in
theorem not_idle_of_ret {n i : Nat} (hx : (ev n).returnOf i) : (st n).th i ≠ .idle := by
  obtain ⟨⟨c, B, rs, r, e⟩, -⟩ := h.ret_state hx
  rw [e]; simp

/-- Once memory is constant, a thread in a `fetch_update` that goes on for ever expects the value that is there. -/
theorem settle (h5 : A.WeakCasAtomic) {n3 : Nat} {m : Mem} (hconst : ∀ n, n3 ≤ n → (st n).mem = m) {i : Nat}
    (hinf : ¬ ∃ n, ∀ m, n ≤ m → ¬ (ev m).returnOf i) : ∃ n w a so fo, ∃ g : Closure w, S w ∧ n1 ≤ n ∧ n3 ≤ n ∧
      (st n).th i = .idle ∧ ∀ d, InLoop a so fo g (load A.e m a w) (mp (n + d) i) := by
  obtain ⟨d0, hr⟩ := not_eventually hinf (n1 + n3)
  generalize hk : n1 + n3 + d0 = r at hr
  obtain ⟨w, a, so, fo, g, prev, hS, hl⟩ := inLoop_of_ret h hm hno (by omega) hr
  let Φ : List TEv → Prop := fun tr => ∀ x a b, TEv.own x a b ∈ tr → a = m
  have hfresh := h.fresh (h.ret_state hr).2 Φ (by intro _ _ _ h; cases h)
    (by
      intro n hn tr hΦ x a b hmem
      rcases List.mem_append.1 hmem with hmem | hmem
      · exact hΦ x a b hmem
      · simp at hmem)
    (by
      intro n hn tr e _ hΦ x a b hmem
      rcases List.mem_append.1 hmem with hmem | hmem
      · exact hΦ x a b hmem
      · simp only [List.mem_singleton, TEv.own.injEq] at hmem
        rw [hmem.2.1]
        exact hconst n (by omega))
  -- what a return after that one reports
  have hval : ∀ n p, r + 1 ≤ n → InLoop a so fo g p (mp n i) → (ev n).returnOf i →
      InLoop a so fo g (load A.e m a w) (mp (n + 1) i) := by
    intro n p hn hl hx
    obtain ⟨nx, B, rs, r', hrun, hok, hl'⟩ := (inLoop_step h hm hno (by omega) hl).2 hx
    obtain ⟨d, rfl⟩ := Nat.exists_eq_add_of_le hn
    rcases hfresh d with hid | ht
    · exact absurd hid (not_idle_of_ret h hx)
    rw [hrun] at ht
    obtain ⟨tr, hc, hΦ, hB⟩ := ht.completed
    obtain ⟨pre, e, m1, m2, post, rfl, hothers, hout, -⟩ := h5 _ _ _ _ _ _ B hB tr rs hc
    have := hΦ e m1 m2 (by simp)
    subst this
    rw [← hout]
    exact hl'
  obtain ⟨d1, hr1⟩ := not_eventually hinf (r + 1)
  obtain ⟨p1, hl1⟩ := inLoop_from h hm hno (by omega) hl d1
  refine ⟨r + 1 + d1 + 1, w, a, so, fo, g, hS, by omega, by omega, (h.ret_state hr1).2, fun d => ?_⟩
  induction d with
  | zero => exact hval _ _ (by omega) hl1 hr1
  | succ d ih =>
    by_cases hx : (ev (r + 1 + d1 + 1 + d)).returnOf i
    · exact hval (r + 1 + d1 + 1 + d) _ (by omega) ih hx
    · exact (inLoop_step (n := r + 1 + d1 + 1 + d) h hm hno (by omega) ih).1 hx

/-- Then it does not write, either. -/
theorem no_writes_of_returns (h5 : A.WeakCasAtomic) (hq : A.QuietFailure S) {n3 : Nat} {m : Mem} (hconst : ∀ n, n3 ≤ n → (st n).mem = m) {i : Nat}
    (hinf : ¬ ∃ n, ∀ m, n ≤ m → ¬ (ev m).returnOf i) : ∃ n, ∀ m, n ≤ m → ¬ ((ev m).executes i ∧ (ev m).writes) := by
  obtain ⟨n, w, a, so, fo, g, hS, hn1, hn3, hidle, hl⟩ := settle h hm hno h5 hconst hinf
  refine ⟨n, fun k hk hx => ?_⟩
  let Φ : List TEv → Prop := fun tr => ∃ x m m', TEv.own x m m' ∈ tr ∧ x.isWrite = true
  have h1 : Trk A Φ (st (k + 1)).mem ((st (k + 1)).th i) := by
    have hs := h.2 k
    have hown : ∃ e, ev k = .own i e (st k).mem (st (k + 1)).mem ∧ e.isWrite = true ∧ ∃ c, ∃ B : Block W c.width, ∃ pc rs r, (st k).th i = .run c B pc rs r := by
      generalize ev k = x at hx hs
      generalize st (k + 1) = g' at hs
      cases hs with
      | own j c B pc rs r ins ev c' th' hrun =>
        have : j = i := hx.1
        subst this
        exact ⟨ev, rfl, hx.2, c, B, pc, rs, r, hrun⟩
      | _ => exact hx.1.elim
    obtain ⟨e, he, hwr, c, B, pc, rs, r, ht⟩ := hown
    have hnr : ¬ (ev k).returnOf i := by rw [he]; exact id
    refine (h.trk ht).step hs hnr (fun hn => absurd he (hn e _ _)) (fun hn => absurd he (hn e _ _)) ?_
    intro tr e' he' _
    rw [he] at he'
    injection he' with _ e1
    subst e1
    exact ⟨e, (st k).mem, (st (k + 1)).mem, by simp, hwr⟩
  have hmono : ∀ tr y, Φ tr → Φ (tr ++ [y]) := by
    rintro tr y ⟨x, a, b, h1, h2⟩
    exact ⟨x, a, b, by simp [h1], h2⟩
  obtain ⟨d0, hd0⟩ := not_eventually hinf (k + 1)
  obtain ⟨d, hd, hfirst⟩ := first_of (p := fun k => (ev k).returnOf i) hd0
  have ht := h.upto hmono h1 d hfirst
  obtain ⟨l, hl'⟩ := Nat.exists_eq_add_of_le (show n ≤ k + 1 + d by omega)
  have ha := hl l
  have hb := hl (l + 1)
  rw [← hl'] at ha
  rw [← Nat.add_assoc, ← hl'] at hb
  obtain ⟨nx, B, rs, r, hrun, hok, nx1, σ1, hc⟩ := (inLoop_step h hm hno (by omega) ha).2 hd
  obtain ⟨nx2, σ2, hb⟩ := hb
  rw [hc] at hb
  injection hb with _ _ hb
  injection hb with hb
  rw [hrun] at ht
  obtain ⟨tr, hcomp, hwr, hB⟩ := ht.completed
  rcases hq _ _ _ _ _ _ B hS hB tr rs hcomp hok with hne | hnone
  · exact hne hb
  · exact wr_of_write hwr hnone

omit hm hno in
/-- A thread that returns from `compare_exchange_weak` again and again executes instructions. -/
theorem executes_of_returns {i n : Nat} (hidle : (st n).th i = .idle) (h5 : A.WeakCasAtomic)
    (hcas : ∀ k, n ≤ k → (ev k).returnOf i → ∃ so fo w a prev nx, ∃ B : Block W w, ∃ rs r,
      (st k).th i = .run (.casWeak so fo w a prev nx) B B.code.length rs r)
    (hinf : ¬ ∃ n, ∀ m, n ≤ m → ¬ (ev m).returnOf i) : ∃ k, n ≤ k ∧ (ev k).executes i := by
  apply Classical.byContradiction
  intro hne
  have hne : ∀ k, n ≤ k → ¬ (ev k).executes i := fun k hk hx => hne ⟨k, hk, hx⟩
  let Φ : List TEv → Prop := fun tr => ∀ x a b, TEv.own x a b ∉ tr
  have hfresh := h.fresh hidle Φ (by intro _ _ _ h; cases h)
    (by
      intro n hn tr hΦ x a b hmem
      rcases List.mem_append.1 hmem with hmem | hmem
      · exact hΦ x a b hmem
      · simp at hmem)
    (by
      intro k hk tr e he
      have := hne k hk
      rw [he] at this
      exact absurd rfl this)
  obtain ⟨d, hx⟩ := not_eventually hinf n
  obtain ⟨so, fo, w, a, prev, nx, B, rs, r, hrun⟩ := hcas (n + d) (by omega) hx
  rcases hfresh d with hid | ht
  · exact absurd hid (not_idle_of_ret h hx)
  rw [hrun] at ht
  obtain ⟨tr, hc, hΦ, hB⟩ := ht.completed
  obtain ⟨pre, e, m1, m2, post, rfl, -, -⟩ := h5 _ _ _ _ _ _ B hB tr rs hc
  exact hΦ e m1 m2 (by simp)

omit h hm hno in
theorem QSteps.head {e : Endian} {W : Nat} {C : List (Instr W)} {c c1 c2 : Cfg W} {ins : Instr W} (hi : C[c.pc]? = some ins)
    (hq : QStep e ins c c1) (hs : QSteps e C c1 c2) : QSteps e C c c2 := by
  induction hs with
  | refl => exact .step .refl hi hq
  | step _ hi' hq' ih => exact .step ih hi' hq'

/-- Where a method that is left alone is: it has at most `k - 1` instructions to go. -/
inductive Near (A : Backend W) (m : Mem) (k : Nat) : MPos → Thread W → Prop where
  | idle {α : Type} (M : Method α) (s d) (he : M.EndsAlone A d s m) (hk : d * (maxAlone + 1) < k) : Near A m k (.within M s) .idle
  | run {α : Type} (M : Method α) (s d N c kk B pc rs r) (ha : M.act s = .call c kk) (hf : Finishes A.e B.code N ⟨pc, rs, m, r⟩)
      (he : ∀ c', QSteps A.e B.code ⟨pc, rs, m, r⟩ c' → c'.pc = B.code.length → M.EndsAlone A d (kk (c.value B c'.rs)) c'.mem)
      (hk : N + d * (maxAlone + 1) < k) : Near A m k (.within M s) (.run c B pc rs r)

/-- A thread that is left in peace finishes its method. -/
theorem Calm.method {n3 : Nat} {m : Mem} (hconst : ∀ n, n3 ≤ n → (st n).mem = m) {i k n : Nat}
    (hc : Calm A st ev i k n) : n3 ≤ n → n1 ≤ n → ¬ Near A m k (mp n i) ((st n).th i) := by
  induction hc with
  | done n =>
    intro _ _ hn
    generalize mp n i = p at hn
    generalize (st n).th i = t at hn
    cases hn with
    | idle M s d he hk => omega
    | run M s d N c kk B pc rs r ha hf he hk => omega
  | @here k n hx hh hc ih =>
    intro h3 h1 hn
    refine ih (by omega) (by omega) ?_
    obtain ⟨c1, B1, pc1, rs1, r1, ins, c', e1, e2, e3, e4, e5⟩ := hh.1 hx
    rw [e5]
    generalize hp : mp n i = p at hn
    rw [e1] at hn
    generalize hy : Thread.run c1 B1 pc1 rs1 r1 = y at hn
    cases hn with
    | idle => cases hy
    | run M s d N c kk B pc rs r ha hf he hk =>
      injection hy with g1 g2 g3 g4 g5
      subst g1; cases g2; subst g3 g4 g5
      have hnr : ¬ (ev n).returnOf i := by
        intro hr
        generalize ev n = x at hx hr
        cases x with
        | own => exact hr
        | _ => exact hx
      have hmp := (ByMethods.stay h hm hp (hno n h1 i (by rw [hp]; simp))).1 hnr
      rw [hmp]
      rw [hconst n h3] at e3
      have hmem : c'.mem = m := by rw [← e4]; exact hconst _ (by omega)
      have hlt : pc1 < B1.code.length := by
        rcases Nat.lt_or_ge pc1 B1.code.length with h | h
        · exact h
        · rw [List.getElem?_eq_none h] at e2; cases e2
      cases N with
      | zero => exact absurd hf (Nat.ne_of_lt hlt)
      | succ N =>
        rcases hf with hf | ⟨ins', hi', _, hf⟩
        · exact absurd hf (Nat.ne_of_lt hlt)
        · have : some ins = some ins' := e2.symm.trans hi'
          injection this with this
          subst this
          obtain ⟨pc', rs', m', r'⟩ := c'
          have hmem : m' = m := hmem
          subst hmem
          exact .run M s d N c1 kk B1 pc' rs' r' ha (hf _ e3) (fun c2 hq hend => he c2 (.head e2 e3 hq) hend) (by omega)
  | @other k n hx hh hc ih =>
    intro h3 h1 hn
    refine ih (by omega) (by omega) ?_
    have hmem := hconst n h3
    have hmem' := hconst (n + 1) (by omega)
    have hs := h.2 n
    have hinv := ByMethods.inv h hm (n + 1) i
    generalize hp : mp n i = p at hn
    have hno' : p ≠ .out := by
      rintro rfl
      generalize (st n).th i = t at hn
      cases hn
    have hstay := fun {α : Type} {M : Method α} {s : M.S} (e : mp n i = .within M s) =>
      ByMethods.stay h hm e (hno n h1 i (by rw [hp]; exact hno'))
    by_cases hr : (ev n).returnOf i
    · obtain ⟨-, hid⟩ := h.ret_state hr
      rw [hid]
      generalize ht : (st n).th i = t at hn
      cases hn with
      | idle M s d he hk => exact absurd ht (not_idle_of_ret h hr)
      | run M s d N c kk B pc rs r ha hf he hk =>
        obtain ⟨c1, k1, B1, rs1, r1, e1, e2, e3, -⟩ := (hstay hp).2 hr
        rw [e1] at ht
        injection ht with g1 g2 g3 g4 g5
        subst g1; cases g2; subst g3 g4 g5
        rw [ha] at e2
        injection e2 with _ e2
        subst e2
        rw [e3]
        exact .idle M _ d (he _ .refl rfl) (by omega)
    by_cases hcl : (ev n).callOf i
    · have hev : ∃ c, ev n = .h (.inv i c) := by
        generalize ev n = x at hcl
        cases x with
        | h y =>
          cases y with
          | inv j c => have : j = i := hcl; subst this; exact ⟨c, rfl⟩
          | _ => exact hcl.elim
        | _ => exact hcl.elim
      obtain ⟨c, hev⟩ := hev
      rw [hev] at hs
      obtain ⟨hid, -, B, rs, r, hrun, hB, hpre⟩ := hs.inv_state
      rw [hid] at hn
      generalize hy : (Thread.idle : Thread W) = y at hn
      cases hn with
      | run => cases hy
      | idle M s d he hk =>
        have hmp := (hstay hp).1 hr
        rw [hmp] at hinv ⊢
        obtain ⟨-, c1, k1, ha, hth⟩ := hinv
        rw [hrun] at hth
        rcases hth with hth | ⟨B1, pc1, rs1, r1, hth⟩
        · cases hth
        injection hth with g1 g2
        subst g1
        rw [hrun]
        cases d with
        | zero => exact absurd ha (he _ _)
        | succ d =>
          obtain ⟨⟨N, hN, hprog⟩, hend⟩ := he c k1 ha B hB
          refine .run M s d N c k1 B 0 rs r ha (hprog ⟨0, rs, m, r⟩ [] _ rfl hpre .nil) ?_ ?_
          · intro c2 hq hc2
            exact hend c2.rs c2.mem ⟨⟨0, rs, m, r⟩, c2, rfl, hpre, rfl, hq, hc2, rfl, rfl⟩
          · simp only [Nat.add_mul] at hk; omega
    · -- an event of another thread
      have hth : (st (n + 1)).th i = (st n).th i := by
        refine hh.2 ?_
        generalize ev n = x at hx hr hcl
        cases x with
        | h y =>
          cases y with
          | inv j c => simpa [GEv.thread] using (show ¬ j = i from hcl)
          | ret j c v => simpa [GEv.thread] using (show ¬ j = i from hr)
        | own j => simpa [GEv.thread] using (show ¬ j = i from hx)
        | ext => simp [GEv.thread]
      rw [hth]
      have hmp : mp (n + 1) i = p := by
        cases p with
        | out => exact absurd rfl hno'
        | within M s => exact (hstay hp).1 hr
      rw [hmp]
      exact hn
end

theorem Backend.methodsLockFree {A : Backend W} {S : Nat → Prop} (P : Call → Prop) (hw : A.WritesOnce) (hp : A.ProgressOK)
    (h5 : A.WeakCasAtomic) (hq : A.QuietFailure S) (hf : A.MethodsFinish S) : A.MethodsLockFree S P := by
  intro st ev T mp h hm hT hext hard n1
  apply Classical.byContradiction
  intro hcon
  have hno : ∀ n, n1 ≤ n → ∀ i, mp n i ≠ .out → mp (n + 1) i ≠ .out := fun n hn i h1 h2 => hcon ⟨n, hn, i, h1, h2⟩
  obtain ⟨n3, m, hconst⟩ := eventually_const h hm hno hw h5 hT hext
  have hfin : ∀ i, ∃ n, ∀ m, n ≤ m → ¬ ((ev m).executes i ∧ (ev m).writes) := by
    intro i
    by_cases hret : ∃ n, ∀ m, n ≤ m → ¬ (ev m).returnOf i
    · exact no_writes_of_no_returns h hw hret
    · exact no_writes_of_returns h hm hno h5 hq hconst hret
  obtain ⟨n4, hfin⟩ := common_bound T hfin
  obtain ⟨n0, hext'⟩ := hext
  have hnw : ∀ n, n0 + n4 ≤ n → ¬ (ev n).writes := by
    intro n hn hwr
    have h1 := hext' n (by omega)
    have h2 := hT n
    have h3 := fun i hi => hfin i hi n (by omega)
    generalize ev n = x at hwr h1 h2 h3
    cases x with
    | h => exact hwr
    | ext => exact h1 rfl
    | own i e a b => exact h3 i (h2 i rfl) ⟨rfl, hwr⟩
  -- some thread returns again and again
  obtain ⟨i, hinf⟩ : ∃ i, ¬ ∃ n, ∀ m, n ≤ m → ¬ (ev m).returnOf i := by
    apply Classical.byContradiction
    intro hall
    have hall : ∀ i, ∃ n, ∀ m, n ≤ m → ¬ (ev m).returnOf i := fun i => Classical.byContradiction fun hi => hall ⟨i, hi⟩
    obtain ⟨n, hn⟩ := common_bound T hall
    obtain ⟨k, hk, hr⟩ := Backend.lockFree P hw hp st ev T h hT ⟨n0, hext'⟩ hard n
    have h1 := fun i hi => hn i hi k hk
    have h2 := hT k
    generalize ev k = x at h1 h2 hr
    cases x with
    | h y =>
      cases y with
      | ret i c v => exact h1 i (h2 i rfl) rfl
      | _ => exact hr
    | _ => exact hr
  obtain ⟨n, w, a, so, fo, g, hS, hn1, hn3, hidle, hl⟩ := settle h hm hno h5 hconst hinf
  have hl' : ∀ k, n ≤ k → InLoop a so fo g (load A.e m a w) (mp k i) := by
    intro k hk
    obtain ⟨d, rfl⟩ := Nat.exists_eq_add_of_le hk
    exact hl d
  have hex : ∀ k, ∃ l, k ≤ l ∧ (ev l).executes i := by
    intro k
    obtain ⟨d, hx⟩ := not_eventually hinf (n + k)
    obtain ⟨l, hl1, hl2⟩ := executes_of_returns (n := n + k + d + 1) h (h.ret_state hx).2 h5 (by
      intro k' hk' hx'
      obtain ⟨nx, B, rs, r, e, -⟩ := (inLoop_step h hm hno (by omega) (hl' k' (by omega))).2 hx'
      exact ⟨_, _, _, _, _, nx, B, rs, r, e⟩) hinf
    exact ⟨l, by omega, hl2⟩
  obtain ⟨k, hk, hcalm⟩ := hard (n0 + n4) hnw i hex (4 * (maxAlone + 1)) n
  refine Calm.method h hm hno hconst hcalm (by omega) (by omega) ?_
  obtain ⟨nx, σ, hmp⟩ := hl' k hk
  have hinv := ByMethods.inv h hm k i
  rw [hmp] at hinv ⊢
  obtain ⟨-, c, kk, ha, hth | ⟨B, pc, rs, r, hth⟩⟩ := hinv
  · rw [hth]
    exact .idle _ _ 3 ((hf.fetchUpdate w a so fo g hS).between _ m) (by decide)
  · obtain ⟨m0, tr, hr⟩ := h.grun k
    obtain ⟨hB, t, c0, h0, hpre, hrun⟩ := local_runs hr i c B pc rs r hth
    rw [hconst k (by omega)] at hrun
    obtain ⟨N, hN, hprog⟩ := hp B hB.isBlock
    rw [hth]
    refine .run _ _ 2 N c kk B pc rs r ha (hprog c0 t _ h0 hpre hrun) ((hf.fetchUpdate w a so fo g hS).inside _ c kk B ha hB c0 t _ h0 hpre hrun).2 ?_
    simp only [maxAlone] at hN ⊢; omega

end Verif
