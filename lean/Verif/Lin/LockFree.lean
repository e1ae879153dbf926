/-
C46, lock-freedom: in every endless run of finitely many threads, operations return again and again, whatever the
scheduler does. No fairness is assumed: threads may be stopped for ever in the middle of an operation.
-/
import Verif.Lin.Abandon
import Verif.Lin.Complete

namespace Verif

variable {W : Nat}

/-- An endless run: `st n` is the state before event number `n`. -/
def Endless (A : Backend W) (P : Call → Prop) (st : Nat → GState W) (ev : Nat → GEv) : Prop :=
  (∃ m0, st 0 = ⟨m0, fun _ => .idle⟩) ∧ ∀ n, GStep A P (st n) (ev n) (st (n + 1))

/-- The thread that acts (none: memory is changed by something else than the operations). -/
def GEv.thread : GEv → Option Nat
  | .h (.inv i _) => some i
  | .h (.ret i _ _) => some i
  | .own i _ _ _ => some i
  | .ext _ _ => none
/-- The thread executes an instruction of an operation. -/
def GEv.executes (i : Nat) : GEv → Prop
  | .own j _ _ _ => j = i
  | _ => False
/-- Something is written to memory (or might be, from outside). -/
def GEv.writes : GEv → Prop
  | .own _ ev _ _ => ev.isWrite = true
  | .ext _ _ => True
  | .h _ => False
/-- An operation returns. -/
def GEv.returns : GEv → Prop
  | .h (.ret _ _ _) => True
  | _ => False

/-- Step `n` does thread `i` no harm: if it is an instruction of `i`, it is not a store-conditional that fails although
its reservation is valid, nor a torn double-width load (`QStep`); otherwise `i` keeps its reservation. -/
def Harmless (A : Backend W) (st : Nat → GState W) (ev : Nat → GEv) (i n : Nat) : Prop :=
  ((ev n).executes i → ∃ c, ∃ B : Block W c.width, ∃ pc rs r ins c', (st n).th i = .run c B pc rs r ∧
    B.code[pc]? = some ins ∧ QStep A.e ins ⟨pc, rs, (st n).mem, r⟩ c' ∧ (st (n + 1)).mem = c'.mem ∧
    (st (n + 1)).th i = .run c B c'.pc c'.rs c'.resv) ∧
  ((ev n).thread ≠ some i → (st (n + 1)).th i = (st n).th i)

/-- From step `n` on, thread `i` executes `k` instructions without being harmed. -/
inductive Calm (A : Backend W) (st : Nat → GState W) (ev : Nat → GEv) (i : Nat) : Nat → Nat → Prop where
  | done (n) : Calm A st ev i 0 n
  | here {k n} (hx : (ev n).executes i) (hh : Harmless A st ev i n) (h : Calm A st ev i k (n + 1)) : Calm A st ev i (k + 1) n
  | other {k n} (hx : ¬ (ev n).executes i) (hh : Harmless A st ev i n) (h : Calm A st ev i k (n + 1)) : Calm A st ev i k n

/-- What is expected of the hardware (the eventual success of LL/SC loops of the architecture manuals): if from some
point on nobody writes to memory, then a thread that keeps executing instructions is, again and again, left in peace for
any given number of them. Nothing is expected as long as somebody writes. -/
def HardwareProgress (A : Backend W) (st : Nat → GState W) (ev : Nat → GEv) : Prop :=
  ∀ n0, (∀ n, n0 ≤ n → ¬ (ev n).writes) → ∀ i, (∀ n, ∃ m, n ≤ m ∧ (ev m).executes i) →
    ∀ k n, ∃ m, n ≤ m ∧ Calm A st ev i k m

/-- C46. Lock-freedom: in every endless run of finitely many threads, if memory is changed from outside only finitely
often and the hardware makes progress, operations return again and again. -/
def Backend.LockFree (A : Backend W) (P : Call → Prop) : Prop :=
  ∀ (st : Nat → GState W) (ev : Nat → GEv) (T : Nat), Endless A P st ev →
    (∀ n i, (ev n).thread = some i → i < T) → (∃ n0, ∀ n, n0 ≤ n → (ev n).thread ≠ none) → HardwareProgress A st ev →
    ∀ n, ∃ m, n ≤ m ∧ (ev m).returns

/-! ### Blocks write at most once -/

/-- In no run does the block write twice. -/
def Block.WritesOnce {w : Nat} (e : Endian) (B : Block W w) : Prop :=
  ∀ (c0 : Cfg W) (tr : List TEv) (c : Cfg W), c0.pc = 0 → B.pre c0.rs → Run e B.code c0 tr c →
    ∀ p x m m' q y n n' s, tr = p ++ TEv.own x m m' :: (q ++ TEv.own y n n' :: s) → x.isWrite = true → y.isWrite = false

/-- Two positions in a list around a third. -/
theorem two_writes {α : Type} {p q s pre post : List α} {x y z : α} {f : α → Bool}
    (h : p ++ x :: (q ++ y :: s) = pre ++ z :: post) (hpre : ∀ a ∈ pre, f a = false) (hpost : ∀ a ∈ post, f a = false)
    (hx : f x = true) : f y = false := by
  induction pre generalizing p with
  | nil =>
    cases p with
    | nil =>
      simp only [List.nil_append, List.cons.injEq] at h
      exact hpost y (by rw [← h.2]; simp)
    | cons a p =>
      simp only [List.cons_append, List.nil_append, List.cons.injEq] at h
      exact hpost y (by rw [← h.2]; simp)
  | cons b pre ih =>
    cases p with
    | nil =>
      simp only [List.nil_append, List.cons_append, List.cons.injEq] at h
      rw [h.1, hpre b List.mem_cons_self] at hx
      cases hx
    | cons a p =>
      simp only [List.cons_append, List.cons.injEq] at h
      exact ih h.2 fun a ha => hpre a (List.mem_cons_of_mem _ ha)

/-- The event of an entry writes. -/
def TEv.isWrite : TEv → Bool
  | .own ev _ _ => ev.isWrite
  | .env _ _ => false

theorem Implements.writesOnce {w : Nat} {e : Endian} {B : Block W w} {post : Mem → Mem → RS W → Mon → Prop}
    (h : Implements e B.code B.pre post) (hp : B.Progress e) : B.WritesOnce e := by
  intro c0 tr c h0 hpre hr p x m m' q y n n' s htr hx
  obtain ⟨N, -, hN⟩ := hp
  obtain ⟨tr', c', hr', hend⟩ := (hN c0 tr c h0 hpre hr).extends hr
  obtain ⟨l, hl, hlt⟩ := hr'.label
  obtain ⟨pr, ins, rs, ev, a, b, po, rfl, _, h1, h2, _⟩ := h c0 l c' h0 hpre hl hend
  rw [htr] at hlt
  refine two_writes (p := p) (x := TEv.own x m m') (q := q) (y := TEv.own y n n') (s := s ++ tr')
    (pre := pr.map LEv.erase) (z := TEv.own ev a b) (post := po.map LEv.erase) (f := TEv.isWrite) ?_ ?_ ?_ hx
  · simpa [LEv.erase] using hlt.symm
  · intro z hz
    obtain ⟨u, hu, rfl⟩ := List.mem_map.1 hz
    have := h1 u hu
    cases u <;> exact this
  · intro z hz
    obtain ⟨u, hu, rfl⟩ := List.mem_map.1 hz
    have := LEv.write_access (h2 u hu)
    cases u <;> exact this

/-- All operations of the back end write at most once. -/
def Backend.WritesOnce (A : Backend W) : Prop := ∀ {w : Nat} (B : Block W w), A.IsBlock B → B.WritesOnce A.e

theorem Good.writesOnce {A : Backend W} {sc : List Mon} (h : Good A sc) (hp : A.ProgressOK) : A.WritesOnce := by
  intro w B hB
  cases hB with
  | load hB' => exact (h.load _ _ _ _ hB').writesOnce (hp B (.load hB'))
  | store hB' => exact (h.store _ _ _ _ _ hB').writesOnce (hp B (.store hB'))
  | swap hB' => exact (h.swap _ _ _ _ _ hB').writesOnce (hp B (.swap hB'))
  | cas hB' => exact (h.cas _ _ _ _ _ _ _ hB').writesOnce (hp B (.cas hB'))
  | casWeak hB' => exact (h.casWeak _ _ _ _ _ _ _ hB').writesOnce (hp B (.casWeak hB'))

/-! ### The proof -/

/-- The thread is in an operation that has already written. -/
def Sealed (A : Backend W) (m : Mem) (t : Thread W) : Prop :=
  ∃ c, ∃ B : Block W c.width, ∃ pc rs r, t = .run c B pc rs r ∧ A.Runs c B ∧
    ∃ c0 p x a b s, c0.pc = 0 ∧ B.pre c0.rs ∧ x.isWrite = true ∧
      Run A.e B.code c0 (p ++ TEv.own x a b :: s) ⟨pc, rs, m, r⟩

theorem Sealed.disturbed {A : Backend W} {m m' : Mem} {t t' : Thread W} (h : Sealed A m t) (hd : Disturbed m m' t t') :
    Sealed A m' t' := by
  obtain ⟨c, B, pc, rs, r, rfl, hB, c0, p, x, a, b, s, h0, hp, hx, hr⟩ := h
  generalize hy : Thread.run c B pc rs r = y at hd
  cases hd with
  | idle => cases hy
  | run c1 B1 pc1 rs1 r1 r' he =>
    injection hy with h1 h2 h3 h4 h5
    subst h1; cases h2; subst h3 h4 h5
    refine ⟨c, B, pc, rs, r', rfl, hB, c0, p, x, a, b, s ++ [.env m m'], h0, hp, hx, ?_⟩
    have := hr.env m' r' he
    simpa using this

theorem Sealed.step {A : Backend W} {P : Call → Prop} (hw : A.WritesOnce) {g g' : GState W} {ev : GEv} {i : Nat}
    (h : Sealed A g.mem (g.th i)) (hs : GStep A P g ev g') (hret : ¬ ev.returns) :
    Sealed A g'.mem (g'.th i) ∧ ¬ (ev.executes i ∧ ev.writes) := by
  cases hs with
  | inv j c B rs r hidle hp hv hB hpre =>
    have hij : i ≠ j := by
      rintro rfl
      obtain ⟨c, B, pc, rs, r, h1, _⟩ := h
      rw [hidle] at h1; cases h1
    exact ⟨by simpa only [upd, if_neg hij] using h, fun h => h.1⟩
  | ret => exact absurd trivial hret
  | ext m' th' hd => exact ⟨h.disturbed (hd i), fun h => h.1⟩
  | own j c B pc rs r ins ev c' th' hrun hi hst hth hd =>
    by_cases hij : i = j
    · subst hij
      obtain ⟨c1, B1, pc1, rs1, r1, h1, hB, c0, p, x, a, b, s, h0, hp, hx, hr⟩ := h
      rw [hrun] at h1
      injection h1 with h1 h2 h3 h4 h5
      subst h1; cases h2; subst h3 h4 h5
      have hr' := hr.own hi hst
      refine ⟨⟨c, B, _, _, _, hth, hB, c0, p, x, a, b, s ++ [.own ev g.mem c'.mem], h0, hp, hx, by simpa using hr'⟩, ?_⟩
      rintro ⟨-, hwr⟩
      have hwr : ev.isWrite = true := hwr
      have := hw B hB.isBlock c0 _ _ h0 hp hr' p x a b s ev g.mem c'.mem [] (by simp) hx
      rw [this] at hwr; cases hwr
    · refine ⟨h.disturbed (hd i hij), fun h => hij h.1.symm⟩

theorem Endless.grun {A : Backend W} {P : Call → Prop} {st : Nat → GState W} {ev : Nat → GEv} (h : Endless A P st ev) (n : Nat) :
    ∃ m0 tr, GRun A P ⟨m0, fun _ => .idle⟩ tr (st n) := by
  obtain ⟨⟨m0, h0⟩, hs⟩ := h
  refine ⟨m0, ?_⟩
  induction n with
  | zero => exact ⟨[], by rw [h0]; exact .nil⟩
  | succ n ih => obtain ⟨tr, ih⟩ := ih; exact ⟨_, ih.snoc (hs n)⟩

/-- An own write seals the thread. -/
theorem sealed_of_write {A : Backend W} {P : Call → Prop} {st : Nat → GState W} {ev : Nat → GEv} (h : Endless A P st ev)
    {n i : Nat} (hx : (ev n).executes i) (hw : (ev n).writes) : Sealed A (st (n + 1)).mem ((st (n + 1)).th i) := by
  obtain ⟨m0, tr, hr⟩ := h.grun n
  have hs := h.2 n
  generalize ev n = x at hx hw hs
  generalize st (n + 1) = g' at hs
  cases hs with
  | own j c B pc rs r ins ev c' th' hrun hi hst hth hd =>
    have : j = i := hx
    subst this
    obtain ⟨hB, t, c0, h0, hp, hl⟩ := local_runs hr j c B pc rs r hrun
    exact ⟨c, B, _, _, _, hth, hB, c0, t, ev, _, _, [], h0, hp, hw, by simpa using hl.own hi hst⟩
  | _ => exact hx.elim

/-- Finitely many bounds have a common bound. -/
theorem common_bound {Q : Nat → Nat → Prop} (T : Nat) (h : ∀ i, ∃ n, ∀ m, n ≤ m → Q i m) :
    ∃ n, ∀ i, i < T → ∀ m, n ≤ m → Q i m := by
  induction T with
  | zero => exact ⟨0, fun i hi => absurd hi (Nat.not_lt_zero i)⟩
  | succ T ih =>
    obtain ⟨n, hn⟩ := ih
    obtain ⟨k, hk⟩ := h T
    refine ⟨max n k, fun i hi m hm => ?_⟩
    rcases Nat.lt_succ_iff_lt_or_eq.1 hi with hi | rfl
    · exact hn i hi m (Nat.le_trans (Nat.le_max_left ..) hm)
    · exact hk m (Nat.le_trans (Nat.le_max_right ..) hm)

/-- A thread that is left in peace finishes. -/
theorem Calm.finish {A : Backend W} {P : Call → Prop} {st : Nat → GState W} {ev : Nat → GEv} (h : Endless A P st ev) {i : Nat}
    (n0 : Nat) (hnr : ∀ n, n0 ≤ n → ¬ (ev n).returns) (hnw : ∀ n, n0 ≤ n → ¬ (ev n).writes) {c : Call} {B : Block W c.width}
    {k n : Nat} (hc : Calm A st ev i k n) : n0 ≤ n → ∀ N, N < k → ∀ pc rs r, (st n).th i = .run c B pc rs r →
    Finishes A.e B.code N ⟨pc, rs, (st n).mem, r⟩ → False := by
  induction hc with
  | done n => intro _ N hN; omega
  | @here k n hx hh hc ih =>
    intro hn N hN pc rs r hth hf
    obtain ⟨c1, B1, pc1, rs1, r1, ins, c', h1, h2, h3, h4, h5⟩ := hh.1 hx
    rw [hth] at h1
    injection h1 with h1 h6 h7 h8 h9
    subst h1; cases h6; subst h7 h8 h9
    have hlt : pc < B.code.length := by
      rcases Nat.lt_or_ge pc B.code.length with h | h
      · exact h
      · rw [List.getElem?_eq_none h] at h2; cases h2
    cases N with
    | zero => exact Nat.ne_of_lt hlt hf
    | succ N =>
      rcases hf with hf | ⟨ins', hi', _, hf⟩
      · exact Nat.ne_of_lt hlt hf
      · have : some ins = some ins' := h2.symm.trans hi'
        injection this with this
        subst this
        refine ih (by omega) N (by omega) _ _ _ h5 ?_
        rw [h4]; exact hf c' h3
  | @other k n hx hh hc ih =>
    intro hn N hN pc rs r hth hf
    have hs := h.2 n
    have hnr' := hnr n hn
    have hnw' := hnw n hn
    have key : (st (n + 1)).th i = .run c B pc rs r ∧ (st (n + 1)).mem = (st n).mem := by
      have hh2 := hh.2
      generalize ev n = x at hs hx hh2 hnr' hnw'
      generalize st (n + 1) = g' at hs hh2
      cases hs with
      | inv j c' B' rs' r' hidle hp hv hB hpre =>
        have hij : j ≠ i := by rintro rfl; rw [hth] at hidle; cases hidle
        exact ⟨(hh2 (by simpa [GEv.thread] using hij)).trans hth, rfl⟩
      | ret => exact absurd trivial hnr'
      | ext => exact absurd trivial hnw'
      | own j c' B' pc' rs' r' ins ev' c'' th' hrun hi hst hth' hd =>
        have hij : j ≠ i := hx
        refine ⟨(hh2 (by simpa [GEv.thread] using hij)).trans hth, hst.silent ?_⟩
        cases hv : ev'.isWrite with
        | false => rfl
        | true => exact absurd hv hnw'
    exact ih (by omega) N hN pc rs r key.1 (by rw [key.2]; exact hf)

theorem Backend.lockFree {A : Backend W} (P : Call → Prop) (hw : A.WritesOnce) (hp : A.ProgressOK) : A.LockFree P := by
  intro st ev T h hT hext hard n1
  apply Classical.byContradiction
  intro hno
  have hno : ∀ n, n1 ≤ n → ¬ (ev n).returns := fun n hn hr => hno ⟨n, hn, hr⟩
  obtain ⟨n2, hext⟩ := hext
  -- every thread writes finitely often
  have hfin : ∀ i, ∃ n, ∀ m, n ≤ m → ¬ ((ev m).executes i ∧ (ev m).writes) := by
    intro i
    apply Classical.byContradiction
    intro hinf
    have : ∃ n, n1 ≤ n ∧ ((ev n).executes i ∧ (ev n).writes) := by
      apply Classical.byContradiction
      intro hn
      exact hinf ⟨n1, fun m hm hx => hn ⟨m, hm, hx⟩⟩
    obtain ⟨n, hn, hx⟩ := this
    have hseal : ∀ d, Sealed A (st (n + 1 + d)).mem ((st (n + 1 + d)).th i) := by
      intro d
      induction d with
      | zero => exact sealed_of_write h hx.1 hx.2
      | succ d ih => exact (ih.step hw (h.2 _) (hno _ (by omega))).1
    refine hinf ⟨n + 1, fun m hm => ?_⟩
    obtain ⟨d, rfl⟩ := Nat.exists_eq_add_of_le hm
    exact ((hseal d).step hw (h.2 _) (hno _ (by omega))).2
  obtain ⟨n3, hfin⟩ := common_bound T hfin
  let n0 := max n1 (max n2 n3)
  have hn1 : n1 ≤ n0 := Nat.le_max_left ..
  have hn2 : n2 ≤ n0 := Nat.le_trans (Nat.le_max_left ..) (Nat.le_max_right ..)
  have hn3 : n3 ≤ n0 := Nat.le_trans (Nat.le_max_right ..) (Nat.le_max_right ..)
  have hnw : ∀ n, n0 ≤ n → ¬ (ev n).writes := by
    intro n hn hwr
    have h1 := hext n (by omega)
    have h2 := hT n
    have h3 := fun i hi => hfin i hi n (by omega)
    generalize ev n = x at hwr h1 h2 h3
    cases x with
    | h => exact hwr
    | ext => exact h1 rfl
    | own i e a b => exact h3 i (h2 i rfl) ⟨rfl, hwr⟩
  -- every thread executes finitely many instructions
  have hex : ∀ i, ∃ n, ∀ m, n ≤ m → ¬ (ev m).executes i := by
    intro i
    apply Classical.byContradiction
    intro hinf
    have hinf : ∀ n, ∃ m, n ≤ m ∧ (ev m).executes i := by
      intro n
      apply Classical.byContradiction
      intro hn
      exact hinf ⟨n, fun m hm hx => hn ⟨m, hm, hx⟩⟩
    obtain ⟨n, hn, hx⟩ := hinf n0
    -- the operation the thread is in for ever
    have hop : ∃ c, ∃ B : Block W c.width, ∃ pc rs r, (st n).th i = .run c B pc rs r := by
      have hs := h.2 n
      generalize ev n = x at hx hs
      generalize st (n + 1) = g' at hs
      cases hs with
      | own j c B pc rs r ins ev c' th' hrun =>
        have : j = i := hx
        subst this
        exact ⟨c, B, pc, rs, r, hrun⟩
      | _ => exact hx.elim
    obtain ⟨c, B, hrun⟩ := hop
    have hstay : ∀ d, ∃ pc rs r, (st (n + d)).th i = .run c B pc rs r := by
      intro d
      induction d with
      | zero => exact hrun
      | succ d ih =>
        obtain ⟨pc, rs, r, ih⟩ := ih
        have hs := h.2 (n + d)
        have hnr := hno (n + d) (by omega)
        rw [← Nat.add_assoc]
        generalize ev (n + d) = x at hs hnr
        generalize st (n + d + 1) = g' at hs
        have dist : ∀ {m m' : Mem} {t : Thread W}, Disturbed m m' ((st (n + d)).th i) t → ∃ pc rs r, t = .run c B pc rs r := by
          intro m m' t hd
          rw [ih] at hd
          generalize hy : Thread.run c B pc rs r = y at hd
          cases hd with
          | idle => cases hy
          | run c1 B1 pc1 rs1 r1 r' he =>
            injection hy with h1 h2 h3 h4 h5
            subst h1; cases h2
            exact ⟨_, _, _, rfl⟩
        cases hs with
        | inv j c' B' rs' r' hidle hp hv hB hpre =>
          have hij : i ≠ j := by rintro rfl; rw [ih] at hidle; cases hidle
          exact ⟨pc, rs, r, by simp only [upd, if_neg hij]; exact ih⟩
        | ret => exact absurd trivial hnr
        | ext m' th' hd => exact dist (hd i)
        | own j c' B' pc' rs' r' ins ev' c'' th' hrun' hi hst hth' hd =>
          by_cases hij : i = j
          · subst hij
            rw [ih] at hrun'
            injection hrun' with h1 h2
            subst h1; cases h2
            exact ⟨_, _, _, hth'⟩
          · exact dist (hd i hij)
    obtain ⟨pc, rs, r, hth⟩ := hrun
    obtain ⟨m0, tr, hr⟩ := h.grun n
    obtain ⟨hB, -⟩ := local_runs hr i c B pc rs r hth
    obtain ⟨N, -, hN⟩ := hp B hB.isBlock
    obtain ⟨m, hm, hc⟩ := hard n0 hnw i hinf (N + 1) n
    obtain ⟨d, rfl⟩ := Nat.exists_eq_add_of_le hm
    obtain ⟨pc', rs', r', hth'⟩ := hstay d
    obtain ⟨m0, tr, hr⟩ := h.grun (n + d)
    obtain ⟨-, t, c0, h0, hpre, hl⟩ := local_runs hr i c B pc' rs' r' hth'
    exact hc.finish h n0 (fun k hk => hno k (by omega)) hnw (by omega) N (by omega) pc' rs' r' hth' (hN c0 t _ h0 hpre hl)
  obtain ⟨n4, hex⟩ := common_bound T hex
  -- then only invocations remain, at most one per thread
  have hinv : ∀ i, ∃ n, ∀ m, n ≤ m → (ev m).thread ≠ some i := by
    intro i
    apply Classical.byContradiction
    intro hinf
    let k0 := max n0 n4
    have hk0 : n0 ≤ k0 := Nat.le_max_left ..
    have hk4 : n4 ≤ k0 := Nat.le_max_right ..
    have hinf : ∀ n, ∃ m, n ≤ m ∧ (ev m).thread = some i := by
      intro n
      apply Classical.byContradiction
      intro hn
      exact hinf ⟨n, fun m hm hx => hn ⟨m, hm, hx⟩⟩
    obtain ⟨n, hn, hx⟩ := hinf k0
    have busy : ∀ n, k0 ≤ n → (ev n).thread = some i → (st n).th i = .idle ∧ (st (n + 1)).th i ≠ .idle := by
      intro n hn hx
      have hs := h.2 n
      have hnr := hno n (by omega)
      have hne := hex i (hT n i hx) n (by omega)
      generalize ev n = x at hs hx hnr hne
      generalize st (n + 1) = g' at hs
      cases hs with
      | inv j c' B' rs' r' hidle hp hv hB hpre =>
        have : j = i := by simpa [GEv.thread] using hx
        subst this
        exact ⟨hidle, by simp [upd]⟩
      | ret => exact absurd trivial hnr
      | ext => cases hx
      | own j => 
        have : j = i := by simpa [GEv.thread] using hx
        exact absurd this hne
    have hbusy : ∀ d, (st (n + 1 + d)).th i ≠ .idle := by
      intro d
      induction d with
      | zero => exact (busy n hn hx).2
      | succ d ih =>
        by_cases hj : (ev (n + 1 + d)).thread = some i
        · exact absurd (busy _ (by omega) hj).1 ih
        · have hs := h.2 (n + 1 + d)
          rw [← Nat.add_assoc]
          generalize ev (n + 1 + d) = x at hs hj
          generalize st (n + 1 + d + 1) = g' at hs
          have dist : ∀ {m m' : Mem} {t : Thread W}, Disturbed m m' ((st (n + 1 + d)).th i) t → t ≠ .idle := by
            intro m m' t hd ht
            subst ht
            generalize hy : (st (n + 1 + d)).th i = y at hd ih
            cases hd
            exact ih rfl
          cases hs with
          | inv j c' B' rs' r' hidle hp hv hB hpre =>
            have hij : i ≠ j := by rintro rfl; exact hj rfl
            simpa only [upd, if_neg hij] using ih
          | ret j =>
            have hij : i ≠ j := by rintro rfl; exact hj rfl
            simpa only [upd, if_neg hij] using ih
          | ext m' th' hd => exact dist (hd i)
          | own j c' B' pc' rs' r' ins ev' c'' th' hrun' hi hst hth' hd =>
            exact dist (hd i fun hij => hj (by rw [hij]; rfl))
    obtain ⟨m, hm, hx'⟩ := hinf (n + 1)
    obtain ⟨d, rfl⟩ := Nat.exists_eq_add_of_le hm
    exact hbusy d (busy _ (by omega) hx').1
  obtain ⟨n5, hinv⟩ := common_bound T hinv
  let n6 := max n0 n5
  have h6 : n0 ≤ n6 := Nat.le_max_left ..
  have h7 : n5 ≤ n6 := Nat.le_max_right ..
  have h1 := hext n6 (by omega)
  cases ht : (ev n6).thread with
  | none => exact h1 ht
  | some i => exact hinv i (hT n6 i ht) n6 h7 ht

end Verif
