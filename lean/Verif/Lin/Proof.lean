/-
Linearizability from per-operation atomicity and progress.
-/
import Verif.Lin.Machine
import Verif.Core.Progress

namespace Verif

variable {W : Nat}

/-- What a block must satisfy to be an atomic operation. -/
structure OpOK (e : Endian) (c : Call) (B : Block W c.width) : Prop where
  atomic : B.Atomic e fun m m' rs => c.Sem e m m' (c.result B rs)
  progress : B.Progress e

/-- When a running operation takes effect: not yet, or already (with the given result). -/
inductive Choice where
  | notYet
  | at (r : Ret)

/-- the canonical thread for a running operation -/
def Choice.toS (c : Call) : Choice → SThread
  | .notYet => .pending c
  | .at r => .done c r

/-- The choice is possible for the local trace `t` of the operation. -/
def Choice.OK (e : Endian) (c : Call) (t : List TEv) : Choice → Prop
  | .notYet => ∀ ev m m', TEv.own ev m m' ∈ t → m = m'
  | .at r => AtomicTrace t (fun m m' => c.Sem e m m' r)

/-- A local view of a running thread: the run of its block so far. -/
def Local (e : Endian) (th : Thread W) (m : Mem) (t : List TEv) : Prop :=
  match th with
  | .idle => True
  | .run c B pc rs r => OpOK e c B ∧
      ∃ c0 : Cfg W, c0.pc = 0 ∧ B.pre c0.rs ∧ Run e B.code c0 t ⟨pc, rs, m, r⟩

/-- State of the canonical object that corresponds to a thread and a choice. -/
def thS (th : Thread W) (ch : Choice) : SThread :=
  match th with
  | .idle => .idle
  | .run c _ _ _ _ => ch.toS c

theorem thS_idle {th : Thread W} {ch : Choice} (h : th = .idle) : thS th ch = .idle := by subst h; rfl

/-- the choice is possible for the thread -/
def chOK (e : Endian) (th : Thread W) (t : List TEv) (ch : Choice) : Prop :=
  match th with
  | .idle => True
  | .run c _ _ _ _ => ch.OK e c t

theorem vis_append_s (a b : List SEv) : SEv.vis (a ++ b) = SEv.vis a ++ SEv.vis b := by
  induction a with
  | nil => rfl
  | cons x t ih => cases x <;> simp [SEv.vis, ih]
theorem vis_append_g (a b : List GEv) : GEv.vis (a ++ b) = GEv.vis a ++ GEv.vis b := by
  induction a with
  | nil => rfl
  | cons x t ih => cases x <;> simp [GEv.vis, ih]
/-- Removing the last entry of an atomic trace: it was the linearization point, or not. -/
theorem AtomicTrace.unsnoc {t : List TEv} {x : TEv} {spec : Mem → Mem → Prop}
    (h : AtomicTrace (t ++ [x]) spec) :
    (AtomicTrace t spec ∧ ∀ ev m m', x = .own ev m m' → m = m') ∨
    (∃ ev m m', x = .own ev m m' ∧ spec m m' ∧ ∀ ev m m', TEv.own ev m m' ∈ t → m = m') := by
  obtain ⟨pre, ev, m, m', post, ht, hid, hs⟩ := h
  rcases List.eq_nil_or_concat post with rfl | ⟨post', y, rfl⟩
  · rw [List.append_cons, List.append_nil] at ht
    obtain ⟨rfl, hx⟩ := List.append_inj' ht rfl
    simp only [List.cons.injEq, and_true] at hx
    exact .inr ⟨ev, m, m', hx, hs, fun ev' a b hm => hid ev' a b (by simpa using hm)⟩
  · rw [List.concat_eq_append, ← List.cons_append, ← List.append_assoc] at ht
    obtain ⟨rfl, hx⟩ := List.append_inj' ht rfl
    simp only [List.cons.injEq, and_true] at hx
    subst hx
    refine .inl ⟨⟨pre, ev, m, m', post', rfl, fun ev' a b hm => hid ev' a b ?_, hs⟩, ?_⟩
    · rw [List.mem_append] at hm
      rcases hm with hm | hm
      · exact List.mem_append.2 (.inl hm)
      · exact List.mem_append.2 (.inr (by simp [hm]))
    · rintro ev' a b rfl
      exact hid ev' a b (by simp)

/-- adding an environment entry does not change which choices are possible -/
theorem Choice.OK.env {e : Endian} {c : Call} {t : List TEv} {m m' : Mem} {ch : Choice}
    (h : ch.OK e c (t ++ [.env m m'])) : ch.OK e c t := by
  cases ch with
  | notYet => exact fun ev a b hm => h ev a b (List.mem_append.2 (.inl hm))
  | «at» r =>
    rcases AtomicTrace.unsnoc h with h | ⟨_, _, _, hx, _⟩
    · exact h.1
    · cases hx

theorem chOK.env {e : Endian} {th th' : Thread W} {t : List TEv} {m m' : Mem} {ch : Choice}
    (hd : Disturbed m m' th th') (h : chOK e th' (t ++ [.env m m']) ch) : chOK e th t ch := by
  cases hd with
  | idle => trivial
  | run => exact Choice.OK.env h

theorem Disturbed.thS {th th' : Thread W} {m m' : Mem} {ch : Choice} (hd : Disturbed m m' th th') :
    thS th' ch = thS th ch := by cases hd <;> rfl

theorem Local.env {e : Endian} {th th' : Thread W} {t : List TEv} {m m' : Mem}
    (hd : Disturbed m m' th th') (h : Local e th m t) : Local e th' m' (t ++ [.env m m']) := by
  cases hd with
  | idle => trivial
  | run c B pc rs r r' hr =>
    obtain ⟨hop, c0, h1, h2, h3⟩ := h
    exact ⟨hop, c0, h1, h2, Run.env h3 m' r' hr⟩

/-- A possible choice exists for every unfinished operation. -/
theorem Local.choice {e : Endian} {th : Thread W} {m : Mem} {t : List TEv} (h : Local e th m t) :
    ∃ ch, chOK e th t ch := by
  cases th with
  | idle => exact ⟨.notYet, trivial⟩
  | run c B pc rs r =>
    obtain ⟨hop, c0, h1, h2, h3⟩ := h
    obtain ⟨N, -, hN⟩ := hop.progress
    -- finish the operation alone
    have key : ∀ (n : Nat) (t1 : List TEv) (c1 : Cfg W), Run e B.code c0 (t ++ t1) c1 →
        Finishes e B.code n c1 → ∃ t' c', Run e B.code c0 (t ++ t') c' ∧ c'.pc = B.code.length := by
      intro n
      induction n with
      | zero => intro t1 c1 hr hf; exact ⟨t1, c1, hr, hf⟩
      | succ n ih =>
        intro t1 c1 hr hf
        rcases hf with hf | ⟨i, hi, ⟨c', hq⟩, h3⟩
        · exact ⟨t1, c1, hr, hf⟩
        · have hq' := hq
          obtain ⟨ev, hs, _⟩ := hq
          refine ih (t1 ++ [.own ev c1.mem c'.mem]) c' ?_ (h3 c' hq')
          rw [← List.append_assoc]
          exact hr.own hi hs
    obtain ⟨t', c', hr, hend⟩ := key N [] _ (by simpa using h3) (hN c0 t _ h1 h2 h3)
    obtain ⟨pre, ev, a, b, post, ht, hid, hs⟩ := hop.atomic (t ++ t') c'.rs ⟨c0, c', h1, h2, hr, hend, rfl⟩
    rcases List.append_eq_append_iff.1 ht with ⟨l, rfl, hl⟩ | ⟨l, rfl, hl⟩
    · -- the linearization point lies in the future
      exact ⟨.notYet, fun ev' x y hm => hid ev' x y (by simp [hm])⟩
    · cases l with
      | nil =>
        refine ⟨.notYet, fun ev' x y hm => hid ev' x y ?_⟩
        rw [List.append_nil] at hm
        exact List.mem_append.2 (.inl hm)
      | cons z l =>
        rw [List.cons_append] at hl
        injection hl with h4 h5
        subst h4 h5
        refine ⟨.at (c.result B c'.rs), pre, ev, a, b, l, rfl, fun ev' x y hm => hid ev' x y ?_, hs⟩
        rcases List.mem_append.1 hm with hm | hm
        · exact List.mem_append.2 (.inl hm)
        · exact List.mem_append.2 (.inr (List.mem_append.2 (.inl hm)))

/-- The simulation: for every way the running operations may have taken effect, the canonical object
has a run with the same viservations. -/
def Sim (e : Endian) (m0 : Mem) (tr : List GEv) (g : GState W) (ts : Nat → List TEv) : Prop :=
  ∀ ch : Nat → Choice, (∀ i, chOK e (g.th i) (ts i) (ch i)) →
    ∃ str s, SRun e ⟨m0, fun _ => .idle⟩ str s ∧ SEv.vis str = GEv.vis tr ∧
      s.mem = g.mem ∧ ∀ i, s.th i = thS (g.th i) (ch i)

theorem sim_run {A : Backend W} {P : Call → Prop} (hop : ∀ c B, P c → c.Valid → A.Runs c B → OpOK A.e c B)
    {m0 : Mem} {tr : List GEv} {g : GState W} (h : GRun A P ⟨m0, fun _ => .idle⟩ tr g) :
    ∃ ts, (∀ i, Local A.e (g.th i) g.mem (ts i)) ∧ Sim A.e m0 tr g ts := by
  induction h with
  | nil =>
    refine ⟨fun _ => [], fun _ => trivial, fun ch _ => ⟨[], _, .nil, rfl, rfl, fun _ => rfl⟩⟩
  | snoc h hs ih =>
    rename_i tr g ev g'
    obtain ⟨ts, hloc, hsim⟩ := ih
    cases hs with
    | inv i c B rs r hidle hp hv hB hpre =>
      refine ⟨upd ts i [], ?_, ?_⟩
      · intro j
        by_cases hj : j = i
        · subst hj
          simp only [upd, if_true]
          exact ⟨hop c B hp hv hB, ⟨0, rs, g.mem, r⟩, rfl, hpre, .nil⟩
        · simp only [upd, if_neg hj]; exact hloc j
      · intro ch hch
        obtain ⟨str, s, h1, h2, h4, h5⟩ := hsim ch (by
          intro j
          by_cases hj : j = i
          · subst hj; rw [hidle]; trivial
          · have := hch j; simp only [upd, if_neg hj] at this; exact this)
        refine ⟨str ++ [.h (.inv i c)], ⟨s.mem, upd s.th i (.pending c)⟩,
          h1.snoc (.inv s i c (by rw [h5, hidle]; rfl)), ?_, h4, ?_⟩
        · rw [vis_append_s, vis_append_g, h2]; rfl
        · intro j
          by_cases hj : j = i
          · subst hj
            have := hch j
            simp only [upd, if_true] at this ⊢
            cases hc : ch j with
            | notYet => rfl
            | «at» r =>
              rw [hc] at this
              obtain ⟨pre, _, _, _, _, ht, _⟩ := this
              simp at ht
          · simp only [upd, if_neg hj]; exact h5 j
    | ret i c B rs r hrun =>
      refine ⟨ts, ?_, ?_⟩
      · intro j
        by_cases hj : j = i
        · subst hj; simp only [upd, if_true]; trivial
        · simp only [upd, if_neg hj]; exact hloc j
      · intro ch hch
        have hl := hloc i
        rw [hrun] at hl
        obtain ⟨hopc, c0, hc1, hc2, hc3⟩ := hl
        have hat := hopc.atomic (ts i) rs ⟨c0, _, hc1, hc2, hc3, rfl, rfl⟩
        obtain ⟨str, s, h1, h2, h4, h5⟩ := hsim (upd ch i (.at (c.result B rs))) (by
          intro j
          by_cases hj : j = i
          · subst hj; rw [hrun]; simp only [upd, if_true]; exact hat
          · have := hch j; simp only [upd, if_neg hj] at this ⊢; exact this)
        refine ⟨str ++ [.h (.ret i c (c.result B rs))], ⟨s.mem, upd s.th i .idle⟩,
          h1.snoc (.ret s i c _ (by rw [h5, hrun]; simp [upd, thS, Choice.toS])), ?_, h4, ?_⟩
        · rw [vis_append_s, vis_append_g, h2]; rfl
        · intro j
          by_cases hj : j = i
          · subst hj; simp only [upd, if_true]; rfl
          · have := h5 j; simp only [upd, if_neg hj] at this ⊢; exact this
    | ext m' th' hd =>
      refine ⟨fun j => ts j ++ [.env g.mem m'], fun j => (hloc j).env (hd j), ?_⟩
      intro ch hch
      obtain ⟨str, s, h1, h2, h4, h5⟩ := hsim ch fun j => (hch j).env (hd j)
      refine ⟨str ++ [.ext s.mem m'], _, h1.snoc (.ext s m'), ?_, rfl, ?_⟩
      · rw [vis_append_s, vis_append_g, h2]; simp [SEv.vis, GEv.vis, h4]
      · intro j; show s.th j = _; rw [h5, (hd j).thS]
    | own i c B pc rs r ins ev c' th' hrun hi hst hth hd =>
      have hl := hloc i
      rw [hrun] at hl
      obtain ⟨hopc, c0, hc1, hc2, hc3⟩ := hl
      refine ⟨fun j => if j = i then ts i ++ [.own ev g.mem c'.mem] else ts j ++ [.env g.mem c'.mem], ?_, ?_⟩
      · intro j
        by_cases hj : j = i
        · subst hj
          simp only [if_true, hth]
          exact ⟨hopc, c0, hc1, hc2, hc3.own hi hst⟩
        · simp only [if_neg hj]; exact (hloc j).env (hd j hj)
      · intro ch hch
        have hother : ∀ j, j ≠ i → chOK A.e (g.th j) (ts j) (ch j) := by
          intro j hj
          have := hch j
          simp only [if_neg hj] at this
          exact this.env (hd j hj)
        have hself := hch i
        simp only [if_true, hth] at hself
        -- the same memory: the step was not the linearization point of the chosen history
        have hsame : (ch i).OK A.e c (ts i) → c'.mem = g.mem →
            ∃ str s, SRun A.e ⟨m0, fun _ => .idle⟩ str s ∧
              SEv.vis str = GEv.vis (tr ++ [.own i ev g.mem c'.mem]) ∧
      s.mem = c'.mem ∧
              ∀ j, s.th j = thS (th' j) (ch j) := by
          intro hok hm
          obtain ⟨str, s, h1, h2, h4, h5⟩ := hsim ch (by
            intro j
            by_cases hj : j = i
            · subst hj; rw [hrun]; exact hok
            · exact hother j hj)
          refine ⟨str, s, h1, ?_, by rw [h4, hm], ?_⟩
          · rw [vis_append_g, h2]; simp [GEv.vis]
          · intro j
            by_cases hj : j = i
            · subst hj; rw [h5, hth, hrun]; rfl
            · rw [h5, (hd j hj).thS]
        cases hc : ch i with
        | notYet =>
          rw [hc] at hself
          refine hsame ?_ (hself ev _ _ (by simp)).symm
          rw [hc]
          exact fun ev' a b hm => hself ev' a b (List.mem_append.2 (.inl hm))
        | «at» res =>
          rw [hc] at hself
          rcases AtomicTrace.unsnoc hself with ⟨h1, h2⟩ | ⟨ev', a, b, hx, hsem, hid⟩
          · refine hsame (by rw [hc]; exact h1) (h2 _ _ _ rfl).symm
          · injection hx with hx1 hx2 hx3
            subst hx1 hx2 hx3
            obtain ⟨str, s, h1, h2, h4, h5⟩ := hsim (upd ch i .notYet) (by
              intro j
              by_cases hj : j = i
              · subst hj; rw [hrun]; simp only [upd, if_true]; exact hid
              · simp only [upd, if_neg hj]; exact hother j hj)
            refine ⟨str ++ [.pt i c res], _, h1.snoc (.pt s i c res c'.mem ?_ ?_), ?_, rfl, ?_⟩
            · rw [h5, hrun]; simp [upd, thS, Choice.toS]
            · rw [h4]; exact hsem
            · rw [vis_append_s, vis_append_g, h2]; simp [SEv.vis, GEv.vis]
            · intro j
              by_cases hj : j = i
              · subst hj; simp [upd, hth, thS, Choice.toS, hc]
              · simp only [upd, if_neg hj]
                rw [h5, (hd j hj).thS]
                simp [upd, hj]

/-- Per-operation atomicity and progress imply linearizability. -/
theorem Backend.linearizable {A : Backend W} {P : Call → Prop}
    (hop : ∀ c B, P c → c.Valid → A.Runs c B → OpOK A.e c B) : A.Linearizable P := by
  intro m0 tr g h
  obtain ⟨ts, hloc, hsim⟩ := sim_run hop h
  have hex : ∀ i, ∃ ch, chOK A.e (g.th i) (ts i) ch := fun i => (hloc i).choice
  obtain ⟨str, s, h1, h2, h4, h5⟩ := hsim (fun i => (hex i).choose) (fun i => (hex i).choose_spec)
  exact ⟨str, s, h1, h2, h4, fun i hi => (h5 i).trans (thS_idle hi)⟩

theorem AtomicTrace.mono {t : List TEv} {s1 s2 : Mem → Mem → Prop} (h : AtomicTrace t s1)
    (h12 : ∀ m m', s1 m m' → s2 m m') : AtomicTrace t s2 := by
  obtain ⟨pre, ev, m, m', post, ht, hid, hs⟩ := h
  exact ⟨pre, ev, m, m', post, ht, hid, h12 _ _ hs⟩

/-- The form used for the back ends: the five operations are atomic (`compare_exchange` for the sizes
for which it is strong) and make progress. -/
theorem Backend.linearizable_of {A : Backend W} (P : Call → Prop) (h1 : A.LoadsAtomic)
    (h2 : A.StoresAtomic) (h3 : A.SwapsAtomic)
    (h4 : ∀ s f w a old new B, P (.cas s f w a old new) → A.Cas s f w a old new B →
      B.Atomic A.e fun m m' rs => CasSpec A.e a w old new m m' (B.out rs) (B.ok rs))
    (h5 : A.WeakCasAtomic) (h6 : A.ProgressOK) : A.Linearizable P := by
  refine Backend.linearizable ?_
  intro c B hP _ hB
  cases c with
  | load o w a =>
    exact ⟨fun tr rs hr => (h1 _ _ _ _ hB tr rs hr).mono fun m m' h => ⟨_, h, rfl⟩, h6 B (.load hB)⟩
  | store o w a v =>
    exact ⟨fun tr rs hr => (h2 _ _ _ _ _ hB tr rs hr).mono fun m m' h => ⟨h, rfl⟩, h6 B (.store hB)⟩
  | swap o w a v =>
    exact ⟨fun tr rs hr => (h3 _ _ _ _ _ hB tr rs hr).mono fun m m' h => ⟨_, h, rfl⟩, h6 B (.swap hB)⟩
  | cas s f w a old new =>
    exact ⟨fun tr rs hr => (h4 _ _ _ _ _ _ _ hP hB tr rs hr).mono fun m m' h => ⟨_, _, h, rfl⟩,
      h6 B (.cas hB)⟩
  | casWeak s f w a old new =>
    exact ⟨fun tr rs hr => (h5 _ _ _ _ _ _ _ hB tr rs hr).mono fun m m' h => ⟨_, _, h, rfl⟩,
      h6 B (.casWeak hB)⟩

end Verif
