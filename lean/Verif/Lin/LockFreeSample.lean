/-
Beside C46: for every schedule there is a run as C46 assumes, and without any assumption about the hardware C46 would
be wrong (`exists_stuck`, used in Props/LockFree).
-/
import Verif.Lin.LockFree
import Verif.Lin.WaitFree

namespace Verif

variable {W : Nat}

/-- A possible step of thread `i`, without spurious failures. -/
def NiceStep (A : Backend W) (P : Call → Prop) (i : Nat) (g : GState W) (x : GEv) (g' : GState W) : Prop :=
  GStep A P g x g' ∧ x.thread = some i ∧
  (x.executes i → ∃ c, ∃ B : Block W c.width, ∃ pc rs r ins c', g.th i = .run c B pc rs r ∧
    B.code[pc]? = some ins ∧ QStep A.e ins ⟨pc, rs, g.mem, r⟩ c' ∧ g'.mem = c'.mem ∧
    g'.th i = .run c B c'.pc c'.rs c'.resv) ∧
  (g'.mem = g.mem → ∀ j, j ≠ i → g'.th j = g.th j)

theorem disturbed_refl (m : Mem) (t : Thread W) : Disturbed m m t t := by
  cases t with
  | idle => exact .idle
  | run c B pc rs r => exact .run c B pc rs r r (.inr ⟨rfl, fun _ _ _ => Agree.refl _ _ _⟩)

/-- In every reachable state every thread can take such a step. -/
theorem exists_niceStep {A : Backend W} {P : Call → Prop} (hp : A.ProgressOK) {m0 : Mem} {tr : List GEv} {g : GState W}
    (h : GRun A P ⟨m0, fun _ => .idle⟩ tr g) (i : Nat) {c : Call} (hc : P c) (hv : c.Valid) {B : Block W c.width}
    (hB : A.Runs c B) {rs : RS W} (hpre : B.pre rs) : ∃ x g', NiceStep A P i g x g' := by
  cases ht : g.th i with
  | idle =>
    refine ⟨_, _, .inv g i c B rs none ht hc hv hB hpre, rfl, fun h => h.elim, fun _ j hj => ?_⟩
    simp only [upd, if_neg hj]
  | run c1 B1 pc rs1 r =>
    obtain ⟨hB1, t, c0, h0, hpre1, hl⟩ := local_runs h i c1 B1 pc rs1 r ht
    obtain ⟨N, -, hN⟩ := hp B1 hB1.isBlock
    have hf := (hN c0 t _ h0 hpre1 hl).succ
    rcases hf with hf | ⟨ins, hi, ⟨c', hq⟩, -⟩
    · have hf : pc = B1.code.length := hf
      subst hf
      refine ⟨_, _, .ret g i c1 B1 rs1 r ht, rfl, fun h => h.elim, fun _ j hj => ?_⟩
      simp only [upd, if_neg hj]
    · have hq' := hq
      obtain ⟨ev, hs, -⟩ := hq
      by_cases hm : c'.mem = g.mem
      · refine ⟨_, _, .own g i c1 B1 pc rs1 r ins ev c' (upd g.th i (.run c1 B1 c'.pc c'.rs c'.resv)) ht hi hs (by simp [upd]) ?_,
          rfl, fun _ => ⟨c1, B1, pc, rs1, r, ins, c', ht, hi, hq', rfl, by simp [upd]⟩, fun _ j hj => by simp [upd, hj]⟩
        intro j hj
        simp only [upd, if_neg hj, hm]
        exact disturbed_refl _ _
      · refine ⟨_, _, .own g i c1 B1 pc rs1 r ins ev c' (fun j => if j = i then .run c1 B1 c'.pc c'.rs c'.resv else dropResv (g.th j))
          ht hi hs (by simp) ?_, rfl, fun _ => ⟨c1, B1, pc, rs1, r, ins, c', ht, hi, hq', rfl, by simp⟩, fun h => absurd h hm⟩
        intro j hj
        simp only [if_neg hj]
        exact disturbed_drop _ _ _

/-- Without spurious failures the hardware makes progress in the sense of C46. -/
theorem hardwareProgress_of {A : Backend W} {P : Call → Prop} {st : Nat → GState W} {ev : Nat → GEv} {sched : Nat → Nat}
    (h : ∀ n, NiceStep A P (sched n) (st n) (ev n) (st (n + 1))) : HardwareProgress A st ev := by
  intro n0 hnw i hinf
  have harm : ∀ n, n0 ≤ n → Harmless A st ev i n := by
    intro n hn
    obtain ⟨h1, h2, h3, h4⟩ := h n
    constructor
    · intro hx
      have : sched n = i := by
        generalize ev n = x at hx h2
        cases x with
        | own j => have : j = i := hx; subst this; exact (by simpa [GEv.thread] using h2.symm)
        | _ => exact hx.elim
      rw [← this]
      rw [← this] at hx
      exact h3 hx
    · intro hx
      have hne : i ≠ sched n := fun hi => hx (by rw [h2, hi])
      refine h4 ?_ i hne
      have hnw := hnw n hn
      generalize ev n = x at h1 hnw
      generalize st (n + 1) = g' at h1
      cases h1 with
      | inv => rfl
      | ret => rfl
      | ext => exact absurd trivial hnw
      | own j c' B' pc' rs' r' ins ev' c'' th' hrun hi hst =>
        refine hst.silent ?_
        cases hv : ev'.isWrite with
        | false => rfl
        | true => exact absurd hv hnw
  have main : ∀ k m, n0 ≤ m → Calm A st ev i k m := by
    intro k
    induction k with
    | zero => intro m _; exact .done m
    | succ k ih =>
      have walk : ∀ d m, n0 ≤ m → (ev (m + d)).executes i → Calm A st ev i (k + 1) m := by
        intro d
        induction d with
        | zero => intro m hm hx; exact .here hx (harm m hm) (ih (m + 1) (by omega))
        | succ d ihd =>
          intro m hm hx
          by_cases hx0 : (ev m).executes i
          · exact .here hx0 (harm m hm) (ih (m + 1) (by omega))
          · exact .other hx0 (harm m hm) (ihd (m + 1) (by omega) (by rwa [show m + 1 + d = m + (d + 1) by omega]))
      intro m hm
      obtain ⟨m', hm', hx⟩ := hinf m
      obtain ⟨d, rfl⟩ := Nat.exists_eq_add_of_le hm'
      exact walk d m hm hx
  exact fun k n => ⟨max n n0, Nat.le_max_left .., main k _ (Nat.le_max_right ..)⟩

/-- The hypotheses of C46 are met: whatever the schedule, if every thread makes a call the back end has a block for, there
is an endless run in which thread `sched n` acts in step `n`, as C46 assumes. -/
theorem exists_endless {A : Backend W} {P : Call → Prop} (hp : A.ProgressOK) (m0 : Mem) (sched : Nat → Nat)
    (call : Nat → Call) (hP : ∀ i, P (call i)) (hv : ∀ i, (call i).Valid)
    (hB : ∀ i, ∃ B : Block W (call i).width, A.Runs (call i) B ∧ ∃ rs, B.pre rs) :
    ∃ st ev, Endless A P st ev ∧ (∀ n, (ev n).thread = some (sched n)) ∧ HardwareProgress A st ev ∧ (st 0).mem = m0 := by
  let S := { g : GState W // ∃ tr, GRun A P ⟨m0, fun _ => .idle⟩ tr g }
  have hstep : ∀ (i : Nat) (s : S), ∃ y : GEv × S, NiceStep A P i s.1 y.1 y.2.1 := by
    rintro i ⟨g, tr, hr⟩
    obtain ⟨B, hB, rs, hpre⟩ := hB i
    obtain ⟨x, g', hn⟩ := exists_niceStep hp hr i (hP i) (hv i) hB hpre
    exact ⟨(x, ⟨g', _, hr.snoc hn.1⟩), hn⟩
  let s0 : S := ⟨⟨m0, fun _ => .idle⟩, [], .nil⟩
  let seq : Nat → S := fun n => Nat.rec s0 (fun n s => (hstep (sched n) s).choose.2) n
  let ev : Nat → GEv := fun n => (hstep (sched n) (seq n)).choose.1
  have hn : ∀ n, NiceStep A P (sched n) (seq n).1 (ev n) (seq (n + 1)).1 := fun n => (hstep (sched n) (seq n)).choose_spec
  exact ⟨fun n => (seq n).1, ev, ⟨⟨m0, rfl⟩, fun n => (hn n).1⟩, fun n => (hn n).2.1, hardwareProgress_of hn, rfl⟩

/-- How to find an endless run in which only thread 0 runs: it calls an operation and never returns from it. -/
theorem exists_stuck {A : Backend W} {P : Call → Prop} (m0 : Mem) (Q : GState W → Prop) (c : Call) (g0 : GState W)
    (h0 : GStep A P ⟨m0, fun _ => .idle⟩ (.h (.inv 0 c)) g0) (hQ0 : Q g0)
    (hQ : ∀ g, Q g → ∃ x g', GStep A P g x g' ∧ x.executes 0 ∧ Q g') :
    ∃ st ev, Endless A P st ev ∧ ev 0 = .h (.inv 0 c) ∧ ∀ n, (ev (n + 1)).executes 0 := by
  let S := { g : GState W // Q g }
  have hstep : ∀ (s : S), ∃ y : GEv × S, GStep A P s.1 y.1 y.2.1 ∧ y.1.executes 0 := by
    rintro ⟨g, hg⟩
    obtain ⟨x, g', h1, h2, h3⟩ := hQ g hg
    exact ⟨(x, ⟨g', h3⟩), h1, h2⟩
  let seq : Nat → S := fun n => Nat.rec ⟨g0, hQ0⟩ (fun _ s => (hstep s).choose.2) n
  have hn : ∀ n, GStep A P (seq n).1 (hstep (seq n)).choose.1 (seq (n + 1)).1 ∧ (hstep (seq n)).choose.1.executes 0 :=
    fun n => (hstep (seq n)).choose_spec
  refine ⟨fun n => match n with | 0 => ⟨m0, fun _ => .idle⟩ | n + 1 => (seq n).1,
    fun n => match n with | 0 => .h (.inv 0 c) | n + 1 => (hstep (seq n)).choose.1, ⟨⟨m0, rfl⟩, fun n => ?_⟩, rfl, fun n => (hn n).2⟩
  cases n with
  | zero => exact h0
  | succ n => exact (hn n).1

theorem Endless.run {A : Backend W} {P : Call → Prop} {st : Nat → GState W} {ev : Nat → GEv} (h : Endless A P st ev) :
    ∃ m0, ∀ n, GRun A P ⟨m0, fun _ => .idle⟩ ((List.range n).map ev) (st n) := by
  obtain ⟨⟨m0, h0⟩, hs⟩ := h
  refine ⟨m0, fun n => ?_⟩
  induction n with
  | zero => rw [h0]; exact .nil
  | succ n ih => rw [List.range_succ, List.map_append]; exact ih.snoc (hs n)

/-- Such a run shows that the operation is not wait-free. -/
theorem not_waitFree {A : Backend W} {P S : Call → Prop} {st : Nat → GState W} {ev : Nat → GEv} {c : Call}
    (h : Endless A P st ev) (h0 : ev 0 = .h (.inv 0 c)) (hx : ∀ n, (ev (n + 1)).executes 0) (hS : S c) (N : Nat) :
    ¬ A.WaitFree S N := by
  intro hw
  obtain ⟨m0, hr⟩ := h.run
  have h1 := hr (N + 2)
  rw [List.range_succ_eq_map, List.map_cons, h0, List.map_map] at h1
  have h2 := hw P m0 [] _ 0 c _ h1 hS (fun x hm hret => by
    obtain ⟨n, -, rfl⟩ := List.mem_map.1 hm
    have := hx n
    simp only [Function.comp] at hret
    generalize ev (n + 1) = y at this hret
    cases y with
    | own => exact hret
    | _ => exact this)
  have h3 : GEv.executed 0 (List.map (ev ∘ Nat.succ) (List.range (N + 1))) = N + 1 := by
    rw [GEv.executed, List.countP_eq_length.2, List.length_map, List.length_range]
    intro x hm
    obtain ⟨n, -, rfl⟩ := List.mem_map.1 hm
    simpa using hx n
  omega

end Verif
