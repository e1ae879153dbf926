/-
Beside C52: for every schedule and every choice of methods there is a run as C52 assumes.
-/
import Verif.Api.LockFree
import Verif.Lin.LockFreeSample

namespace Verif

variable {W : Nat}

/-- The next position of a thread that returns. -/
theorem exists_ret {S : Nat → Prop} {i : Nat} {t : Thread W} {α : Type} (M : Method α) (s : M.S) {c : Call} {k} {B : Block W c.width}
    {pc rs r} (res : Ret) (ht : t = .run c B pc rs r) (ha : M.act s = .call c k) :
    ∃ p, MStep S i t (.h (.ret i c res)) (.within M s) p := by
  cases h : M.act (k (c.value B rs)) with
  | call c' k' => exact ⟨_, .back M s c k B pc rs r res c' k' ht ha h⟩
  | done x => exact ⟨_, .fin M s c k B pc rs r res ht ha (by intro c' k'; rw [h]; simp)⟩
  | panic => exact ⟨_, .fin M s c k B pc rs r res ht ha (by intro c' k'; rw [h]; simp)⟩

/-- Threads call the methods `meth 0`, `meth 1`, … again and again. -/
structure Feasible (A : Backend W) (P : Call → Prop) (S : Nat → Prop) {α : Type} (meth : Nat → Method α) : Prop where
  api : ∀ i, ApiMethod S (meth i)
  start : ∀ i, ∃ c k, (meth i).act (meth i).init = .call c k
  calls : ∀ i s c k, (meth i).act s = .call c k → P c ∧ c.Valid ∧ ∃ B, A.Runs c B ∧ ∃ rs, B.pre rs

/-- The thread is in its method, or outside. -/
def Of {α : Type} (M : Method α) : MPos → Prop
  | .out => True
  | .within M' s => ∃ s', MPos.within M' s = .within M s'

theorem exists_methodStep {A : Backend W} {P : Call → Prop} {S : Nat → Prop} {α : Type} {meth : Nat → Method α} (hp : A.ProgressOK)
    (hf : Feasible A P S meth) {m0 : Mem} {tr : List GEv} {g : GState W} (h : GRun A P ⟨m0, fun _ => .idle⟩ tr g) {mp : Nat → MPos}
    (hm : ∀ j, MInv S (mp j) (g.th j)) (ho : ∀ j, Of (meth j) (mp j)) (i : Nat) :
    ∃ x g', ∃ mp' : Nat → MPos, NiceStep A P i g x g' ∧ (∀ j, MStep S j (g.th j) x (mp j) (mp' j)) ∧ ∀ j, Of (meth j) (mp' j) := by
  -- it suffices to consider thread `i`
  suffices hs : ∃ x g' p, NiceStep A P i g x g' ∧ MStep S i (g.th i) x (mp i) p ∧ Of (meth i) p by
    obtain ⟨x, g', p, h1, h2, h3⟩ := hs
    refine ⟨x, g', fun j => if j = i then p else mp j, h1, fun j => ?_, fun j => ?_⟩
    · by_cases hj : j = i
      · subst hj; simpa using h2
      · simp only [if_neg hj]
        have ht := h1.2.1
        refine .other _ _ ?_ ?_ <;>
        · intro hx
          generalize x = x at hx ht
          cases x with
          | h y =>
            cases y with
            | _ => first | exact hx.elim | (have hx : _ = j := hx; subst hx; simp [GEv.thread] at ht; exact hj ht)
          | _ => exact hx.elim
    · by_cases hj : j = i
      · subst hj; simpa using h3
      · simpa only [if_neg hj] using ho j
  have hmi := hm i
  have hoi := ho i
  generalize mp i = p at hmi hoi
  have start : ∀ c B rs, g.th i = .idle → P c → c.Valid → A.Runs c B → B.pre rs →
      NiceStep A P i g (.h (.inv i c)) ⟨g.mem, upd g.th i (.run c B 0 rs none)⟩ := by
    intro c B rs ht h1 h2 hB hpre
    refine ⟨.inv g i c B rs none ht h1 h2 hB hpre, rfl, fun h => h.elim, fun _ j hj => ?_⟩
    simp only [upd, if_neg hj]
  cases p with
  | out =>
    obtain ⟨c, k, ha⟩ := hf.start i
    obtain ⟨h1, h2, B, hB, rs, hpre⟩ := hf.calls i _ c k ha
    exact ⟨_, _, _, start c B rs hmi h1 h2 hB hpre, .start (meth i) c k (hf.api i) ha, ⟨_, rfl⟩⟩
  | within M' s =>
    obtain ⟨s', hs'⟩ := hoi
    injection hs' with e1 e2 e3
    subst e1; cases e2; cases e3
    obtain ⟨hapi, c, k, ha, hth⟩ := hmi
    obtain ⟨h1, h2, B, hB, rs, hpre⟩ := hf.calls i _ c k ha
    rcases hth with hth | ⟨B1, pc1, rs1, r1, hth⟩
    · exact ⟨_, _, _, start c B rs hth h1 h2 hB hpre, .next (meth i) _ c k ha, ⟨_, rfl⟩⟩
    · obtain ⟨x, g', hn⟩ := exists_niceStep hp h i h1 h2 hB hpre
      suffices hq : ∃ p, MStep S i (g.th i) x (.within (meth i) s') p ∧ Of (meth i) p by
        obtain ⟨p, h3, h4⟩ := hq
        exact ⟨x, g', p, hn, h3, h4⟩
      obtain ⟨hs, hthr, -⟩ := hn
      cases hs with
      | inv j c' B' rs' r' hidle =>
        have : j = i := by simpa [GEv.thread] using hthr
        subst this
        rw [hidle] at hth; cases hth
      | ret j c' B' rs' r' hrun =>
        have : j = i := by simpa [GEv.thread] using hthr
        subst this
        rw [hrun] at hth
        injection hth with e1 e2
        subst e1
        obtain ⟨p, hp⟩ := exists_ret (S := S) (i := j) (meth j) s' (c'.result B' rs') hrun ha
        refine ⟨p, hp, ?_⟩
        generalize hy : MPos.within (meth j) s' = y at hp
        cases hp with
        | back M2 s2 =>
          injection hy with e1 e2 e3
          subst e1; cases e2; cases e3
          exact ⟨_, rfl⟩
        | fin => trivial
        | other _ _ h1 h2 => exact absurd rfl h2
      | ext => simp [GEv.thread] at hthr
      | own j => exact ⟨_, .other _ _ id id, ⟨_, rfl⟩⟩

/-- The hypotheses of C52 are met, whatever the schedule and the methods. -/
theorem exists_endless_methods {A : Backend W} {P : Call → Prop} {S : Nat → Prop} {α : Type} {meth : Nat → Method α} (hp : A.ProgressOK)
    (hf : Feasible A P S meth) (m0 : Mem) (sched : Nat → Nat) :
    ∃ st ev mp, Endless A P st ev ∧ ByMethods S st ev mp ∧ (∀ n i, Of (meth i) (mp n i)) ∧ (∀ n, (ev n).thread = some (sched n)) ∧
      HardwareProgress A st ev ∧ (st 0).mem = m0 := by
  let T := { y : GState W × (Nat → MPos) // (∃ tr, GRun A P ⟨m0, fun _ => .idle⟩ tr y.1) ∧ (∀ j, MInv S (y.2 j) (y.1.th j)) ∧
    ∀ j, Of (meth j) (y.2 j) }
  have hstep : ∀ (i : Nat) (s : T), ∃ y : GEv × T, NiceStep A P i s.1.1 y.1 y.2.1.1 ∧
      ∀ j, MStep S j (s.1.1.th j) y.1 (s.1.2 j) (y.2.1.2 j) := by
    rintro i ⟨⟨g, mp⟩, ⟨tr, hr⟩, hm, ho⟩
    obtain ⟨x, g', mp', h1, h2, h3⟩ := exists_methodStep hp hf hr hm ho i
    exact ⟨(x, ⟨(g', mp'), ⟨_, hr.snoc h1.1⟩, fun j => MStep.inv h1.1 (h2 j) (hm j), h3⟩), h1, h2⟩
  let s0 : T := ⟨(⟨m0, fun _ => .idle⟩, fun _ => .out), ⟨[], .nil⟩, fun _ => rfl, fun _ => trivial⟩
  let seq : Nat → T := fun n => Nat.rec s0 (fun n s => (hstep (sched n) s).choose.2) n
  let ev : Nat → GEv := fun n => (hstep (sched n) (seq n)).choose.1
  have hn : ∀ n, NiceStep A P (sched n) (seq n).1.1 (ev n) (seq (n + 1)).1.1 ∧
      ∀ j, MStep S j ((seq n).1.1.th j) (ev n) ((seq n).1.2 j) ((seq (n + 1)).1.2 j) :=
    fun n => (hstep (sched n) (seq n)).choose_spec
  exact ⟨fun n => (seq n).1.1, ev, fun n => (seq n).1.2, ⟨⟨m0, rfl⟩, fun n => (hn n).1.1⟩, ⟨fun _ => rfl, fun n => (hn n).2⟩,
    fun n => (seq n).2.2.2, fun n => (hn n).1.2.1, hardwareProgress_of fun n => (hn n).1, rfl⟩

end Verif
