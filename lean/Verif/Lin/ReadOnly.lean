/-
C58: operations that never write, in any thread, run and schedule. src/raw.rs l.35-36: "If `Self` is greater than the
pointer width, `src` must be valid for both reads and writes. Otherwise, `src` must be valid for reads."
-/
import Verif.Lin.WaitFree

namespace Verif

variable {W : Nat}

/-- The instruction needs write permission for the memory it accesses: a store, a store-conditional (also if it fails),
an atomic read-modify-write (also if, like cmpxchg on inequality, it stores back what it read, or nothing). Stores to the
private stack buffers (arguments and results in memory) are register computations in the model, not `st`. -/
def Instr.needsWrite : Instr W → Bool
  | .st _ _ _ _ | .sc _ _ _ _ _ | .rmw _ _ _ _ _ => true
  | .op _ | .fence _ | .br _ _ | .ld _ _ _ _ | .ll _ _ _ _ _ | .clrex => false

/-- C58. In every reachable state of any number of threads, a thread inside one of the operations `S` is not about to
execute an instruction that needs write permission, and no step of it changes memory. -/
def Backend.ReadOnly (A : Backend W) (S : Call → Prop) : Prop :=
  ∀ (P : Call → Prop) (m0 : Mem) (tr : List GEv) (g : GState W) (i : Nat) (c : Call) (B : Block W c.width) (pc : Nat)
    (rs : RS W) (r : Option (Nat × Nat)),
    GRun A P ⟨m0, fun _ => .idle⟩ tr g → g.th i = .run c B pc rs r → S c →
    (∀ ins, B.code[pc]? = some ins → ins.needsWrite = false) ∧
    ∀ ev m m' g', GStep A P g (.own i ev m m') g' → g'.mem = g.mem ∧ ev.isWrite = false

/-! ### Proof -/

/-- A thread inside an operation runs the code of that operation. -/
theorem GRun.runs {A : Backend W} {P : Call → Prop} {m0 : Mem} {g : GState W} {tr : List GEv}
    (h : GRun A P ⟨m0, fun _ => .idle⟩ tr g) :
    ∀ {i c} {B : Block W c.width} {pc rs r}, g.th i = .run c B pc rs r → A.Runs c B := by
  have key : ∀ i (t : Thread W), g.th i = t → ∀ c B pc rs r, t = .run c B pc rs r → A.Runs c B := by
    generalize hg : (⟨m0, fun _ => .idle⟩ : GState W) = g0 at h
    induction h with
    | nil => subst hg; rintro i t rfl c B pc rs r ht; cases ht
    | @snoc tr g ev g' h hs ih =>
      have dist : ∀ {m m' : Mem} {t : Thread W} {i : Nat}, Disturbed m m' (g.th i) t →
          ∀ c B pc rs r, t = .run c B pc rs r → A.Runs c B := by
        intro m m' t i hd
        generalize hy : g.th i = y at hd
        cases hd with
        | idle => intro c B pc rs r hx; cases hx
        | run c1 B1 pc1 rs1 r1 r' he =>
          intro c B pc rs r hx
          injection hx with h1 h2 h3 h4 h5
          subst h1; cases h2
          exact ih i _ hy _ _ _ _ _ rfl
      rintro i t rfl c B pc rs r ht
      cases hs with
      | inv j c' B' rs' r' hidle hp hv hB hpre =>
        simp only [upd] at ht
        split at ht
        · injection ht with h1 h2 h3 h4 h5
          subst h1; cases h2
          exact hB
        · exact ih i _ rfl _ _ _ _ _ ht
      | ret j =>
        simp only [upd] at ht
        split at ht
        · cases ht
        · exact ih i _ rfl _ _ _ _ _ ht
      | ext m' th' hd => exact dist (hd i) _ _ _ _ _ ht
      | own j c' B' pc' rs' r' ins ev' c'' th' hrun hi hst hth hd =>
        by_cases hij : i = j
        · subst hij
          replace ht : th' i = _ := ht
          rw [hth] at ht
          injection ht with h1 h2 h3 h4 h5
          subst h1; cases h2
          exact ih i _ hrun _ _ _ _ _ rfl
        · exact dist (hd i hij) _ _ _ _ _ ht
  intro i c B pc rs r hr
  exact key i _ rfl _ _ _ _ _ hr

/-- No instruction of the block needs write permission. -/
def Block.ReadOnly {w : Nat} (B : Block W w) : Prop := ∀ i ∈ B.code, i.needsWrite = false

theorem Step.readOnly {e : Endian} {i : Instr W} {c c' : Cfg W} {ev : Ev} (h : Step e i c ev c')
    (hi : i.needsWrite = false) : c'.mem = c.mem ∧ ev.isWrite = false := by
  cases h <;> first | exact ⟨rfl, rfl⟩ | cases hi

theorem Backend.readOnly {A : Backend W} {S : Call → Prop}
    (h : ∀ (c : Call) (B : Block W c.width), S c → A.Runs c B → B.ReadOnly) : A.ReadOnly S := by
  intro P m0 tr g i c B pc rs r hr hth hS
  have hB := h c B hS (hr.runs hth)
  refine ⟨fun ins hi => hB ins (List.mem_of_getElem? hi), ?_⟩
  intro ev m m' g' hs
  cases hs with
  | own _ c' B' pc' rs' r' ins _ c'' th' hrun hi hst _ _ =>
    rw [hth] at hrun
    injection hrun with h1 h2 h3 h4 h5
    subst h1; cases h2; subst h3 h4 h5
    exact hst.readOnly (hB ins (List.mem_of_getElem? hi))

theorem Backend.readOnly_of {A : Backend W} {S : Call → Prop}
    (h0 : ∀ c, S c → ∃ o w a, c = .load o w a)
    (h1 : ∀ o w a B, S (.load o w a) → A.Load o w a B → B.ReadOnly) : A.ReadOnly S := by
  refine Backend.readOnly fun c B hS hB => ?_
  obtain ⟨o, w, a, rfl⟩ := h0 c hS
  exact h1 o w a B hS hB

/-- Loads of values of at most `n` bits. -/
def Call.loadUpTo (n : Nat) : Call → Prop
  | .load _ w _ => w ≤ n
  | _ => False
theorem Call.loadUpTo.load {n : Nat} (c : Call) (h : c.loadUpTo n) : ∃ o w a, c = .load o w a := by
  cases c <;> first | exact ⟨_, _, _, rfl⟩ | exact h.elim
theorem Call.isLoad.load (c : Call) (h : c.isLoad) : ∃ o w a, c = .load o w a := by
  cases c <;> first | exact ⟨_, _, _, rfl⟩ | exact h.elim

attribute [asm] Instr.needsWrite
macro "readonly" : tactic => `(tactic| (intro i hi; revert i; simp [asm]))

end Verif
