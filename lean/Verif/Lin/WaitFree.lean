/-
C47, wait-freedom: operations without loops finish after a bounded number of instructions of the calling thread, whatever
all other threads, the scheduler and the hardware do.
-/
import Verif.Lin.LockFree

namespace Verif

variable {W : Nat}

instance (i : Nat) (x : GEv) : Decidable (x.executes i) := by
  cases x <;> unfold GEv.executes <;> infer_instance
/-- How many instructions thread `i` executes. -/
def GEv.executed (i : Nat) (tr : List GEv) : Nat := tr.countP fun x => decide (x.executes i)
/-- Thread `i` returns from an operation. -/
def GEv.returnsFrom (i : Nat) : GEv → Prop
  | .h (.ret j _ _) => j = i
  | _ => False

/-- C47. In every run of any number of threads, a thread that has called one of the operations `S` and not yet returned
has executed at most `N` instructions since. (That it can always execute another one or return is C20.) -/
def Backend.WaitFree (A : Backend W) (S : Call → Prop) (N : Nat) : Prop :=
  ∀ (P : Call → Prop) (m0 : Mem) (tr tr' : List GEv) (i : Nat) (c : Call) (g : GState W),
    GRun A P ⟨m0, fun _ => .idle⟩ (tr ++ .h (.inv i c) :: tr') g → S c → (∀ x ∈ tr', ¬ x.returnsFrom i) →
    GEv.executed i tr' ≤ N

/-! ### Proof -/

/-- Jumps go forward only. -/
def Block.Forward {w : Nat} (B : Block W w) (N : Nat) : Prop :=
  AllTargets B.code.length [] 0 B.code ∧ B.code.length ≤ N

theorem GRun.split {A : Backend W} {P : Call → Prop} {g0 g : GState W} {t u : List GEv} (h : GRun A P g0 (t ++ u) g) :
    ∃ g1, GRun A P g0 t g1 ∧ GRun A P g1 u g := by
  generalize hv : t ++ u = v at h
  induction h generalizing u with
  | nil =>
    obtain ⟨rfl, rfl⟩ := List.append_eq_nil_iff.1 hv
    exact ⟨g0, .nil, .nil⟩
  | @snoc tr g ev g' h hs ih =>
    rcases List.eq_nil_or_concat u with rfl | ⟨u', x, rfl⟩
    · rw [List.append_nil] at hv
      exact ⟨g', hv ▸ h.snoc hs, .nil⟩
    · rw [List.concat_eq_append, ← List.append_assoc] at hv
      obtain ⟨h1, h2⟩ := List.append_inj' hv rfl
      injection h2 with h2
      subst h2
      obtain ⟨g1, h3, h4⟩ := ih h1
      exact ⟨g1, h3, by rw [List.concat_eq_append]; exact h4.snoc hs⟩

theorem forward_run {A : Backend W} {P : Call → Prop} {g0 g : GState W} {tr : List GEv} {i : Nat} {c : Call}
    {B : Block W c.width} {N : Nat} (hB : B.Forward N) (h : GRun A P g0 tr g) (hret : ∀ x ∈ tr, ¬ x.returnsFrom i) :
    (∃ rs r, g0.th i = .run c B 0 rs r) → ∃ pc rs r, g.th i = .run c B pc rs r ∧ pc ≤ B.code.length ∧
      GEv.executed i tr ≤ pc := by
  induction h with
  | nil => rintro ⟨rs, r, h0⟩; exact ⟨0, rs, r, h0, Nat.zero_le _, Nat.le_refl _⟩
  | @snoc tr g ev g' h hs ih =>
    intro h0
    obtain ⟨pc, rs, r, ih, hle, hcnt⟩ := ih (fun x hx => hret x (List.mem_append.2 (.inl hx))) h0
    have hr := hret ev (List.mem_append.2 (.inr List.mem_cons_self))
    have hx : GEv.executed i (tr ++ [ev]) = GEv.executed i tr + if ev.executes i then 1 else 0 := by
      simp [GEv.executed, List.countP_append, List.countP_cons]
    rw [hx]
    have dist : ∀ {m m' : Mem} {t : Thread W}, Disturbed m m' (g.th i) t → ∃ r, t = .run c B pc rs r := by
      intro m m' t hd
      rw [ih] at hd
      generalize hy : Thread.run c B pc rs r = y at hd
      cases hd with
      | idle => cases hy
      | run c1 B1 pc1 rs1 r1 r' he =>
        injection hy with h1 h2 h3 h4 h5
        subst h1; cases h2; subst h3 h4 h5
        exact ⟨_, rfl⟩
    cases hs with
    | inv j c' B' rs' r' hidle hp hv hB hpre =>
      have hij : i ≠ j := by rintro rfl; rw [ih] at hidle; cases hidle
      exact ⟨pc, rs, r, by simp only [upd, if_neg hij]; exact ih, hle, by simpa [GEv.executes] using hcnt⟩
    | ret j =>
      have hij : i ≠ j := fun hij => hr hij.symm
      exact ⟨pc, rs, r, by simp only [upd, if_neg hij]; exact ih, hle, by simpa [GEv.executes] using hcnt⟩
    | ext m' th' hd =>
      obtain ⟨r', hr'⟩ := dist (hd i)
      exact ⟨pc, rs, r', hr', hle, by simpa [GEv.executes] using hcnt⟩
    | own j c' B' pc' rs' r' ins ev' c'' th' hrun hi hst hth hd =>
      by_cases hij : i = j
      · subst hij
        rw [ih] at hrun
        injection hrun with h1 h2 h3 h4 h5
        subst h1; cases h2; subst h3 h4 h5
        have hlt : pc < B.code.length := by
          rcases Nat.lt_or_ge pc B.code.length with h | h
          · exact h
          · rw [List.getElem?_eq_none h] at hi; cases hi
        have ht := hB.1.get hi
        rw [Nat.zero_add] at ht
        obtain ⟨h6, h7⟩ := step_pc hst ht hlt
        have h7 : pc < c''.pc := h7.resolve_right (by simp)
        exact ⟨_, _, _, hth, h6, by simp only [GEv.executes, if_true]; omega⟩
      · obtain ⟨r', hr'⟩ := dist (hd i hij)
        exact ⟨pc, rs, r', hr', hle, by simpa [GEv.executes, Ne.symm hij] using hcnt⟩

theorem Backend.waitFree {A : Backend W} {S : Call → Prop} {N : Nat}
    (h : ∀ (c : Call) (B : Block W c.width), S c → A.Runs c B → B.Forward N) : A.WaitFree S N := by
  intro P m0 tr tr' i c g hr hS hret
  rw [show tr ++ GEv.h (.inv i c) :: tr' = (tr ++ [GEv.h (.inv i c)]) ++ tr' by simp] at hr
  obtain ⟨g1, h1, h2⟩ := hr.split
  obtain ⟨g0, h3, h4⟩ := h1.split
  generalize hu : [GEv.h (.inv i c)] = u at h4
  cases h4 with
  | nil => cases hu
  | @snoc t g' ev _ h5 hs =>
    obtain ⟨rfl, rfl⟩ : t = [] ∧ ev = .h (.inv i c) := by
      rcases t with _ | ⟨x, t⟩
      · simp only [List.nil_append, List.cons.injEq, and_true] at hu; exact ⟨rfl, hu.symm⟩
      · simp at hu
    cases hs with
    | inv _ _ B rs r hidle hp hv hB hpre =>
      obtain ⟨pc, rs', r', h6, h7, h8⟩ := forward_run (h c B hS hB) h2 hret ⟨rs, r, by simp [upd]⟩
      exact Nat.le_trans h8 (Nat.le_trans h7 (h c B hS hB).2)

/-- Loads. -/
def Call.isLoad : Call → Prop
  | .load _ _ _ => True
  | _ => False
/-- Stores. -/
def Call.isStore : Call → Prop
  | .store _ _ _ _ => True
  | _ => False
/-- Swaps. -/
def Call.isSwap : Call → Prop
  | .swap _ _ _ _ => True
  | _ => False
/-- Compare-exchanges, strong. -/
def Call.isCas : Call → Prop
  | .cas _ _ _ _ _ _ => True
  | _ => False
/-- Compare-exchanges, weak. -/
def Call.isCasWeak : Call → Prop
  | .casWeak _ _ _ _ _ _ => True
  | _ => False

/-- The five cases of `Backend.waitFree`. -/
theorem Backend.waitFree_of {A : Backend W} {S : Call → Prop} {N : Nat}
    (h1 : ∀ o w a B, S (.load o w a) → A.Load o w a B → B.Forward N)
    (h2 : ∀ o w a v B, S (.store o w a v) → A.Store o w a v B → B.Forward N)
    (h3 : ∀ o w a v B, S (.swap o w a v) → A.Swap o w a v B → B.Forward N)
    (h4 : ∀ s f w a old new B, S (.cas s f w a old new) → A.Cas s f w a old new B → B.Forward N)
    (h5 : ∀ s f w a old new B, S (.casWeak s f w a old new) → A.CasWeak s f w a old new B → B.Forward N) :
    A.WaitFree S N := by
  refine Backend.waitFree fun c B hS hB => ?_
  cases c with
  | load o w a => exact h1 o w a B hS hB
  | store o w a v => exact h2 o w a v B hS hB
  | swap o w a v => exact h3 o w a v B hS hB
  | cas s f w a old new => exact h4 s f w a old new B hS hB
  | casWeak s f w a old new => exact h5 s f w a old new B hS hB

/-- Closes `B.Forward N` for a concrete block without backward jumps. -/
macro "forward" : tactic => `(tactic| exact ⟨by simp [asm], by simp [asm]⟩)

end Verif
