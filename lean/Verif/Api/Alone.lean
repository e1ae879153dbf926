/-
C20 for whole methods: a method call that is left alone returns, after a bounded number of calls of the back end, each of
which takes a bounded number of instructions; whatever others did before.
-/
import Verif.Api.Methods
import Verif.Core.Alone

namespace Verif

/-! ### Specification -/

/-- Alone, from state `s` of the method and memory `m`, the method ends (returns or panics) after at most `n` more calls of
the back end, and each of these calls ends. -/
def Method.EndsAlone {α : Type} {W : Nat} (A : Backend W) (M : Method α) : Nat → M.S → Mem → Prop
  | 0, s, _ => ∀ c k, M.act s ≠ .call c k
  | n + 1, s, m => ∀ c k, M.act s = .call c k → ∀ B, A.Runs c B → B.Progress A.e ∧
      ∀ rs m', B.Alone A.e m rs m' → M.EndsAlone A n (k (c.value B rs)) m'

/-- C20 for a method: wherever it is — between two calls of the back end (`between`), or in the middle of one that has been
disturbed arbitrarily until now (`inside`) — once it is left alone, it ends, after the call it is in and at most `n` more. -/
structure Method.ObstructionFree {α : Type} {W : Nat} (A : Backend W) (M : Method α) (n : Nat) : Prop where
  between : ∀ s m, M.EndsAlone A (n + 1) s m
  inside : ∀ s c k B, M.act s = .call c k → A.Runs c B → ∀ c0 tr cfg, c0.pc = 0 → B.pre c0.rs →
    Verif.Run A.e B.code c0 tr cfg → (∃ N, Finishes A.e B.code N cfg) ∧
      ∀ cfg', QSteps A.e B.code cfg cfg' → cfg'.pc = B.code.length → M.EndsAlone A n (k (c.value B cfg'.rs)) cfg'.mem

/-- C20 for the methods of `AtomicMaybeUninit<T>`: load, store, swap, compare_exchange and compare_exchange_weak make one
call of the back end; `fetch_update` of an object of a size in `S`, with any closure, ends after the call it is in and at most
two more. -/
structure Backend.MethodsFinish {W : Nat} (A : Backend W) (S : Nat → Prop) : Prop where
  load : ∀ w a o, (loadM w a o).ObstructionFree A 0
  store : ∀ w a v o, (storeM w a v o).ObstructionFree A 0
  swap : ∀ w a v o, (swapM w a v o).ObstructionFree A 0
  cas : ∀ w a old new s f, (casM w a old new s f).ObstructionFree A 0
  casWeak : ∀ w a old new s f, (casWeakM w a old new s f).ObstructionFree A 0
  fetchUpdate : ∀ w a s f (g : Closure w), S w → (fetchUpdateM w a s f g).ObstructionFree A 2

/-! ### Proof -/

theorem Method.ObstructionFree.of_all {α : Type} {W : Nat} {A : Backend W} {M : Method α} {n : Nat} (hp : A.ProgressOK)
    (hA : ∀ c B, A.Runs c B → A.IsBlock B)
    (h : ∀ s c k B, M.act s = .call c k → A.Runs c B → ∀ (rs : RS W) (m m' : Mem), M.EndsAlone A n (k (c.value B rs)) m') :
    M.ObstructionFree A n where
  between s m c k ha B hB := ⟨hp B (hA c B hB), fun rs m' _ => h s c k B ha hB rs m m'⟩
  inside s c k B ha hB c0 tr cfg h0 hpre hr := by
    obtain ⟨N, -, hN⟩ := hp B (hA c B hB)
    exact ⟨⟨N, hN c0 tr cfg h0 hpre hr⟩, fun cfg' _ _ => h s c k B ha hB _ cfg.mem _⟩

theorem Backend.Runs.isBlock {W : Nat} {A : Backend W} {c : Call} {B : Block W c.width} (h : A.Runs c B) : A.IsBlock B := by
  cases c with
  | load => exact .load h
  | store => exact .store h
  | swap => exact .swap h
  | cas => exact .cas h
  | casWeak => exact .casWeak h

theorem checkedCall_free {α : Type} {W : Nat} {A : Backend W} (hp : A.ProgressOK) (chk : Res Unit) (c : Call)
    (k : c.RetTy → α) : (checkedCall chk c k).ObstructionFree A 0 := by
  refine .of_all hp (fun c B h => h.isBlock) ?_
  rintro s c' k' B ha hB rs m m' c2 k2 h2
  cases s with
  | none =>
    cases chk with
    | ok u =>
      cases u
      simp only [checkedCall] at ha
      cases ha
      simp [checkedCall] at h2
    | panic => simp [checkedCall] at ha
  | some x => simp [checkedCall] at ha

theorem fetchUpdate_second {w a : Nat} {W : Nat} {A : Backend W} {S : Nat → Prop} (hp : A.ProgressOK) (hw : A.WeakAlone S)
    (hS : S w) {s f : Ordering} {g : Closure w} (prev : BitVec w) (st : g.σ) (m : Mem) (hm : Verif.load A.e m a w = prev) :
    (fetchUpdateM w a s f g).EndsAlone A 1 (FU.next g prev st) m := by
  intro c k ha B hB
  refine ⟨hp B hB.isBlock, ?_⟩
  unfold FU.next at ha
  split at ha
  · rename_i next s' _
    simp only [fetchUpdateM] at ha
    split at ha
    · cases ha
      intro rs m' hr c2 k2
      obtain ⟨_, h | h⟩ := hw s f w a prev next B hS hB m rs m' hr
      · simp [Call.value, toResult, h.2.1, fetchUpdateM]
      · exact absurd hm h.1
    · cases ha
  · simp [fetchUpdateM] at ha

theorem fetchUpdate_two {w a : Nat} {W : Nat} {A : Backend W} {S : Nat → Prop} (hp : A.ProgressOK) (hw : A.WeakAlone S)
    (hS : S w) {s f : Ordering} {g : Closure w} (x : FU g) (hx : x ≠ .start) (m : Mem) :
    (fetchUpdateM w a s f g).EndsAlone A 2 x m := by
  intro c k ha B hB
  refine ⟨hp B hB.isBlock, ?_⟩
  cases x with
  | start => exact absurd rfl hx
  | fin r => simp [fetchUpdateM] at ha
  | set prev next st =>
    simp only [fetchUpdateM] at ha
    split at ha
    · cases ha
      intro rs m' hr
      obtain ⟨ho, h | h⟩ := hw s f w a prev next B hS hB m rs m' hr
      · intro c2 k2 h2
        simp [Call.value, toResult, h.2.1, fetchUpdateM] at h2
      · obtain ⟨_, hok, rfl⟩ := h
        have := fetchUpdate_second (s := s) (f := f) hp hw hS (B.out rs) st m' ho.symm
        simpa [Call.value, toResult, hok] using this
    · cases ha

theorem Backend.methodsFinish {W : Nat} {A : Backend W} {S : Nat → Prop} (hp : A.ProgressOK) (hw : A.WeakAlone S) :
    A.MethodsFinish S where
  load w a o := checkedCall_free hp _ _ _
  store w a v o := checkedCall_free hp _ _ _
  swap w a v o := checkedCall_free hp _ _ _
  cas w a old new s f := checkedCall_free hp _ _ _
  casWeak w a old new s f := checkedCall_free hp _ _ _
  fetchUpdate w a s f g hS := by
    refine .of_all hp (fun c B h => h.isBlock) ?_
    intro x c k B ha hB rs m m'
    refine fetchUpdate_two hp hw hS _ ?_ m'
    have hn : ∀ p st, FU.next g p st ≠ .start := by
      intro p st; unfold FU.next; split <;> simp
    cases x with
    | start =>
      simp only [fetchUpdateM] at ha
      split at ha
      · cases ha; exact hn _ _
      · cases ha
    | fin r => simp [fetchUpdateM] at ha
    | set prev next st =>
      simp only [fetchUpdateM] at ha
      split at ha
      · cases ha
        generalize hr : toResult (Call.value (W := W) (.casWeak s f w a prev next) B rs) = r
        cases r with
        | ok x => simp [hr]
        | error x => simp only [hr]; exact hn _ _
      · cases ha

end Verif
