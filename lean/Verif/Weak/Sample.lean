/-
The hypotheses of C30 can be met: an execution in which thread 0 writes data and releases, thread 1 acquires
what thread 0 wrote and then reads the data.
-/
import Verif.Weak.Proof
import Verif.Props.Arm

namespace Verif

/-- One thread after the other, each in program order. -/
def seqGmo (a b : Node) : Prop := a.thread < b.thread ∨ (a.thread = b.thread ∧ a.pos < b.pos)

/-- Thread 0: a write, then `L`; thread 1: `R`, then a read. Access `nw` of `L` and `nr` of `R` are to the flag. -/
def sampleExec (imp : Pairs) (L R : List Ev) (nw nr : Nat) : CExec where
  imp := imp
  po := fun | 0 => [.wr .plain] ++ L ++ [] | 1 => [] ++ R ++ [.rd .plain] | _ => []
  gmo := seqGmo
  gmo_trans := by
    rintro a b c (h | ⟨h, h'⟩) (g | ⟨g, g'⟩) <;> unfold seqGmo <;> omega
  gmo_ppo := by rintro t i k j k' ⟨h, _⟩; exact .inr ⟨rfl, h⟩
  rf := fun w r => (w = ⟨0, 1 + nw, .wr⟩ ∧ r = ⟨1, nr, .rd⟩ ∧ nr < R.length) ∨ (w = ⟨0, 0, .wr⟩ ∧ r = ⟨1, R.length, .rd⟩)
  rf_gmo := by
    rintro w r (⟨rfl, rfl, _⟩ | ⟨rfl, rfl⟩) _ <;> exact .inl Nat.one_pos
  loc := fun n =>
    if n.kind = .wr then (if n.thread = 0 ∧ n.pos = 1 + nw then 0 else if n.thread = 0 ∧ n.pos = 0 then 1 else 2)
    else if n.thread = 1 ∧ n.pos = R.length then 1 else if n.thread = 1 ∧ n.pos = nr then 0 else 3
  gmo_irrefl := by rintro a (h | ⟨_, h⟩) <;> omega
  rf_loc := by
    rintro w r (⟨rfl, rfl, h⟩ | ⟨rfl, rfl⟩)
    · have : nr ≠ R.length := by omega
      simp [this]
    · simp; omega
  gmo_total := by
    rintro ⟨t, p, k⟩ ⟨t', p', k'⟩ h h' _
    simp only at h h'
    subst h h'
    unfold seqGmo
    by_cases h1 : t = t' <;> by_cases h2 : p = p'
    · left; rw [h1, h2]
    · right; simp only; omega
    · right; simp only; omega
    · right; simp only; omega
  rf_latest := by
    rintro w r ⟨t, p, k⟩ hrf _ hk hl _ hg
    simp only at hk; subst hk
    rcases hrf with ⟨rfl, rfl, h⟩ | ⟨rfl, rfl⟩
    · have hne : nr ≠ R.length := by omega
      simp only [hne, and_false, if_true, if_false, and_self, reduceCtorEq] at hl
      split at hl
      · rename_i h'; unfold seqGmo at hg; simp only at hg; omega
      · split at hl <;> cases hl
    · simp at hl
      split at hl
      · cases hl
      · split at hl
        · rename_i h'; unfold seqGmo at hg; simp only at hg; omega
        · cases hl
  init_read := by
    rintro ⟨t, p, k⟩ ha hk hn ⟨t', p', k'⟩ _ hk' hl
    simp only at hk hk' ha; subst hk hk'
    exfalso
    have hn1 : ¬ (t = 1 ∧ p = R.length) := by
      rintro ⟨rfl, rfl⟩; exact hn ⟨0, 0, .wr⟩ (.inr ⟨rfl, rfl⟩)
    have hn2 : ¬ (t = 1 ∧ p = nr) := by
      rintro ⟨rfl, rfl⟩
      have := access_lt ha
      simp at this
      by_cases hp : p = R.length
      · exact hn1 ⟨rfl, hp⟩
      · exact hn ⟨0, 1 + nw, .wr⟩ (.inl ⟨rfl, rfl, by omega⟩)
    simp [hn1, hn2] at hl
    split at hl
    · cases hl
    · split at hl <;> cases hl

/-- Such an execution exists for the Armv7 code of `store(.., Release)` and `load(Acquire)`, and by C30 the data is
seen. -/
example : ∃ (X : CExec) (tR tA : List TEv) (nw nr : Nat), X.imp = (Arm.backend .little ⟨true, false⟩).imp ∧
    (Arm.backend .little ⟨true, false⟩).ReleaseRun tR ∧ (Arm.backend .little ⟨true, false⟩).AcquireRun tA ∧
    X.po 0 = [.wr .plain] ++ ownEvs tR ++ [] ∧ X.po 1 = [] ++ ownEvs tA ++ [.rd .plain] ∧
    LastAccess (ownEvs tR) .wr nw ∧ LastAccess (ownEvs tA) .rd nr ∧
    X.rf ⟨0, [Ev.wr .plain].length + nw, .wr⟩ ⟨1, ([] : List Ev).length + nr, .rd⟩ ∧
    X.loc ⟨0, 0, .wr⟩ = X.loc ⟨1, ([] ++ ownEvs tA).length + 0, .rd⟩ := by
  have hs := Arm.Store.word (e := .little) (c := ⟨true, false⟩) (o := .release) (Alloc.std _) (0x1000#32) (7#32)
    (.inr rfl) rfl
  have hl := Arm.Load.word (e := .little) (c := ⟨true, false⟩) (o := .acquire) (Alloc.std _) (0x1000#32)
    (w := 32) (.inr rfl) rfl
  obtain ⟨tR, rs, hR⟩ := (Arm.C20_arm .little ⟨true, false⟩ _ (.store hs)).completed'
    (by simp [Arm.storeBlock]) (by simp [Arm.storeBlock])
  obtain ⟨tA, rs', hA⟩ := (Arm.C20_arm .little ⟨true, false⟩ _ (.load hl)).completed'
    (by simp [Arm.loadBlock]) (by simp [Arm.loadBlock])
  have h1 : (Arm.backend .little ⟨true, false⟩).ReleaseRun tR := .store hs rfl hR
  have h2 : (Arm.backend .little ⟨true, false⟩).AcquireRun tA := .load hl rfl hA
  obtain ⟨nw, hw, _⟩ := releases_ppo (Arm.C14_arm _ _ tR h1)
  obtain ⟨nr, hr, _⟩ := acquires_ppo (Arm.C13_arm _ _ tA h2)
  refine ⟨sampleExec _ (ownEvs tR) (ownEvs tA) nw nr, tR, tA, nw, nr, rfl, h1, h2, rfl, rfl, hw, hr, ?_, ?_⟩
  · exact .inl ⟨rfl, by simp, access_lt hr.1⟩
  · simp [sampleExec]; omega

end Verif
