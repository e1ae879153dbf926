/-
Litmus tests on sequential executions.
-/
import Verif.Lin.SC

namespace Verif

/-- Store buffering has no forbidden outcome in a sequential execution: if thread 0 stores 1 to x and then loads y, thread
1 stores 1 to y and then loads x, then not both loads return 0. -/
theorem legal_sb {e : Endian} {m0 m : Mem} {seq : List (Nat × Call × Ret)} {w x y : Nat} {so o : Ordering} {r0 r1 : BitVec w}
    (hw : w % 8 = 0) (hw0 : w ≠ 0) (hxy : x + w / 8 ≤ y ∨ y + w / 8 ≤ x) (hl : Legal e m0 seq m)
    (ht0 : ofThread 0 seq = [(0, .store so w x 1, .unit), (0, .load o w y, .bits w r0)])
    (ht1 : ofThread 1 seq = [(1, .store so w y 1, .unit), (1, .load o w x, .bits w r1)])
    (htr : ∀ i, 2 ≤ i → ofThread i seq = []) : ¬ (r0 = 0#w ∧ r1 = 0#w) := by
  rintro ⟨rfl, rfl⟩
  have one_ne : (1#w) ≠ 0#w := by
    intro h
    have := congrArg BitVec.toNat h
    simp at this
    exact hw0 this
  -- a load of an object that holds 1 does not answer 0
  have bad : ∀ (m m1 : Mem) (a : Nat), load e m a w = 1#w → ¬ (Call.load o w a).Sem e m m1 (.bits w 0#w) := by
    rintro m m1 a hm ⟨u, ⟨rfl, rfl⟩, h⟩
    injection h with _ h
    rw [hm] at h
    exact one_ne h.symm
  have thr : ∀ (l : List (Nat × Call × Ret)), (∀ i, 2 ≤ i → ofThread i l = []) → ∀ z t, l = z :: t →
      (z.1 = 0 ∨ z.1 = 1) ∧ ∀ i, 2 ≤ i → ofThread i t = [] := by
    rintro l hl z t rfl
    constructor
    · rcases Nat.lt_or_ge z.1 2 with h | h
      · omega
      · have := hl z.1 h; simp [ofThread] at this
    · intro i hi
      have := hl i hi
      simp only [ofThread, List.filter_cons] at this ⊢
      split at this
      · cases this
      · exact this
  -- after both stores, no load answers 0
  have fin : ∀ (l : List (Nat × Call × Ret)) (m : Mem) m', Legal e m l m' → load e m x w = 1#w → load e m y w = 1#w →
      (∀ i, 2 ≤ i → ofThread i l = []) →
      (ofThread 0 l = [] ∨ ofThread 0 l = [(0, .load o w y, .bits w 0#w)]) →
      (ofThread 1 l = [] ∨ ofThread 1 l = [(1, .load o w x, .bits w 0#w)]) →
      (ofThread 0 l ≠ [] ∨ ofThread 1 l ≠ []) → False := by
    intro l m m' hl hx hy hr h0 h1 hne
    cases l with
    | nil => simp [ofThread] at hne
    | cons z t =>
      obtain ⟨hz, _⟩ := thr _ hr z t rfl
      obtain ⟨m1, hs, _⟩ := hl
      rcases hz with hz | hz
      · have hf : ofThread 0 (z :: t) = z :: ofThread 0 t := by simp [ofThread, hz]
        rw [hf] at h0
        rcases h0 with h0 | h0
        · cases h0
        · injection h0 with h0 _
          subst h0
          exact bad _ _ _ hy hs
      · have hf : ofThread 1 (z :: t) = z :: ofThread 1 t := by simp [ofThread, hz]
        rw [hf] at h1
        rcases h1 with h1 | h1
        · cases h1
        · injection h1 with h1 _
          subst h1
          exact bad _ _ _ hx hs
  cases seq with
  | nil => simp [ofThread] at ht0
  | cons z t =>
    obtain ⟨hz, htr1⟩ := thr _ htr z t rfl
    obtain ⟨m1, hs, hl⟩ := hl
    rcases hz with hz | hz
    · have hf0 : ofThread 0 (z :: t) = z :: ofThread 0 t := by simp [ofThread, hz]
      have hf1 : ofThread 1 (z :: t) = ofThread 1 t := by simp [ofThread, hz]
      rw [hf0] at ht0; rw [hf1] at ht1
      injection ht0 with e1 ht0
      subst e1
      obtain ⟨hs, _⟩ := hs
      have hs : m1 = store e m0 x w 1#w := hs
      have hx1 : load e m1 x w = 1#w := by rw [hs]; exact load_store hw _
      cases t with
      | nil => simp [ofThread] at ht0
      | cons z t =>
        obtain ⟨hz, htr2⟩ := thr _ htr1 z t rfl
        obtain ⟨m2, hs2, hl⟩ := hl
        rcases hz with hz | hz
        · -- thread 0 loads y first; then thread 1 stores y, loads x
          have hf0 : ofThread 0 (z :: t) = z :: ofThread 0 t := by simp [ofThread, hz]
          have hf1 : ofThread 1 (z :: t) = ofThread 1 t := by simp [ofThread, hz]
          rw [hf0] at ht0; rw [hf1] at ht1
          injection ht0 with e1 ht0
          subst e1
          obtain ⟨u, ⟨_, hm2⟩, _⟩ := hs2
          subst hm2
          cases t with
          | nil => simp [ofThread] at ht1
          | cons z t =>
            obtain ⟨hz, htr3⟩ := thr _ htr2 z t rfl
            obtain ⟨m3, hs3, hl⟩ := hl
            rcases hz with hz | hz
            · have hf0 : ofThread 0 (z :: t) = z :: ofThread 0 t := by simp [ofThread, hz]
              rw [hf0] at ht0; cases ht0
            · have hf0 : ofThread 0 (z :: t) = ofThread 0 t := by simp [ofThread, hz]
              have hf1 : ofThread 1 (z :: t) = z :: ofThread 1 t := by simp [ofThread, hz]
              rw [hf0] at ht0; rw [hf1] at ht1
              injection ht1 with e1 ht1
              subst e1
              obtain ⟨hs3, _⟩ := hs3
              have hs3 : m3 = store e m2 y w 1#w := hs3
              exact fin t m3 m hl (by rw [hs3, load_store_disjoint hw (by omega)]; exact hx1)
                (by rw [hs3]; exact load_store hw _) htr3 (.inl ht0) (.inr ht1) (.inr (by rw [ht1]; simp))
        · have hf0 : ofThread 0 (z :: t) = ofThread 0 t := by simp [ofThread, hz]
          have hf1 : ofThread 1 (z :: t) = z :: ofThread 1 t := by simp [ofThread, hz]
          rw [hf0] at ht0; rw [hf1] at ht1
          injection ht1 with e1 ht1
          subst e1
          obtain ⟨hs2, _⟩ := hs2
          have hs2 : m2 = store e m1 y w 1#w := hs2
          exact fin t m2 m hl (by rw [hs2, load_store_disjoint hw (by omega)]; exact hx1)
            (by rw [hs2]; exact load_store hw _) htr2 (.inr ht0) (.inr ht1) (.inr (by rw [ht1]; simp))
    · have hf0 : ofThread 0 (z :: t) = ofThread 0 t := by simp [ofThread, hz]
      have hf1 : ofThread 1 (z :: t) = z :: ofThread 1 t := by simp [ofThread, hz]
      rw [hf0] at ht0; rw [hf1] at ht1
      injection ht1 with e1 ht1
      subst e1
      obtain ⟨hs, _⟩ := hs
      have hs : m1 = store e m0 y w 1#w := hs
      have hy1 : load e m1 y w = 1#w := by rw [hs]; exact load_store hw _
      cases t with
      | nil => simp [ofThread] at ht0
      | cons z t =>
        obtain ⟨hz, htr2⟩ := thr _ htr1 z t rfl
        obtain ⟨m2, hs2, hl⟩ := hl
        rcases hz with hz | hz
        · have hf0 : ofThread 0 (z :: t) = z :: ofThread 0 t := by simp [ofThread, hz]
          have hf1 : ofThread 1 (z :: t) = ofThread 1 t := by simp [ofThread, hz]
          rw [hf0] at ht0; rw [hf1] at ht1
          injection ht0 with e1 ht0
          subst e1
          obtain ⟨hs2, _⟩ := hs2
          have hs2 : m2 = store e m1 x w 1#w := hs2
          exact fin t m2 m hl (by rw [hs2]; exact load_store hw _)
            (by rw [hs2, load_store_disjoint hw (by omega)]; exact hy1) htr2 (.inr ht0) (.inr ht1)
            (.inr (by rw [ht1]; simp))
        · have hf0 : ofThread 0 (z :: t) = ofThread 0 t := by simp [ofThread, hz]
          have hf1 : ofThread 1 (z :: t) = z :: ofThread 1 t := by simp [ofThread, hz]
          rw [hf0] at ht0; rw [hf1] at ht1
          injection ht1 with e1 ht1
          subst e1
          obtain ⟨u, ⟨_, hm2⟩, _⟩ := hs2
          subst hm2
          cases t with
          | nil => simp [ofThread] at ht0
          | cons z t =>
            obtain ⟨hz, htr3⟩ := thr _ htr2 z t rfl
            obtain ⟨m3, hs3, hl⟩ := hl
            rcases hz with hz | hz
            · have hf0 : ofThread 0 (z :: t) = z :: ofThread 0 t := by simp [ofThread, hz]
              have hf1 : ofThread 1 (z :: t) = ofThread 1 t := by simp [ofThread, hz]
              rw [hf0] at ht0; rw [hf1] at ht1
              injection ht0 with e1 ht0
              subst e1
              obtain ⟨hs3, _⟩ := hs3
              have hs3 : m3 = store e m2 x w 1#w := hs3
              exact fin t m3 m hl (by rw [hs3]; exact load_store hw _)
                (by rw [hs3, load_store_disjoint hw (by omega)]; exact hy1) htr3 (.inr ht0) (.inl ht1)
                (.inl (by rw [ht0]; simp))
            · have hf1 : ofThread 1 (z :: t) = z :: ofThread 1 t := by simp [ofThread, hz]
              rw [hf1] at ht1; cases ht1

/-- Read-read coherence in a sequential execution: if thread 0 stores `v` and thread 1 loads twice, the second load does not
return the old value if the first one returned `v`. -/
theorem legal_corr {e : Endian} {m0 m : Mem} {seq : List (Nat × Call × Ret)} {w a : Nat} {so o o' : Ordering} {v r r' : BitVec w}
    (hw : w % 8 = 0) (hv : load e m0 a w ≠ v) (hl : Legal e m0 seq m)
    (ht0 : ofThread 0 seq = [(0, .store so w a v, .unit)])
    (ht1 : ofThread 1 seq = [(1, .load o w a, .bits w r), (1, .load o' w a, .bits w r')])
    (htr : ∀ i, 2 ≤ i → ofThread i seq = []) (hr : r = v) : r' = v := by
  have ld : ∀ {m m1 : Mem} {o : Ordering} {x : BitVec w}, (Call.load o w a).Sem e m m1 (.bits w x) → x = load e m a w ∧ m1 = m := by
    rintro m m1 o x ⟨u, ⟨rfl, rfl⟩, h⟩
    injection h with _ h
    exact ⟨eq_of_heq (heq_of_eq h), rfl⟩
  -- after the store, loads return `v`
  have fin : ∀ (l : List (Nat × Call × Ret)) (m m' : Mem), Legal e m l m' → load e m a w = v → ofThread 0 l = [] →
      (∀ i, 2 ≤ i → ofThread i l = []) →
      (ofThread 1 l = [(1, .load o w a, .bits w r), (1, .load o' w a, .bits w r')] ∨ ofThread 1 l = [(1, .load o' w a, .bits w r')]) →
      r' = v := by
    intro l
    induction l with
    | nil => intro m m' _ _ _ _ h; simp [ofThread] at h
    | cons z t ih =>
      intro m m' hl hm h0 hr h1
      obtain ⟨m1, hs, hl⟩ := hl
      have hz : z.1 = 1 := by
        rcases Nat.lt_or_ge z.1 2 with h | h
        · rcases (by omega : z.1 = 0 ∨ z.1 = 1) with h | h
          · simp [ofThread, h] at h0
          · exact h
        · have := hr z.1 h; simp [ofThread] at this
      have hf0 : ofThread 0 (z :: t) = ofThread 0 t := by simp [ofThread, hz]
      have hf1 : ofThread 1 (z :: t) = z :: ofThread 1 t := by simp [ofThread, hz]
      have hf2 : ∀ i, 2 ≤ i → ofThread i t = [] := by
        intro i hi
        have := hr i hi
        rwa [ofThread, List.filter_cons, if_neg (by simp; omega)] at this
      rw [hf0] at h0; rw [hf1] at h1
      rcases h1 with h1 | h1
      · injection h1 with e1 h1
        subst e1
        obtain ⟨_, rfl⟩ := ld hs
        exact ih _ _ hl hm h0 hf2 (.inr h1)
      · injection h1 with e1 h1
        subst e1
        rw [(ld hs).1, hm]
  cases seq with
  | nil => simp [ofThread] at ht0
  | cons z t =>
    obtain ⟨m1, hs, hl⟩ := hl
    have hz : z.1 = 0 ∨ z.1 = 1 := by
      rcases Nat.lt_or_ge z.1 2 with h | h
      · omega
      · have := htr z.1 h; simp [ofThread] at this
    have hf2 : ∀ i, 2 ≤ i → ofThread i t = [] := by
      intro i hi
      have := htr i hi
      rwa [ofThread, List.filter_cons, if_neg (by simp; omega)] at this
    rcases hz with hz | hz
    · have hf0 : ofThread 0 (z :: t) = z :: ofThread 0 t := by simp [ofThread, hz]
      have hf1 : ofThread 1 (z :: t) = ofThread 1 t := by simp [ofThread, hz]
      rw [hf0] at ht0; rw [hf1] at ht1
      injection ht0 with e1 ht0
      subst e1
      obtain ⟨hs, _⟩ := hs
      have hs : m1 = store e m0 a w v := hs
      exact fin t m1 m hl (by rw [hs]; exact load_store hw _) ht0 hf2 (.inl ht1)
    · have hf1 : ofThread 1 (z :: t) = z :: ofThread 1 t := by simp [ofThread, hz]
      rw [hf1] at ht1
      injection ht1 with e1 ht1
      subst e1
      exact absurd ((ld hs).1.symm.trans hr) hv

end Verif
