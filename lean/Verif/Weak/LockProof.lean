/- Proof of C48. -/
import Verif.Weak.Lock
import Verif.Weak.Weaken
import Verif.Weak.SyncProof
import Verif.Weak.NonMCASyncProof

namespace Verif

/-! ### The sequence of operations on the lock -/
section
open Classical
variable {W : Nat}

/-- takings (true) and givings back (false) -/
noncomputable def mark (e : Nat × Nat × Done W) : Option (Nat × Nat × Bool) :=
  if e.2.2.call.TriesLock ∧ e.2.2.ret.Taken then some (e.1, e.2.1, true)
  else if e.2.2.call.Unlocks then some (e.1, e.2.1, false) else none
/-- critical sections one after the other: thread, beginning, end -/
def rounds (R : List (Nat × Nat × Nat)) : List (Nat × Nat × Bool) :=
  R.flatMap fun x => [(x.1, x.2.1, true), (x.1, x.2.2, false)]

theorem rounds_snoc (R : List (Nat × Nat × Nat)) (t k u : Nat) :
    rounds (R ++ [(t, k, u)]) = rounds R ++ [(t, k, true), (t, u, false)] := by simp [rounds]
theorem mem_rounds_true {R : List (Nat × Nat × Nat)} {t k : Nat} : (t, k, true) ∈ rounds R ↔ ∃ u, (t, k, u) ∈ R := by
  simp only [rounds, List.mem_flatMap, List.mem_cons, Prod.mk.injEq, Bool.true_eq_false, and_false, List.not_mem_nil, or_false, and_true]
  constructor
  · rintro ⟨⟨t', k', u⟩, h, rfl, rfl⟩; exact ⟨u, h⟩
  · rintro ⟨u, h⟩; exact ⟨_, h, rfl, rfl⟩
theorem mem_rounds_false {R : List (Nat × Nat × Nat)} {t u : Nat} : (t, u, false) ∈ rounds R ↔ ∃ k, (t, k, u) ∈ R := by
  simp only [rounds, List.mem_flatMap, List.mem_cons, Prod.mk.injEq, Bool.false_eq_true, and_false, List.not_mem_nil, or_false, and_true, false_or]
  constructor
  · rintro ⟨⟨t', k, u'⟩, h, rfl, rfl⟩; exact ⟨k, h⟩
  · rintro ⟨k, h⟩; exact ⟨_, h, rfl, rfl⟩

theorem tries_unlocks {c : Call} (h : c.TriesLock) : ¬ c.Unlocks := by cases c <;> simp_all [Call.TriesLock, Call.Unlocks]

theorem mark_true {e : Nat × Nat × Done W} {t k : Nat} : mark e = some (t, k, true) ↔
    e.1 = t ∧ e.2.1 = k ∧ e.2.2.call.TriesLock ∧ e.2.2.ret.Taken := by
  unfold mark
  split
  · rename_i h; simp [h]
  · rename_i h
    constructor
    · intro g; split at g <;> simp at g
    · intro g; exact absurd g.2.2 h
theorem mark_false {e : Nat × Nat × Done W} {t k : Nat} : mark e = some (t, k, false) ↔ e.1 = t ∧ e.2.1 = k ∧ e.2.2.call.Unlocks := by
  unfold mark
  split
  · rename_i h; simp [tries_unlocks h.1]
  · split
    · rename_i h; simp [h]
    · rename_i h; simp [h]

/-- what is known of the list of all operations on the lock -/
structure LSeq (items : Nat → List (Item W)) (w a : Nat) (S : List (Nat × Nat × Done W)) : Prop where
  mem : ∀ t k d, (t, k, d) ∈ S ↔ (items t)[k]? = some (.op d) ∧ d.call.On w a
  sorted : S.Pairwise fun x y => x.1 = y.1 → x.2.1 < y.2.1
  client : LockClient items w a

/-- sections are finished ones -/
def Finished (items : Nat → List (Item W)) (w a : Nat) (R : List (Nat × Nat × Nat)) : Prop :=
  ∀ t k u, (t, k, u) ∈ R → k < u ∧ LockAt items w a t k ∧ UnlockAt items w a t u ∧ ∀ m, k < m → m < u → ¬ UnlockAt items w a t m

variable {items : Nat → List (Item W)} {w a : Nat} {S : List (Nat × Nat × Done W)} (H : LSeq items w a S)
include H

theorem LSeq.lockAt {t k : Nat} {d : Done W} (h : (t, k, d) ∈ S) (h1 : d.call.TriesLock) (h2 : d.ret.Taken) : LockAt items w a t k :=
  ⟨d, ((H.mem t k d).1 h).1, ((H.mem t k d).1 h).2, h1, h2⟩
theorem LSeq.unlockAt {t k : Nat} {d : Done W} (h : (t, k, d) ∈ S) (h1 : d.call.Unlocks) : UnlockAt items w a t k :=
  ⟨d, ((H.mem t k d).1 h).1, ((H.mem t k d).1 h).2, h1⟩
theorem LSeq.of_lockAt {t k : Nat} (h : LockAt items w a t k) : ∃ d, (t, k, d) ∈ S ∧ d.call.TriesLock ∧ d.ret.Taken := by
  obtain ⟨d, h1, h2, h3⟩ := h
  exact ⟨d, (H.mem t k d).2 ⟨h1, h2⟩, h3⟩
theorem LSeq.of_unlockAt {t k : Nat} (h : UnlockAt items w a t k) : ∃ d, (t, k, d) ∈ S ∧ d.call.Unlocks := by
  obtain ⟨d, h1, h2, h3⟩ := h
  exact ⟨d, (H.mem t k d).2 ⟨h1, h2⟩, h3⟩

/-- earlier operations of a thread come earlier -/
theorem LSeq.before {S1 S2 : List (Nat × Nat × Done W)} {t k k' : Nat} {d d' : Done W} (hS : S = S1 ++ (t, k, d) :: S2)
    (h : (t, k', d') ∈ S) (hk : k' < k) : (t, k', d') ∈ S1 := by
  have hs := H.sorted
  rw [hS] at h hs
  rcases List.mem_append.1 h with h | h
  · exact h
  · rcases List.mem_cons.1 h with h | h
    · simp only [Prod.mk.injEq] at h; omega
    · have := (List.pairwise_cons.1 (List.pairwise_append.1 hs).2.1).1 _ h rfl
      simp only at this; omega
theorem LSeq.after {S1 S2 : List (Nat × Nat × Done W)} {t k k' : Nat} {d d' : Done W} (hS : S = S1 ++ (t, k, d) :: S2)
    (h : (t, k', d') ∈ S1) : k' < k := by
  have hs := H.sorted
  rw [hS] at hs
  exact (List.pairwise_append.1 hs).2.2 _ h _ List.mem_cons_self rfl

/-- the state of the lock: who has it -/
def LockState (e : Endian) (items : Nat → List (Item W)) (w a : Nat) (M : Mem) (S1 : List (Nat × Nat × Done W)) : Prop :=
  ∃ R, Finished items w a R ∧
    ((load e M a w = 0 ∧ S1.filterMap mark = rounds R) ∨
     (load e M a w ≠ 0 ∧ ∃ t k, LockAt items w a t k ∧ S1.filterMap mark = rounds R ++ [(t, k, true)]))

theorem LSeq.step {e : Endian} (hw : w % 8 = 0) {S1 S2 : List (Nat × Nat × Done W)} {t k : Nat} {d : Done W} {M M1 : Mem}
    (hS : S = S1 ++ (t, k, d) :: S2)
    (hM : LockState e items w a M S1) (hsem : d.call.Sem e M M1 d.ret) : LockState e items w a M1 (S1 ++ [(t, k, d)]) := by
  obtain ⟨R, hR, hM⟩ := hM
  have hin : (t, k, d) ∈ S := by rw [hS]; simp
  obtain ⟨hitem, hon⟩ := (H.mem t k d).1 hin
  -- an operation that is neither
  have keep : mark (t, k, d) = none → ((load e M a w = 0 → load e M1 a w = 0) ∧ (load e M a w ≠ 0 → load e M1 a w ≠ 0)) →
      LockState e items w a M1 (S1 ++ [(t, k, d)]) := by
    intro hm ⟨h1, h2⟩
    refine ⟨R, hR, ?_⟩
    rw [List.filterMap_append, List.filterMap_cons, hm]
    simp only [List.filterMap_nil, List.append_nil]
    exact hM.imp (fun h => ⟨h1 h.1, h.2⟩) (fun h => ⟨h2 h.1, h.2⟩)
  have take : load e M a w = 0 → load e M1 a w ≠ 0 → d.call.TriesLock → d.ret.Taken → LockState e items w a M1 (S1 ++ [(t, k, d)]) := by
    intro h0 h1 h2 h3
    refine ⟨R, hR, .inr ⟨h1, t, k, H.lockAt hin h2 h3, ?_⟩⟩
    rw [List.filterMap_append, List.filterMap_cons, (mark_true (e := (t, k, d))).2 ⟨rfl, rfl, h2, h3⟩]
    rcases hM with hM | hM
    · rw [hM.2]; rfl
    · exact absurd h0 hM.1
  have fails : d.call.TriesLock → ¬ d.ret.Taken → mark (t, k, d) = none := by
    intro h1 h2
    simp [mark, h2, tries_unlocks h1]
  rcases H.client.ops t d (List.mem_of_getElem? hitem) hon with htry | hun | ⟨o, hld⟩
  · obtain ⟨c, B, tr, rs⟩ := d
    generalize hret : Done.ret ⟨c, B, tr, rs⟩ = r at *
    cases c with
    | load => exact htry.elim
    | store => exact htry.elim
    | swap o w' a' v =>
      obtain ⟨x, ⟨hx, rfl⟩, rfl⟩ := hsem
      obtain ⟨rfl, rfl⟩ := hon
      simp only [Call.width, Call.addr] at *
      have hv : load e (store e M a' w' v) a' w' = v := load_store hw v
      by_cases h0 : load e M a' w' = 0
      · exact take h0 (by rw [hv]; exact htry.2) htry (by rw [hx]; exact h0)
      · exact keep (fails htry (fun h => h0 (hx ▸ h))) ⟨fun h => absurd h h0, fun _ => by rw [hv]; exact htry.2⟩
    | cas s f w' a' old new =>
      obtain ⟨x, ok, ⟨hx, hc⟩, rfl⟩ := hsem
      obtain ⟨rfl, rfl⟩ := hon
      simp only [Call.width, Call.addr] at *
      rcases hc with ⟨h1, rfl, rfl⟩ | ⟨h1, rfl, rfl⟩
      · exact take (h1.trans htry.2.1) (by rw [load_store hw]; exact htry.2.2) htry rfl
      · exact keep (fails htry (by simp [Ret.Taken])) ⟨id, id⟩
    | casWeak s f w' a' old new =>
      obtain ⟨x, ok, ⟨hx, hc⟩, rfl⟩ := hsem
      obtain ⟨rfl, rfl⟩ := hon
      simp only [Call.width, Call.addr] at *
      rcases hc with ⟨h1, rfl, rfl⟩ | ⟨rfl, rfl⟩
      · exact take (h1.trans htry.2.1) (by rw [load_store hw]; exact htry.2.2) htry rfl
      · exact keep (fails htry (by simp [Ret.Taken])) ⟨id, id⟩
  · -- given back
    have hk := H.unlockAt hin hun
    obtain ⟨k0, hk0, hl, hno⟩ := H.client.held t k hk
    obtain ⟨d0, hd0, ht0, hr0⟩ := H.of_lockAt hl
    have hd0 := H.before hS hd0 hk0
    have hmem : (t, k0, true) ∈ S1.filterMap mark := List.mem_filterMap.2 ⟨_, hd0, mark_true.2 ⟨rfl, rfl, ht0, hr0⟩⟩
    have notin : ∀ u, (t, k0, u) ∉ R ∨ (t, u, false) ∉ S1.filterMap mark := by
      intro u
      refine Classical.or_iff_not_imp_left.2 fun h => ?_
      have h := hR t k0 u (Classical.not_not.1 h)
      intro hm
      obtain ⟨⟨t', u', du⟩, he, hm⟩ := List.mem_filterMap.1 hm
      obtain ⟨rfl, rfl, hu⟩ := mark_false.1 hm
      have := H.after hS he
      exact hno _ h.1 this h.2.2.1
    have h0 : load e M1 a w = 0 := by
      obtain ⟨c, B, tr, rs⟩ := d
      cases c with
      | store o w' a' v =>
        obtain ⟨rfl, _⟩ := hsem
        obtain ⟨rfl, rfl⟩ := hon
        simp only [Call.width, Call.addr] at *
        rw [load_store hw]; exact hun.2
      | _ => exact False.elim hun
    have hmk : mark (t, k, d) = some (t, k, false) := mark_false.2 ⟨rfl, rfl, hun⟩
    rcases hM with ⟨_, hM⟩ | ⟨_, t1, k1, hl1, hM⟩
    · rw [hM] at hmem
      obtain ⟨u, hu⟩ := mem_rounds_true.1 hmem
      exact (notin u).elim (absurd hu) (absurd (by rw [hM]; exact mem_rounds_false.2 ⟨_, hu⟩))
    · rw [hM] at hmem
      rcases List.mem_append.1 hmem with hm | hm
      · obtain ⟨u, hu⟩ := mem_rounds_true.1 hm
        exact (notin u).elim (absurd hu) (absurd (by rw [hM]; exact List.mem_append.2 (.inl (mem_rounds_false.2 ⟨_, hu⟩))))
      · simp only [List.mem_singleton, Prod.mk.injEq, and_true] at hm
        obtain ⟨rfl, rfl⟩ := hm
        refine ⟨R ++ [(t, k0, k)], ?_, .inl ⟨h0, ?_⟩⟩
        · intro t' k' u' hm
          rcases List.mem_append.1 hm with hm | hm
          · exact hR _ _ _ hm
          · simp only [List.mem_singleton, Prod.mk.injEq] at hm
            obtain ⟨rfl, rfl, rfl⟩ := hm
            exact ⟨hk0, hl, hk, hno⟩
        · rw [List.filterMap_append, hM, List.filterMap_cons, hmk, rounds_snoc]
          simp
  · obtain ⟨c, B, tr, rs⟩ := d
    subst hld
    obtain ⟨x, ⟨_, rfl⟩, _⟩ := hsem
    exact keep (by simp [mark, Call.TriesLock, Call.Unlocks]) ⟨id, id⟩

/-- when the lock is taken, all earlier critical sections are finished -/
theorem LSeq.at_lock {e : Endian} (hw : w % 8 = 0) : ∀ (S2 S1 : List (Nat × Nat × Done W)) (M M' : Mem), S = S1 ++ S2 →
    LockState e items w a M S1 → Legal e M (S2.map fun e => (e.1, e.2.2.call, e.2.2.ret)) M' →
    ∀ T T' j l d, S2 = T ++ (j, l, d) :: T' → d.call.TriesLock → d.ret.Taken →
      ∃ R, Finished items w a R ∧ (S1 ++ T).filterMap mark = rounds R := by
  intro S2
  induction S2 with
  | nil => intro S1 M M' _ _ _ T T' j l d h; simp at h
  | cons x S2 ih =>
    obtain ⟨t, k, d⟩ := x
    intro S1 M M' hS hM hL T T' j l dj hT h1 h2
    obtain ⟨M1, hsem, hL⟩ := hL
    cases T with
    | nil =>
      simp only [List.nil_append, List.cons.injEq, Prod.mk.injEq] at hT
      obtain ⟨⟨rfl, rfl, rfl⟩, rfl⟩ := hT
      have h0 : load e M a w = 0 := by
        have hon := ((H.mem t k d).1 (by rw [hS]; simp)).2
        obtain ⟨c, B, tr, rs⟩ := d
        generalize hret : Done.ret ⟨c, B, tr, rs⟩ = r at *
        cases c with
        | load => exact h1.elim
        | store => exact h1.elim
        | swap o w' a' v =>
          obtain ⟨x, ⟨hx, _⟩, rfl⟩ := hsem
          obtain ⟨rfl, rfl⟩ := hon
          exact hx.symm.trans h2
        | cas s f w' a' old new =>
          obtain ⟨x, ok, ⟨hx, hc⟩, rfl⟩ := hsem
          obtain ⟨rfl, rfl⟩ := hon
          rcases hc with ⟨g, _⟩ | ⟨_, rfl, _⟩
          · exact g.trans h1.2.1
          · cases h2
        | casWeak s f w' a' old new =>
          obtain ⟨x, ok, ⟨hx, hc⟩, rfl⟩ := hsem
          obtain ⟨rfl, rfl⟩ := hon
          rcases hc with ⟨g, _⟩ | ⟨rfl, _⟩
          · exact g.trans h1.2.1
          · cases h2
      obtain ⟨R, hR, hM⟩ := hM
      refine ⟨R, hR, ?_⟩
      rw [List.append_nil]
      rcases hM with hM | hM
      · exact hM.2
      · exact absurd h0 hM.1
    | cons y T =>
      simp only [List.cons_append, List.cons.injEq] at hT
      obtain ⟨rfl, hT⟩ := hT
      have := ih (S1 ++ [(t, k, d)]) M1 M' (by rw [hS]; simp) (H.step hw hS hM hsem) hL T T' j l dj hT h1 h2
      simpa using this

/-! ### Synchronization from one critical section to the next -/

theorem LSeq.chain {Sy : Nat → Nat → Nat → Nat → Prop}
    (htrans : ∀ i k j l m t n, Sy i k j l → l ≤ m → Sy j m t n → Sy i k t n)
    (hdirect : ∀ P t u du T j l dj S2, S = P ++ (t, u, du) :: (T ++ (j, l, dj) :: S2) → T.filterMap mark = [] → du.call.Unlocks →
      dj.call.TriesLock → dj.ret.Taken → t ≠ j → Sy t u j l) :
    ∀ (n : Nat) (S1 S2 : List (Nat × Nat × Done W)) j l d R, S1.length ≤ n → S = S1 ++ (j, l, d) :: S2 → d.call.TriesLock → d.ret.Taken →
      S1.filterMap mark = rounds R → ∀ i k u, (i, k, u) ∈ R →
      (i = j ∧ u < l) ∨ (i ≠ j ∧ ∃ u' l', u ≤ u' ∧ l' ≤ l ∧ Sy i u' j l') := by
  intro n
  induction n with
  | zero =>
    intro S1 S2 j l d R hlen hS _ _ hR i k u hm
    have : S1 = [] := List.eq_nil_of_length_eq_zero (by omega)
    subst this
    have := mem_rounds_true.2 ⟨u, hm⟩
    rw [← hR] at this
    simp at this
  | succ n ih =>
    intro S1 S2 j l d R hlen hS h1 h2 hR i k u hm
    by_cases hij : i = j
    · left
      subst hij
      refine ⟨rfl, ?_⟩
      have hu := mem_rounds_false.2 ⟨k, hm⟩
      rw [← hR] at hu
      obtain ⟨⟨t', u', du⟩, he, hmk⟩ := List.mem_filterMap.1 hu
      obtain ⟨rfl, rfl, _⟩ := mark_false.1 hmk
      exact H.after hS he
    · right
      refine ⟨hij, ?_⟩
      -- the last critical section
      obtain ⟨R0, ⟨t, k0, u0⟩, rfl⟩ : ∃ R0 x, R = R0 ++ [x] := by
        refine ⟨R.dropLast, R.getLast (by rintro rfl; simp at hm), (List.dropLast_concat_getLast _).symm⟩
      rw [rounds_snoc] at hR
      obtain ⟨A1, B, rfl, hA, hB⟩ := List.filterMap_eq_append_iff.1 hR
      obtain ⟨B1, ⟨t1, k1, d1⟩, B2, rfl, hB1, hx, hB2⟩ := List.filterMap_eq_cons_iff.1 hB
      obtain ⟨C1, ⟨t2, u2, d2⟩, C2, rfl, hC1, hy, hC2⟩ := List.filterMap_eq_cons_iff.1 hB2
      obtain ⟨e1, e2, hx1, hx2⟩ := mark_true.1 hx
      obtain ⟨e3, e4, hy1⟩ := mark_false.1 hy
      simp only at e1 e2 e3 e4
      subst e1; subst e2; subst e3; subst e4
      have hS1 : S = (A1 ++ B1) ++ (t2, k1, d1) :: (C1 ++ (t2, u2, d2) :: C2 ++ (j, l, d) :: S2) := by rw [hS]; simp
      have hS2 : S = (A1 ++ B1 ++ (t2, k1, d1) :: C1) ++ (t2, u2, d2) :: (C2 ++ (j, l, d) :: S2) := by rw [hS]; simp
      have hku : k1 < u2 := H.after hS2 (d' := d1) (by simp)
      have hAB : (A1 ++ B1).filterMap mark = rounds R0 := by
        rw [List.filterMap_append, hA, List.filterMap_eq_nil_iff.2 hB1, List.append_nil]
      have hl1 : (A1 ++ B1).length ≤ n := by simp at hlen ⊢; omega
      have hprev := ih (A1 ++ B1) _ t2 k1 d1 R0 hl1 hS1 hx1 hx2 hAB
      by_cases htj : t2 = j
      · subst htj
        have hkl : k1 < l := H.after hS (d' := d1) (by simp)
        rcases List.mem_append.1 hm with hm | hm
        · obtain ⟨_, u', l', g1, g2, g3⟩ := (hprev i k u hm).resolve_left fun h => hij h.1
          exact ⟨u', l', g1, by omega, g3⟩
        · simp only [List.mem_singleton, Prod.mk.injEq] at hm
          exact absurd hm.1 hij
      · have hd := hdirect _ t2 u2 d2 C2 j l d S2 hS2 hC2 hy1 h1 h2 htj
        rcases List.mem_append.1 hm with hm | hm
        · rcases hprev i k u hm with ⟨rfl, hlt⟩ | ⟨_, u', l', g1, g2, g3⟩
          · exact ⟨u2, l, by omega, Nat.le_refl _, hd⟩
          · exact ⟨u', l, g1, Nat.le_refl _, htrans _ _ _ _ _ _ _ g3 (by omega) hd⟩
        · simp only [List.mem_singleton, Prod.mk.injEq] at hm
          obtain ⟨rfl, rfl, rfl⟩ := hm
          exact ⟨u, l, Nat.le_refl _, Nat.le_refl _, hd⟩

/-- mutual exclusion, from synchronization -/
theorem LSeq.excludes {e : Endian} (hw : w % 8 = 0) {m0 M' : Mem} (h0 : load e m0 a w = 0)
    (hL : Legal e m0 (S.map fun e => (e.1, e.2.2.call, e.2.2.ret)) M') {Sy : Nat → Nat → Nat → Nat → Prop}
    (htrans : ∀ i k j l m t n, Sy i k j l → l ≤ m → Sy j m t n → Sy i k t n)
    (hdirect : ∀ P t u du T j l dj S2, S = P ++ (t, u, du) :: (T ++ (j, l, dj) :: S2) → T.filterMap mark = [] → du.call.Unlocks →
      dj.call.TriesLock → dj.ret.Taken → t ≠ j → Sy t u j l) {X : AxShape W} {Ord : Node → Node → Prop}
    (hSy : ∀ i k j l, Sy i k j l → ∀ p q kd kd' o o', X.At ⟨i, p, kd⟩ o → p < off (items i) k → X.At ⟨j, q, kd'⟩ o' →
      off (items j) (l + 1) ≤ q → Ord ⟨i, p, kd⟩ ⟨j, q, kd'⟩) : Excludes items w a X Ord := by
  intro i k j l hi hj hne
  obtain ⟨di, hdi, ti, ri⟩ := H.of_lockAt hi
  obtain ⟨dj, hdj, tj, rj⟩ := H.of_lockAt hj
  have main : ∀ i k j l di dj S1 S2, S = S1 ++ (j, l, dj) :: S2 → dj.call.TriesLock → dj.ret.Taken → (i, k, di) ∈ S1 →
      di.call.TriesLock → di.ret.Taken → SectionBefore items w a X Ord i k j l := by
    intro i k j l di dj S1 S2 hS tj rj hin ti ri
    obtain ⟨R, hR, hm⟩ := H.at_lock (e := e) hw S [] m0 M' rfl ⟨[], fun _ _ _ h => by simp at h, .inl ⟨h0, rfl⟩⟩ hL S1 S2 j l dj hS tj rj
    rw [List.nil_append] at hm
    have hin' : (i, k, true) ∈ S1.filterMap mark := List.mem_filterMap.2 ⟨_, hin, mark_true.2 ⟨rfl, rfl, ti, ri⟩⟩
    rw [hm] at hin'
    obtain ⟨u, hu⟩ := mem_rounds_true.1 hin'
    obtain ⟨f1, f2, f3, f4⟩ := hR i k u hu
    rcases H.chain htrans hdirect S1.length S1 S2 j l dj R (Nat.le_refl _) hS tj rj hm i k u hu with ⟨rfl, hlt⟩ | ⟨hij, u', l', g1, g2, g3⟩
    · exact ⟨u, f1, f3, f4, fun _ => hlt, fun h => absurd rfl h⟩
    · refine ⟨u, f1, f3, f4, fun h => absurd h hij, fun _ p q kd kd' o o' hp hpk hq hql => ?_⟩
      have m1 := off_mono (items i) g1
      have m2 := off_mono (items j) (Nat.add_le_add_right g2 1)
      exact hSy _ _ _ _ g3 p q kd kd' o o' hp (by omega) hq (by omega)
  obtain ⟨S1, S2, hS⟩ := List.append_of_mem hdj
  have hdi' := hdi
  rw [hS] at hdi'
  rcases List.mem_append.1 hdi' with h | h
  · exact .inl (main i k j l di dj S1 S2 hS tj rj h ti ri)
  · rcases List.mem_cons.1 h with h | h
    · simp only [Prod.mk.injEq] at h
      omega
    · obtain ⟨T1, T2, rfl⟩ := List.append_of_mem h
      exact .inr (main j l i k dj di (S1 ++ (j, l, dj) :: T1) T2 (by rw [hS]; simp) ti ri (by simp) tj rj)
end
end Verif
