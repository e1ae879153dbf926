/-
Interleaved executions are consistent: the weak memory models of C41, C42, C44 and C48 allow at least what a machine does that
executes the instructions of the threads one at a time on one memory. (So the theorems about consistent executions are about
something, for every back end: Weak/SerialOps.lean.)
-/
import Verif.Weak.Lock

namespace Verif
variable {W : Nat}

/-- The instructions of thread `t`. -/
def partOf (L : List (Nat × Own W)) (t : Nat) : List (Own W) := L.filterMap fun z => if z.1 = t then some z.2 else none

/-- The place in the interleaving of instruction `p` of thread `t`. -/
def place : List (Nat × Own W) → Nat → Nat → Nat
  | [], _, _ => 0
  | (t', _) :: L, t, p => if t' = t then (match p with | 0 => 0 | p + 1 => place L t p + 1) else place L t p + 1

/-- The instructions are executed one at a time: each finds the memory the one before left, and changes only what it writes. -/
def OneMemory : Mem → List (Nat × Own W) → Prop
  | _, [] => True
  | m, (_, o) :: L => o.m = m ∧ (∀ x, ¬ o.writes x → o.m' x = m x) ∧ OneMemory o.m' L

/-- A store-conditional that writes has a load-linked before it in its thread, and no other thread writes the bytes in between. -/
def Reserved (L : List (Nat × Own W)) : Prop :=
  ∀ t i j l s, i < j → (partOf L t)[i]? = some l → (partOf L t)[j]? = some s → l.ins.isLL = true → s.ins.isSC = true →
    (∀ q o, i < q → q < j → (partOf L t)[q]? = some o → o.ins.isLL = false) →
    ∀ k t' o x, place L t i < k → k < place L t j → L[k]? = some (t', o) → t' ≠ t → s.writes x → ¬ o.writes x

/-- The interleaving as an execution of the weak memory models. -/
def interleaved (m0 : Mem) (L : List (Nat × Own W)) : AxShape W where
  po := partOf L
  m0 := m0
  rank n := 2 * place L n.thread n.pos + (match n.kind with | .rd => 0 | .wr => 1)

theorem place_get : ∀ {L : List (Nat × Own W)} {t p : Nat} {o : Own W}, (partOf L t)[p]? = some o → L[place L t p]? = some (t, o)
  | [], _, _, _, h => by simp [partOf] at h
  | (t', o') :: L, t, p, o, h => by
    by_cases ht : t' = t
    · subst ht
      cases p with
      | zero => simpa [partOf, place] using h
      | succ p =>
        have := place_get (L := L) (t := t') (p := p) (o := o) (by simpa [partOf] using h)
        simpa [place] using this
    · have := place_get (L := L) (t := t) (p := p) (o := o) (by simpa [partOf, ht] using h)
      simpa [place, ht] using this

theorem place_mono : ∀ {L : List (Nat × Own W)} {t p p' : Nat} {o : Own W}, p < p' → (partOf L t)[p']? = some o →
    place L t p < place L t p'
  | [], _, _, _, _, _, h => by simp [partOf] at h
  | (t', o') :: L, t, p, p', o, hp, h => by
    by_cases ht : t' = t
    · subst ht
      cases p' with
      | zero => omega
      | succ p' =>
        cases p with
        | zero => simp [place]
        | succ p =>
          have := place_mono (L := L) (t := t') (p := p) (p' := p') (o := o) (by omega) (by simpa [partOf] using h)
          simpa [place] using this
    · have := place_mono (L := L) (t := t) (p := p) (p' := p') (o := o) hp (by simpa [partOf, ht] using h)
      simpa [place, ht] using this

theorem place_of : ∀ {L : List (Nat × Own W)} {j t : Nat} {o : Own W}, L[j]? = some (t, o) →
    ∃ p, (partOf L t)[p]? = some o ∧ place L t p = j
  | [], _, _, _, h => by simp at h
  | (t', o') :: L, j, t, o, h => by
    cases j with
    | zero =>
      simp at h
      obtain ⟨rfl, rfl⟩ := h
      exact ⟨0, by simp [partOf], by simp [place]⟩
    | succ j =>
      obtain ⟨p, h1, h2⟩ := place_of (L := L) (j := j) (t := t) (o := o) (by simpa using h)
      by_cases ht : t' = t
      · subst ht
        exact ⟨p + 1, by simpa [partOf] using h1, by simp [place, h2]⟩
      · exact ⟨p, by simpa [partOf, ht] using h1, by simp [place, ht, h2]⟩

/-- What an instruction finds in a byte was written last by another one before it. -/
theorem OneMemory.value : ∀ {L : List (Nat × Own W)} {m : Mem} {i t : Nat} {o : Own W} (x : Nat), OneMemory m L →
    L[i]? = some (t, o) →
    (∃ j t' o', j < i ∧ L[j]? = some (t', o') ∧ o'.writes x ∧ o'.m' x = o.m x ∧
      ∀ k t'' o'', j < k → k < i → L[k]? = some (t'', o'') → ¬ o''.writes x) ∨
    ((∀ j t' o', j < i → L[j]? = some (t', o') → ¬ o'.writes x) ∧ o.m x = m x)
  | [], _, _, _, _, _, _, h => by simp at h
  | (t0, o0) :: L, m, i, t, o, x, hm, h => by
    obtain ⟨h1, h2, h3⟩ := hm
    cases i with
    | zero =>
      simp at h
      obtain ⟨rfl, rfl⟩ := h
      exact .inr ⟨fun _ _ _ hj => absurd hj (by omega), by rw [h1]⟩
    | succ i =>
      rcases OneMemory.value x h3 (by simpa using h : L[i]? = some (t, o)) with ⟨j, t', o', g1, g2, g3, g4, g5⟩ | ⟨g1, g2⟩
      · refine .inl ⟨j + 1, t', o', by omega, by simpa using g2, g3, g4, fun k t'' o'' k1 k2 k3 => ?_⟩
        match k with
        | k + 1 => exact g5 k t'' o'' (by omega) (by omega) (by simpa using k3)
      · by_cases hw : o0.writes x
        · refine .inl ⟨0, t0, o0, by omega, rfl, hw, g2.symm, fun k t'' o'' k1 k2 k3 => ?_⟩
          match k with
          | k + 1 => exact g1 k t'' o'' (by omega) (by simpa using k3)
        · refine .inr ⟨fun j t' o' hj hget => ?_, by rw [g2, h2 x hw]⟩
          match j with
          | 0 =>
            simp at hget
            obtain ⟨rfl, rfl⟩ := hget
            exact hw
          | j + 1 => exact g1 j t' o' (by omega) (by simpa using hget)

theorem Ev.has_write {ev : Ev} (h : ev.isWrite = true) : ev.has .wr := by cases ev <;> first | trivial | cases h

section
variable {m0 : Mem} {L : List (Nat × Own W)}

theorem interleaved_rank (n : Node) : (interleaved m0 L).rank n = 2 * place L n.thread n.pos + (match n.kind with | .rd => 0 | .wr => 1) := rfl
theorem rank_rd {n : Node} (h : n.kind = .rd) : (interleaved m0 L).rank n = 2 * place L n.thread n.pos := by rw [interleaved_rank, h]; rfl
theorem rank_wr {n : Node} (h : n.kind = .wr) : (interleaved m0 L).rank n = 2 * place L n.thread n.pos + 1 := by rw [interleaved_rank, h]
theorem rank_le (n : Node) : 2 * place L n.thread n.pos ≤ (interleaved m0 L).rank n ∧
    (interleaved m0 L).rank n ≤ 2 * place L n.thread n.pos + 1 := by rw [interleaved_rank]; cases n.kind <;> simp

/-- program order -/
theorem rank_pos {n n' : Node} {o : Own W} (ht : n.thread = n'.thread) (hp : n.pos < n'.pos) (h : (partOf L n'.thread)[n'.pos]? = some o) :
    (interleaved m0 L).rank n < (interleaved m0 L).rank n' := by
  have := place_mono hp h
  have h1 := (rank_le (m0 := m0) (L := L) n).2
  have h2 := (rank_le (m0 := m0) (L := L) n').1
  rw [ht] at h1
  omega

theorem rank_inj {n n' : Node} {o o' : Own W} (h : (interleaved m0 L).At n o) (h' : (interleaved m0 L).At n' o')
    (hr : (interleaved m0 L).rank n = (interleaved m0 L).rank n') : n = n' := by
  have hp : place L n.thread n.pos = place L n'.thread n'.pos ∧ n.kind = n'.kind := by
    rw [interleaved_rank, interleaved_rank] at hr
    cases hk : n.kind <;> cases hk' : n'.kind <;> rw [hk, hk'] at hr <;> simp only at hr <;> refine ⟨by omega, ?_⟩ <;> first | rfl | omega
  have e1 := place_get h.1
  have e2 := place_get h'.1
  rw [hp.1, e2] at e1
  obtain ⟨t, p, k⟩ := n
  obtain ⟨t', p', k'⟩ := n'
  simp only [Option.some.injEq, Prod.mk.injEq] at e1 hp
  obtain ⟨rfl, _⟩ := e1
  obtain ⟨hp, rfl⟩ := hp
  have : p = p' := by
    rcases Nat.lt_trichotomy p p' with hlt | rfl | hlt
    · have := place_mono hlt h'.1; simp only at this; omega
    · rfl
    · have := place_mono hlt h.1; simp only at this; omega
  rw [this]

theorem writes_at {w : Node} {x : Nat} {v : BitVec 8} (h : (interleaved m0 L).WritesByte w x v) :
    ∃ o, L[place L w.thread w.pos]? = some (w.thread, o) ∧ o.writes x ∧ o.m' x = v ∧ (interleaved m0 L).rank w = 2 * place L w.thread w.pos + 1 := by
  obtain ⟨hk, o, hat, hw, hv⟩ := h
  exact ⟨o, place_get hat.1, hw, hv, rank_wr hk⟩

theorem at_writes {j t : Nat} {o : Own W} {x : Nat} (h : L[j]? = some (t, o)) (hw : o.writes x) :
    ∃ w : Node, (interleaved m0 L).WritesByte w x (o.m' x) ∧ w.thread = t ∧ place L w.thread w.pos = j := by
  obtain ⟨p, h1, h2⟩ := place_of h
  exact ⟨⟨t, p, .wr⟩, ⟨rfl, o, ⟨h1, Ev.has_write hw.1⟩, hw, rfl⟩, rfl, h2⟩

/-- `w` is the newest write to byte `x` before `n`. -/
def LastBefore (m0 : Mem) (L : List (Nat × Own W)) (n : Node) (x : Nat) (w : Node) : Prop :=
  (∃ v, (interleaved m0 L).WritesByte w x v) ∧ (interleaved m0 L).rank w < (interleaved m0 L).rank n ∧
    ∀ w' v', (interleaved m0 L).WritesByte w' x v' → (interleaved m0 L).rank w' < (interleaved m0 L).rank n →
      (interleaved m0 L).rank w' ≤ (interleaved m0 L).rank w

open Classical in
/-- from which write each read takes its value -/
noncomputable def readFrom (m0 : Mem) (L : List (Nat × Own W)) (n : Node) (x : Nat) : Option Node :=
  if h : ∃ w, LastBefore m0 L n x w then some h.choose else none

theorem readFrom_some {n : Node} {x : Nat} {w : Node} (h : readFrom m0 L n x = some w) : LastBefore m0 L n x w := by
  unfold readFrom at h
  split at h
  · rename_i hex
    cases h
    exact hex.choose_spec
  · cases h

theorem LastBefore.eq {n : Node} {x : Nat} {w w' : Node} (h : LastBefore m0 L n x w) (h' : LastBefore m0 L n x w') : w = w' := by
  obtain ⟨⟨v, hw⟩, h1, h2⟩ := h
  obtain ⟨⟨v', hw'⟩, h1', h2'⟩ := h'
  have := h2 w' v' hw' h1'
  have := h2' w v hw h1
  obtain ⟨_, o, hat, _⟩ := hw
  obtain ⟨_, o', hat', _⟩ := hw'
  exact rank_inj hat hat' (by omega)

theorem readFrom_iff {n : Node} {x : Nat} {w : Node} : readFrom m0 L n x = some w ↔ LastBefore m0 L n x w := by
  refine ⟨readFrom_some, fun h => ?_⟩
  unfold readFrom
  have hex : ∃ w, LastBefore m0 L n x w := ⟨w, h⟩
  rw [dif_pos hex]
  rw [hex.choose_spec.eq h]

/-- The value a read finds. -/
theorem value_read (hm : OneMemory m0 L) {n : Node} {o : Own W} (hat : (interleaved m0 L).At n o) (hk : n.kind = .rd) (x : Nat) :
    (∃ w, LastBefore m0 L n x w ∧ (interleaved m0 L).WritesByte w x (o.m x)) ∨
    ((∀ w v, (interleaved m0 L).WritesByte w x v → ¬ (interleaved m0 L).rank w < (interleaved m0 L).rank n) ∧ o.m x = m0 x) := by
  rcases hm.value x (place_get hat.1) with ⟨j, t', o', h1, h2, h3, h4, h5⟩ | ⟨h1, h2⟩
  · obtain ⟨w, hw, _, hp⟩ := at_writes (m0 := m0) h2 h3
    have hw' := hw
    obtain ⟨_, _, _, _, hr⟩ := writes_at hw'
    refine .inl ⟨w, ⟨⟨_, hw⟩, by rw [hr, rank_rd hk]; omega, fun w' v' hw1 hlt => ?_⟩, h4 ▸ hw⟩
    obtain ⟨o1, g1, g2, _, g4⟩ := writes_at hw1
    rw [g4, rank_rd hk] at hlt
    rw [g4, hr]
    rcases Nat.lt_or_ge (place L w.thread w.pos) (place L w'.thread w'.pos) with hlt' | hge
    · exact absurd g2 (h5 _ _ _ (by omega) (by omega) g1)
    · omega
  · refine .inr ⟨fun w v hw hlt => ?_, h2⟩
    obtain ⟨o1, g1, g2, _, g4⟩ := writes_at hw
    rw [g4, rank_rd hk] at hlt
    exact h1 _ _ _ (by omega) g1 g2

theorem readFrom_none (hm : OneMemory m0 L) {n : Node} {o : Own W} (hat : (interleaved m0 L).At n o) (hk : n.kind = .rd) {x : Nat}
    (h : readFrom m0 L n x = none) {w : Node} {v : BitVec 8} (hw : (interleaved m0 L).WritesByte w x v) :
    ¬ (interleaved m0 L).rank w < (interleaved m0 L).rank n := by
  rcases value_read hm hat hk x with ⟨w', hl, _⟩ | ⟨h1, _⟩
  · rw [readFrom_iff.2 hl] at h; cases h
  · exact h1 w v hw

/-- A read takes every byte from the newest write before it. -/
theorem readFrom_newest (hm : OneMemory m0 L) {n : Node} {o : Own W} (hat : (interleaved m0 L).At n o) (hk : n.kind = .rd) {x : Nat}
    {w : Node} {v : BitVec 8} (hw : (interleaved m0 L).WritesByte w x v) (hlt : (interleaved m0 L).rank w < (interleaved m0 L).rank n) :
    ∃ w', readFrom m0 L n x = some w' ∧ (interleaved m0 L).rank w ≤ (interleaved m0 L).rank w' := by
  cases h : readFrom m0 L n x with
  | none => exact absurd hlt (readFrom_none hm hat hk h hw)
  | some w' => exact ⟨w', rfl, (readFrom_some h).2.2 w v hw hlt⟩

theorem Wr.writesByte {X : AxShape W} {n : Node} {o : Own W} {x : Nat} (h : X.Wr n o x) : X.WritesByte n x (o.m' x) :=
  ⟨h.2.1, o, h.1, h.2.2.2, rfl⟩

theorem interleaved_ppo {imp : Pairs} {t i k j k'} (h : Ppo imp (((interleaved m0 L).po t).map Own.ev) i k j k') :
    (interleaved m0 L).rank ⟨t, i, k⟩ < (interleaved m0 L).rank ⟨t, j, k'⟩ := by
  obtain ⟨hij, _, y, _, hy, _⟩ := h
  rw [List.getElem?_map, Option.map_eq_some_iff] at hy
  obtain ⟨o, ho, _⟩ := hy
  exact rank_pos (n := ⟨t, i, k⟩) (n' := ⟨t, j, k'⟩) rfl hij ho

/-- no write of another thread comes between a load-linked and its store-conditional -/
theorem Reserved.between (hres : Reserved L) {t i j : Nat} {l s : Own W} (hij : i < j) (hl : (partOf L t)[i]? = some l)
    (hs : (partOf L t)[j]? = some s) (h1 : l.ins.isLL = true) (h2 : s.ins.isSC = true)
    (h3 : ∀ q o, i < q → q < j → (partOf L t)[q]? = some o → o.ins.isLL = false) {w : Node} {x : Nat} {v : BitVec 8}
    (hw : (interleaved m0 L).WritesByte w x v) (ht : w.thread ≠ t) (hx : s.writes x) :
    ¬ ((interleaved m0 L).rank ⟨t, i, .rd⟩ < (interleaved m0 L).rank w ∧ (interleaved m0 L).rank w < (interleaved m0 L).rank ⟨t, j, .wr⟩) := by
  rintro ⟨g1, g2⟩
  obtain ⟨o, e1, e2, _, e3⟩ := writes_at hw
  rw [e3, rank_rd (n := ⟨t, i, .rd⟩) rfl] at g1
  rw [e3, rank_wr (n := ⟨t, j, .wr⟩) rfl] at g2
  simp only at g1 g2
  have : place L w.thread w.pos ≠ place L t i := by
    intro he
    have e4 := place_get hl
    rw [← he, e1] at e4
    simp only [Option.some.injEq, Prod.mk.injEq] at e4
    exact ht e4.1
  exact hres t i j l s hij hl hs h1 h2 h3 _ _ o x (by omega) (by omega) e1 ht hx e2

/-- Interleaved executions satisfy the axioms of C41. -/
theorem interleaved_ax {imp : Pairs} (hm : OneMemory m0 L) (hres : Reserved L) : AxExec imp (interleaved m0 L) where
  inj _ _ _ _ h h' hr := rank_inj h h' hr
  ppo _ _ _ _ _ h := interleaved_ppo h
  value n o x hat hk _ := by
    have hvis : ∀ w v, (interleaved m0 L).WritesByte w x v → ((interleaved m0 L).rank w < (interleaved m0 L).rank n ∨
        (w.thread = n.thread ∧ w.pos < n.pos)) → (interleaved m0 L).rank w < (interleaved m0 L).rank n := by
      rintro w v _ (h | ⟨h1, h2⟩)
      · exact h
      · exact rank_pos h1 h2 hat.1
    rcases value_read hm hat hk x with ⟨w, ⟨_, h1, h2⟩, hw⟩ | ⟨h1, h2⟩
    · exact .inl ⟨w, .inl h1, hw, fun w' v' hS hw' => h2 w' v' hw' (hvis w' v' hw' hS)⟩
    · exact .inr ⟨fun w v hS hw => h1 w v hw (hvis w v hw hS), h2⟩
  rmw t p o h h' := by
    refine ⟨by rw [rank_rd (n := ⟨t, p, .rd⟩) rfl, rank_wr (n := ⟨t, p, .wr⟩) rfl]; simp, fun w x v _ _ _ => ?_⟩
    rw [rank_rd (n := ⟨t, p, .rd⟩) rfl, rank_wr (n := ⟨t, p, .wr⟩) rfl]
    simp only
    omega
  llsc t i j l s hij hl hs h1 h2 h3 := by
    refine ⟨rank_pos (n := ⟨t, i, .rd⟩) (n' := ⟨t, j, .wr⟩) rfl hij hs.1, fun w x v ht hx hw => ?_⟩
    exact hres.between hij hl.1 hs.1 h1 h2 h3 hw ht hx

theorem interleaved_forward : (interleaved m0 L).LocalForward := by
  rintro w n x o o' ⟨_, _, hvis, _⟩ _ hat _ _ _
  rcases hvis with h | ⟨h1, h2⟩
  · exact h
  · exact rank_pos h1 h2 hat.1

theorem interleaved_readsFrom : (interleaved m0 L).ReadsFrom (readFrom m0 L) := by
  intro n o x w hrd
  have hvis : ∀ w, (interleaved m0 L).Visible n w ↔ (interleaved m0 L).rank w < (interleaved m0 L).rank n := by
    refine fun w => ⟨?_, .inl⟩
    rintro (h | ⟨h1, h2⟩)
    · exact h
    · exact rank_pos h1 h2 hrd.1.1
  rw [readFrom_iff]
  constructor
  · rintro ⟨h1, h2, h3⟩
    exact ⟨⟨o, hrd.1, hrd.2.1, hrd.2.2.2⟩, h1, .inl h2, fun w' v' hS hw => h3 w' v' hw ((hvis w').1 hS)⟩
  · rintro ⟨_, h1, h2, h3⟩
    exact ⟨h1, (hvis w).1 h2, fun w' v' hw hS => h3 w' v' (.inl hS) hw⟩

/-- Interleaved executions satisfy the axioms of C42. -/
theorem interleaved_coh (hm : OneMemory m0 L) (hres : Reserved L) : CohExec (interleaved m0 L) (readFrom m0 L) where
  value n o x hat hk _ := by
    rcases value_read hm hat hk x with ⟨w, hl, hw⟩ | ⟨h1, h2⟩
    · have e := readFrom_iff.2 hl
      refine ⟨fun w' hw' => ?_, fun hn => ?_⟩
      · rw [e] at hw'; cases hw'; exact hw
      · rw [e] at hn; cases hn
    · refine ⟨fun w hw => ?_, fun _ => h2⟩
      obtain ⟨⟨v, hw1⟩, hlt, _⟩ := readFrom_some hw
      exact absurd hlt (h1 w v hw1)
  inj _ _ _ _ _ _ h h' hr := rank_inj h.1 h'.1 hr
  single n o x y w o' hx hy hrf hw :=
    readFrom_newest hm hy.1 hy.2.1 (Wr.writesByte hw) (readFrom_some hrf).2.1
  coWW n n' o o' x ht hp _ h' := rank_pos ht hp h'.1.1
  coRW n n' o o' x w ht hp h h' hrf := Nat.lt_trans (readFrom_some hrf).2.1 (rank_pos ht hp h'.1.1)
  coWR n n' o o' x ht hp h h' := readFrom_newest hm h'.1 h'.2.1 (Wr.writesByte h) (rank_pos ht hp h'.1.1)
  coRR n n' o o' x w ht hp h h' hrf := by
    obtain ⟨⟨v, hw⟩, hlt, _⟩ := readFrom_some hrf
    exact readFrom_newest hm h'.1 h'.2.1 hw (Nat.lt_trans hlt (rank_pos ht hp h'.1.1))
  rmw n n' o x ht hp h h' := by
    have hr : (interleaved m0 L).rank n' = (interleaved m0 L).rank n + 1 := by rw [rank_wr h'.2.1, rank_rd h.2.1, ht, hp]
    refine ⟨fun w hw => by have := (readFrom_some hw).2.1; omega, fun w ow _ hw hlt => ?_⟩
    refine readFrom_newest hm h.1 h.2.1 (Wr.writesByte hw) ?_
    have := rank_wr (m0 := m0) (L := L) hw.2.1
    have := rank_rd (m0 := m0) (L := L) h.2.1
    omega
  llsc n n' l s x ht hp h h' h1 h2 h3 := by
    refine ⟨fun w hw => Nat.lt_trans (readFrom_some hw).2.1 (rank_pos ht hp h'.1.1), fun w ow hQ hw hlt => ?_⟩
    refine readFrom_newest hm h.1 h.2.1 (Wr.writesByte hw) ?_
    obtain ⟨t, p, k⟩ := n
    obtain ⟨t', p', k'⟩ := n'
    simp only at ht hp h3 hQ
    subst ht
    have hk := h.2.1
    have hk' := h'.2.1
    simp only at hk hk'
    subst hk hk'
    have g1 := hres.between (m0 := m0) hp h.1.1 h'.1.1 h1 h2 h3 (Wr.writesByte hw) hQ h'.2.2.2
    have g2 := rank_wr (m0 := m0) (L := L) hw.2.1
    have g3 := rank_rd (m0 := m0) (L := L) (n := ⟨t, p, .rd⟩) rfl
    have g4 : ∀ a b c d e : Nat, ¬ (a < b ∧ b < c) → b < c → b = 2 * d + 1 → a = 2 * e → b < a := by intros; omega
    exact g4 _ _ _ _ _ g1 hlt g2 g3

theorem interleaved_hb {imp : Pairs} {a b : Node} (h : (interleaved m0 L).Hb imp (readFrom m0 L) a b) :
    (interleaved m0 L).rank a < (interleaved m0 L).rank b := by
  rcases h with ⟨ht, h⟩ | ⟨_, o, o', x, _, _, hrf⟩ | ⟨ht, hk, hk', l, s, hl, hs, hp⟩
  · obtain ⟨t, p, k⟩ := a
    obtain ⟨t', p', k'⟩ := b
    simp only at ht h
    subst ht
    exact interleaved_ppo h
  · exact (readFrom_some hrf).2.1
  · rcases hp with hp | ⟨hp, _⟩
    · rw [rank_rd hk, rank_wr hk', ht, hp]; omega
    · exact rank_pos ht hp hs.1

theorem interleaved_star {imp : Pairs} {a b : Node} (h : Star ((interleaved m0 L).Hb imp (readFrom m0 L)) a b) :
    (interleaved m0 L).rank a ≤ (interleaved m0 L).rank b := by
  induction h with
  | refl => exact Nat.le_refl _
  | tail _ hs ih => have := interleaved_hb hs; omega

theorem interleaved_prop {imp : Pairs} {a b : Node} (h : (interleaved m0 L).Propagates imp (readFrom m0 L) a b) :
    (interleaved m0 L).rank a < (interleaved m0 L).rank b := by
  obtain ⟨_, _, c, d, hc, ⟨ht, hp, _, ob, _, hob, _⟩, hd⟩ := h
  have h1 : (interleaved m0 L).rank a ≤ (interleaved m0 L).rank c := by
    rcases hc with rfl | h
    · exact Nat.le_refl _
    · exact Nat.le_of_lt (interleaved_hb (imp := imp) (.inr (.inl h)))
  have h2 := rank_pos (m0 := m0) ht hp hob.1
  have h3 := interleaved_star hd
  omega

theorem plus_lt {R : Node → Node → Prop} {f : Node → Nat} (h : ∀ a b, R a b → f a < f b) {a b : Node} (hp : Plus R a b) : f a < f b := by
  induction hp with
  | one hs => exact h _ _ hs
  | tail _ hs ih => exact Nat.lt_trans ih (h _ _ hs)

/-- Interleaved executions satisfy the axioms of C44 without multi-copy atomicity. -/
theorem interleaved_ra {imp : Pairs} (hm : OneMemory m0 L) (hres : Reserved L) : RAExec imp (interleaved m0 L) (readFrom m0 L) where
  toCohExec := interleaved_coh hm hres
  thinAir n h := Nat.lt_irrefl _ (plus_lt (f := (interleaved m0 L).rank) (fun _ _ h => interleaved_hb h) h)
  observation a b c o o' x ha hb _ hold hp hs := by
    obtain ⟨w, h1, h2⟩ := readFrom_newest hm hb.1 hb.2.1 (Wr.writesByte ha) (Nat.lt_of_lt_of_le (interleaved_prop hp) (interleaved_star hs))
    have := hold w h1
    omega
  propagation n h := by
    refine Nat.lt_irrefl _ (plus_lt (f := (interleaved m0 L).rank) ?_ h)
    rintro a b (⟨_, _, _, _, _, h⟩ | h)
    · exact h
    · exact interleaved_prop h

theorem interleaved_com (hm : OneMemory m0 L) {a b : Node} (h : (interleaved m0 L).Com (readFrom m0 L) a b) :
    (interleaved m0 L).rank a < (interleaved m0 L).rank b := by
  obtain ⟨o, o', x, ⟨_, _, hrf⟩ | ⟨_, _, h⟩ | ⟨hr, hw, hold⟩⟩ := h
  · exact (readFrom_some hrf).2.1
  · exact h
  · rcases Nat.lt_trichotomy ((interleaved m0 L).rank a) ((interleaved m0 L).rank b) with hlt | heq | hgt
    · exact hlt
    · have := rank_inj hr.1 hw.1 heq
      subst this
      have := hr.2.1.symm.trans hw.2.1
      cases this
    · obtain ⟨w, g1, g2⟩ := readFrom_newest hm hr.1 hr.2.1 (Wr.writesByte hw) hgt
      have := hold w g1
      omega

/-- Interleaved executions satisfy the axioms of C41 without multi-copy atomicity. -/
theorem interleaved_nm (hm : OneMemory m0 L) (hres : Reserved L) : NMExec (interleaved m0 L) (readFrom m0 L) where
  toCohExec := interleaved_coh hm hres
  propagation n h := by
    refine Nat.lt_irrefl _ (plus_lt (f := (interleaved m0 L).rank) ?_ h)
    rintro a b ⟨c, hc, ht, hp, oa, ob, ha, hob, hf⟩
    have h2 := rank_pos (m0 := m0) ht hp hob.1
    have h1 : (interleaved m0 L).rank a ≤ (interleaved m0 L).rank c := by
      clear h2 hob ht hp hf ha
      induction hc with
      | refl => exact Nat.le_refl _
      | tail _ hs ih => exact Nat.le_trans ih (Nat.le_of_lt (interleaved_com hm hs))
    omega
end

end Verif
