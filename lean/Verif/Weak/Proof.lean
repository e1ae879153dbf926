/-
The monitor of `Spec.lean` is right: what it accepts is ordered in the sense of `Weak/Spec.lean`.
-/
import Verif.Weak.Spec

namespace Verif

/-- the monitor on a list of events -/
def monEvs (L : List Ev) : Mon := L.foldl Mon.onEv {}

theorem monOf_ownEvs (tr : List TEv) : monOf tr = monEvs (ownEvs tr) := by
  unfold monOf monEvs
  generalize ({} : Mon) = M
  induction tr generalizing M with
  | nil => rfl
  | cons x t ih =>
    cases x with
    | own ev m m' => simpa [ownEvs, Mon.onTEv] using ih _
    | env m m' => simpa [ownEvs, Mon.onTEv] using ih _

theorem monEvs_snoc (L : List Ev) (ev : Ev) : monEvs (L ++ [ev]) = (monEvs L).onEv ev := by
  simp [monEvs]

/-- a component of `Pairs` -/
structure IsSel (sel : Pairs → Bool) : Prop where
  none : sel Pairs.none = false
  union : ∀ a b, sel (a.union b) = (sel a || sel b)

theorem isSel_keeps (k k' : AKind) : IsSel (·.keeps k k') := by
  constructor
  · cases k <;> cases k' <;> rfl
  · intro a b; cases k <;> cases k' <;> rfl
theorem isSel_lr : IsSel (·.lr) := ⟨rfl, fun _ _ => rfl⟩

/-- What the monitor knows about the last access of kind `k`. -/
structure LInfo (L : List Ev) (k : AKind) (o : Option Acc) (bef aft : Pairs) : Prop where
  isNone : o = none → ∀ i, ¬ Access L i k
  isSome : ∀ a, o = some a → ∃ i ev, L[i]? = some ev ∧ ev.acc = a ∧ LastAccess L k i ∧
    ∀ sel, IsSel sel → (sel bef = true → ∃ n p, n < i ∧ L[n]? = some (.fence p) ∧ sel p = true) ∧
      (sel aft = true → ∃ n p, i < n ∧ L[n]? = some (.fence p) ∧ sel p = true)

theorem access_append_left {L : List Ev} (M : List Ev) {i k} (h : Access L i k) : Access (L ++ M) i k := by
  obtain ⟨ev, h1, h2⟩ := h
  have := (List.getElem?_eq_some_iff.1 h1).1
  exact ⟨ev, by rw [List.getElem?_append_left this]; exact h1, h2⟩

theorem get_append_left {L : List Ev} (M : List Ev) {i : Nat} {ev : Ev} (h : L[i]? = some ev) : (L ++ M)[i]? = some ev := by
  have := (List.getElem?_eq_some_iff.1 h).1
  rw [List.getElem?_append_left this]; exact h

theorem get_append_right {M : List Ev} (L : List Ev) {i : Nat} {ev : Ev} (h : M[i]? = some ev) :
    (L ++ M)[L.length + i]? = some ev := by
  rw [List.getElem?_append_right (by omega), Nat.add_sub_cancel_left]; exact h

theorem access_append_right {M : List Ev} (L : List Ev) {i k} (h : Access M i k) :
    Access (L ++ M) (L.length + i) k := by
  obtain ⟨ev, h1, h2⟩ := h
  exact ⟨ev, get_append_right L h1, h2⟩

theorem access_lt {L : List Ev} {i k} (h : Access L i k) : i < L.length := by
  obtain ⟨ev, h1, h2⟩ := h
  exact (List.getElem?_eq_some_iff.1 h1).1

theorem access_snoc {L : List Ev} {ev : Ev} {i k} (h : Access (L ++ [ev]) i k) :
    Access L i k ∨ (i = L.length ∧ ev.has k) := by
  obtain ⟨x, h1, h2⟩ := h
  by_cases hi : i < L.length
  · rw [List.getElem?_append_left hi] at h1; exact .inl ⟨x, h1, h2⟩
  · rw [List.getElem?_append_right (by omega)] at h1
    have hlt := (List.getElem?_eq_some_iff.1 h1).1
    simp at hlt
    have : i - L.length = 0 := by omega
    rw [this] at h1
    simp at h1
    subst h1
    exact .inr ⟨by omega, h2⟩

theorem LInfo.skip {L k o b a} (h : LInfo L k o b a) (ev : Ev) (he : ¬ ev.has k) : LInfo (L ++ [ev]) k o b a := by
  constructor
  · intro ho i hi
    rcases access_snoc hi with h' | h'
    · exact h.isNone ho i h'
    · exact he h'.2
  · intro acc ho
    obtain ⟨i, x, h1, h2, h3, h4⟩ := h.isSome acc ho
    refine ⟨i, x, get_append_left _ h1, h2, ⟨access_append_left _ h3.1, ?_⟩, ?_⟩
    · intro j hj hA
      rcases access_snoc hA with h' | h'
      · exact h3.2 j hj h'
      · exact he h'.2
    · intro sel hs
      constructor
      · intro hb
        obtain ⟨n, p, g1, g2, g3⟩ := (h4 sel hs).1 hb
        exact ⟨n, p, g1, get_append_left _ g2, g3⟩
      · intro hb
        obtain ⟨n, p, g1, g2, g3⟩ := (h4 sel hs).2 hb
        exact ⟨n, p, g1, get_append_left _ g2, g3⟩

theorem LInfo.fence {L k o b a} (h : LInfo L k o b a) (p : Pairs) : LInfo (L ++ [.fence p]) k o b (a.union p) := by
  have h' := h.skip (.fence p) (by simp [Ev.has])
  refine ⟨h'.isNone, ?_⟩
  intro acc ho
  obtain ⟨i, x, h1, h2, h3, h4⟩ := h'.isSome acc ho
  refine ⟨i, x, h1, h2, h3, fun sel hs => ⟨(h4 sel hs).1, fun hb => ?_⟩⟩
  rw [hs.union] at hb
  rcases Bool.or_eq_true _ _ ▸ hb with hb | hb
  · exact (h4 sel hs).2 hb
  · refine ⟨L.length, p, ?_, by simp, hb⟩
    rcases access_snoc h3.1 with g | g
    · exact access_lt g
    · exact absurd g.2 (by simp [Ev.has])

theorem LInfo.hit (L : List Ev) (k : AKind) (ev : Ev) (he : ev.has k) (bef : Pairs)
    (hb : ∀ sel, IsSel sel → sel bef = true → ∃ (n : Nat) (p : Pairs), L[n]? = some (.fence p) ∧ sel p = true) :
    LInfo (L ++ [ev]) k (some ev.acc) bef Pairs.none := by
  constructor
  · intro h; cases h
  · intro acc ho
    injection ho with ho
    have hg : (L ++ [ev])[L.length]? = some ev := by simp
    refine ⟨L.length, ev, hg, ho, ⟨⟨ev, hg, he⟩, ?_⟩, ?_⟩
    · intro j hj hA
      have := access_lt hA
      simp at this
      omega
    · intro sel hs
      constructor
      · intro h
        obtain ⟨n, p, g1, g2⟩ := hb sel hs h
        exact ⟨n, p, (List.getElem?_eq_some_iff.1 g1).1, get_append_left _ g1, g2⟩
      · intro h; rw [hs.none] at h; cases h

/-- The monitor's invariant. -/
structure MonInv (L : List Ev) (M : Mon) : Prop where
  before : ∀ sel, IsSel sel → sel M.before = true → ∃ (n : Nat) (p : Pairs), L[n]? = some (.fence p) ∧ sel p = true
  rd : LInfo L .rd M.rd M.rdBefore M.rdAfter
  wr : LInfo L .wr M.wr M.wrBefore M.wrAfter

theorem MonInv.keep {L M} (h : MonInv L M) (ev : Ev) : ∀ sel, IsSel sel → sel M.before = true →
    ∃ (n : Nat) (p : Pairs), (L ++ [ev])[n]? = some (.fence p) ∧ sel p = true := by
  intro sel hs hb
  obtain ⟨n, p, h1, h2⟩ := h.before sel hs hb
  exact ⟨n, p, get_append_left _ h1, h2⟩

theorem monInv_step {L M} (h : MonInv L M) (ev : Ev) : MonInv (L ++ [ev]) (M.onEv ev) := by
  cases ev with
  | tau => exact ⟨h.keep _, h.rd.skip _ (by simp [Ev.has]), h.wr.skip _ (by simp [Ev.has])⟩
  | fence p =>
    refine ⟨?_, h.rd.fence p, h.wr.fence p⟩
    intro sel hs hb
    have hb : sel (M.before.union p) = true := hb
    rw [hs.union] at hb
    rcases Bool.or_eq_true _ _ ▸ hb with hb | hb
    · exact h.keep _ sel hs hb
    · exact ⟨L.length, p, by simp, hb⟩
  | rd a => exact ⟨h.keep _, .hit L .rd (.rd a) trivial _ h.before, h.wr.skip _ (by simp [Ev.has])⟩
  | wr a => exact ⟨h.keep _, h.rd.skip _ (by simp [Ev.has]), .hit L .wr (.wr a) trivial _ h.before⟩
  | rmw a => exact ⟨h.keep _, .hit L .rd (.rmw a) trivial _ h.before, .hit L .wr (.rmw a) trivial _ h.before⟩

theorem monInv (L : List Ev) : MonInv L (monEvs L) := by
  suffices ∀ L' : List Ev, MonInv L'.reverse (monEvs L'.reverse) by simpa using this L.reverse
  intro L'
  induction L' with
  | nil =>
    refine ⟨?_, ⟨?_, ?_⟩, ⟨?_, ?_⟩⟩
    · intro sel hs h
      have h : sel Pairs.none = true := h
      rw [hs.none] at h; cases h
    · rintro _ i ⟨ev, h, _⟩; simp at h
    · intro a h; cases h
    · rintro _ i ⟨ev, h, _⟩; simp at h
    · intro a h; cases h
  | cons ev t ih => rw [List.reverse_cons, monEvs_snoc]; exact monInv_step ih ev

theorem LastAccess.unique {L k i j} (hi : LastAccess L k i) (hj : LastAccess L k j) : i = j := by
  rcases Nat.lt_trichotomy i j with h | h | h
  · exact absurd hj.1 (hi.2 j h)
  · exact h
  · exact absurd hi.1 (hj.2 i h)

/-- What `Acquires` accepts is ordered before every later access. -/
theorem acquires_ppo {imp : Pairs} {tr : List TEv} (h : Acquires imp (monOf tr) = true) :
    ReadsFirst imp tr := by
  unfold ReadsFirst
  rw [monOf_ownEvs] at h
  have inv := monInv (ownEvs tr)
  generalize ownEvs tr = L at *
  generalize monEvs L = M at *
  unfold Acquires at h
  split at h
  case h_2 => cases h
  case h_1 a ha =>
    obtain ⟨i, ev, h1, h2, h3, h4⟩ := inv.rd.isSome a ha
    refine ⟨i, h3, ?_⟩
    rintro pre post y k ⟨z, hz, hk⟩
    have hil := (List.getElem?_eq_some_iff.1 h1).1
    have hz' : (pre ++ L ++ post)[(pre ++ L).length + y]? = some z := get_append_right _ hz
    have hx : (pre ++ L ++ post)[pre.length + i]? = some ev := get_append_left _ (get_append_right _ h1)
    have hhas : ev.has .rd := by
      obtain ⟨ev', g1, g2⟩ := h3.1
      rw [h1] at g1; injection g1 with g1; rw [g1]; exact g2
    refine ⟨by rw [List.length_append]; omega, ev, z, hx, hz', hhas, hk, ?_⟩
    simp only [Bool.or_eq_true, Bool.and_eq_true] at h
    rcases h with (h | h) | ⟨g1, g2⟩
    · exact .inr (.inr (.inr (.inr (.inl ⟨rfl, by rw [h2]; exact h⟩))))
    · exact .inr (.inr (.inl (by rw [h2]; exact h)))
    · have : imp.keeps .rd k = true ∨ M.rdAfter.keeps .rd k = true := by cases k <;> assumption
      rcases this with g | g
      · exact .inl g
      · obtain ⟨n, p, e1, e2, e3⟩ := (h4 _ (isSel_keeps .rd k)).2 g
        have hn := (List.getElem?_eq_some_iff.1 e2).1
        exact .inr (.inl ⟨pre.length + n, p, by omega, by rw [List.length_append]; omega,
          get_append_left _ (get_append_right _ e2), e3⟩)

/-- What `Releases` accepts is ordered after every earlier access. -/
theorem releases_ppo {imp : Pairs} {tr : List TEv} (h : Releases imp (monOf tr) = true) :
    WritesLast imp tr := by
  unfold WritesLast
  rw [monOf_ownEvs] at h
  have inv := monInv (ownEvs tr)
  generalize ownEvs tr = L at *
  generalize monEvs L = M at *
  unfold Releases at h
  split at h
  case h_2 => cases h
  case h_1 a ha =>
    obtain ⟨i, ev, h1, h2, h3, h4⟩ := inv.wr.isSome a ha
    refine ⟨i, h3, ?_⟩
    rintro pre post x k ⟨z, hz, hk⟩
    have hzl := (List.getElem?_eq_some_iff.1 hz).1
    have hx : (pre ++ L ++ post)[pre.length + i]? = some ev := get_append_left _ (get_append_right _ h1)
    have hz' : (pre ++ L ++ post)[x]? = some z := get_append_left _ (get_append_left _ hz)
    have hhas : ev.has .wr := by
      obtain ⟨ev', g1, g2⟩ := h3.1
      rw [h1] at g1; injection g1 with g1; rw [g1]; exact g2
    refine ⟨by omega, z, ev, hz', hx, hk, hhas, ?_⟩
    simp only [Bool.or_eq_true, Bool.and_eq_true] at h
    rcases h with (h | h) | ⟨g1, g2⟩
    · exact .inr (.inr (.inr (.inr (.inr (.inl ⟨rfl, by rw [h2]; exact h⟩)))))
    · exact .inr (.inr (.inr (.inl (by rw [h2]; exact h))))
    · have : imp.keeps k .wr = true ∨ M.wrBefore.keeps k .wr = true := by cases k <;> assumption
      rcases this with g | g
      · exact .inl g
      · obtain ⟨n, p, e1, e2, e3⟩ := (h4 _ (isSel_keeps k .wr)).1 g
        exact .inr (.inl ⟨pre.length + n, p, by omega, by omega,
          get_append_left _ (get_append_right _ e2), e3⟩)

/-- What `Ordered` accepts is in order. -/
theorem ordered_ppo {imp : Pairs} {trA trB : List TEv} (h : Ordered imp (monOf trA) (monOf trB) = true)
    (pre mid post : List Ev) {k k' : AKind} {n n' : Nat} (hA : LastAccess (ownEvs trA) k n)
    (hB : LastAccess (ownEvs trB) k' n') :
    Ppo imp (pre ++ ownEvs trA ++ mid ++ ownEvs trB ++ post) (pre.length + n) k
      ((pre ++ ownEvs trA ++ mid).length + n') k' := by
  rw [monOf_ownEvs, monOf_ownEvs] at h
  have invA := monInv (ownEvs trA)
  have invB := monInv (ownEvs trB)
  generalize ownEvs trA = LA at *
  generalize ownEvs trB = LB at *
  generalize monEvs LA = A at *
  generalize monEvs LB = B at *
  -- both kinds of access of one operation
  have key : ∀ (L : List Ev) (M : Mon), MonInv L M → ∀ (k : AKind) (n : Nat), LastAccess L k n →
      ∃ ev bef aft, L[n]? = some ev ∧ ev.has k ∧
        (k = .rd → M.rd = some ev.acc ∧ M.rdBefore = bef ∧ M.rdAfter = aft) ∧
        (k = .wr → M.wr = some ev.acc ∧ M.wrBefore = bef ∧ M.wrAfter = aft) ∧
        ∀ sel, IsSel sel → (sel bef = true → ∃ m p, m < n ∧ L[m]? = some (.fence p) ∧ sel p = true) ∧
          (sel aft = true → ∃ m p, n < m ∧ L[m]? = some (.fence p) ∧ sel p = true) := by
    intro L M inv k n hn
    obtain ⟨ev, hev, hhas⟩ := hn.1
    cases k with
    | rd =>
      cases hr : M.rd with
      | none => exact absurd hn.1 (inv.rd.isNone hr n)
      | some a =>
        obtain ⟨i, ev', h1, h2, h3, h4⟩ := inv.rd.isSome a hr
        have hi := h3.unique hn; subst hi
        rw [h1] at hev; injection hev with hev; subst hev
        exact ⟨ev', _, _, h1, hhas, fun _ => ⟨by rw [h2], rfl, rfl⟩, (by intro h; cases h), h4⟩
    | wr =>
      cases hr : M.wr with
      | none => exact absurd hn.1 (inv.wr.isNone hr n)
      | some a =>
        obtain ⟨i, ev', h1, h2, h3, h4⟩ := inv.wr.isSome a hr
        have hi := h3.unique hn; subst hi
        rw [h1] at hev; injection hev with hev; subst hev
        exact ⟨ev', _, _, h1, hhas, (by intro h; cases h), fun _ => ⟨by rw [h2], rfl, rfl⟩, h4⟩
  obtain ⟨x, bA, aA, x1, x2, x3, x4, x5⟩ := key LA A invA k n hA
  obtain ⟨y, bB, aB, y1, y2, y3, y4, y5⟩ := key LB B invB k' n' hB
  have hnl := (List.getElem?_eq_some_iff.1 x1).1
  have gx : (pre ++ LA ++ mid ++ LB ++ post)[pre.length + n]? = some x :=
    get_append_left _ (get_append_left _ (get_append_left _ (get_append_right _ x1)))
  have gy : (pre ++ LA ++ mid ++ LB ++ post)[(pre ++ LA ++ mid).length + n']? = some y :=
    get_append_left _ (get_append_right _ y1)
  have hlt : pre.length + n < (pre ++ LA ++ mid).length + n' := by
    simp only [List.length_append]; omega
  refine ⟨hlt, x, y, gx, gy, x2, y2, ?_⟩
  have fA : ∀ sel, IsSel sel → sel aA = true → ∃ m p, pre.length + n < m ∧ m < (pre ++ LA ++ mid).length + n' ∧
      (pre ++ LA ++ mid ++ LB ++ post)[m]? = some (.fence p) ∧ sel p = true := by
    intro sel hs ha
    obtain ⟨m, p, e1, e2, e3⟩ := (x5 sel hs).2 ha
    have hm := (List.getElem?_eq_some_iff.1 e2).1
    exact ⟨pre.length + m, p, by omega, by simp only [List.length_append]; omega,
      get_append_left _ (get_append_left _ (get_append_left _ (get_append_right _ e2))), e3⟩
  have fB : ∀ sel, IsSel sel → sel bB = true → ∃ m p, pre.length + n < m ∧ m < (pre ++ LA ++ mid).length + n' ∧
      (pre ++ LA ++ mid ++ LB ++ post)[m]? = some (.fence p) ∧ sel p = true := by
    intro sel hs ha
    obtain ⟨m, p, e1, e2, e3⟩ := (y5 sel hs).1 ha
    exact ⟨(pre ++ LA ++ mid).length + m, p, by simp only [List.length_append]; omega, by omega,
      get_append_left _ (get_append_right _ e2), e3⟩
  unfold Ordered at h
  simp only [Bool.and_eq_true] at h
  obtain ⟨⟨⟨h1, h2⟩, h3⟩, h4⟩ := h
  cases k <;> cases k'
  · obtain ⟨ra, rb, rc⟩ := x3 rfl
    obtain ⟨sa, sb, sc⟩ := y3 rfl
    rw [ra, sa, rc, sb] at h1
    simp only [Bool.or_eq_true] at h1
    rcases h1 with ((((h | h) | h) | h) | h) | h
    · exact .inl h
    · exact .inr (.inl (fA _ (isSel_keeps .rd .rd) h))
    · exact .inr (.inl (fB _ (isSel_keeps .rd .rd) h))
    · exact .inr (.inr (.inr (.inr (.inl ⟨rfl, h⟩))))
    · exact .inr (.inr (.inl h))
    · exact .inr (.inr (.inr (.inl h)))
  · obtain ⟨ra, rb, rc⟩ := x3 rfl
    obtain ⟨sa, sb, sc⟩ := y4 rfl
    rw [ra, sa, rc, sb] at h2
    simp only [Bool.or_eq_true] at h2
    rcases h2 with (((((h | h) | h) | h) | h) | h) | h
    · exact .inl h
    · exact .inr (.inl (fA _ (isSel_keeps .rd .wr) h))
    · exact .inr (.inl (fB _ (isSel_keeps .rd .wr) h))
    · exact .inr (.inr (.inr (.inr (.inl ⟨rfl, h⟩))))
    · exact .inr (.inr (.inl h))
    · exact .inr (.inr (.inr (.inr (.inr (.inl ⟨rfl, h⟩)))))
    · exact .inr (.inr (.inr (.inl h)))
  · obtain ⟨ra, rb, rc⟩ := x4 rfl
    obtain ⟨sa, sb, sc⟩ := y3 rfl
    rw [ra, sa, rc, sb] at h3
    simp only [Bool.or_eq_true, Bool.and_eq_true] at h3
    rcases h3 with ((((h | h) | h) | h) | h) | h
    · exact .inl h
    · exact .inr (.inl (fA _ (isSel_keeps .wr .rd) h))
    · exact .inr (.inl (fB _ (isSel_keeps .wr .rd) h))
    · exact .inr (.inr (.inl h))
    · exact .inr (.inr (.inr (.inl h)))
    · refine .inr (.inr (.inr (.inr (.inr (.inr ⟨rfl, rfl, h.1.1, h.1.2, ?_⟩)))))
      rcases h.2 with g | g
      · exact .inl g
      · exact .inr (fB _ isSel_lr g)
  · obtain ⟨ra, rb, rc⟩ := x4 rfl
    obtain ⟨sa, sb, sc⟩ := y4 rfl
    rw [ra, sa, rc, sb] at h4
    simp only [Bool.or_eq_true] at h4
    rcases h4 with ((((h | h) | h) | h) | h) | h
    · exact .inl h
    · exact .inr (.inl (fA _ (isSel_keeps .wr .wr) h))
    · exact .inr (.inl (fB _ (isSel_keeps .wr .wr) h))
    · exact .inr (.inr (.inl h))
    · exact .inr (.inr (.inr (.inr (.inr (.inl ⟨rfl, h⟩)))))
    · exact .inr (.inr (.inr (.inl h)))

theorem ordered_inOrder {imp : Pairs} {trA trB : List TEv} (h : Ordered imp (monOf trA) (monOf trB) = true) :
    InOrder imp trA trB := fun pre mid post _ _ _ _ hA hB => ordered_ppo h pre mid post hA hB

theorem Backend.orderingsOK {W : Nat} {A : Backend W} (h13 : A.AcquireOK) (h14 : A.ReleaseOK) (h15 : A.SeqCstOK)
    (h16 : A.FailureOK) : A.OrderingsOK where
  acquire tr h := acquires_ppo (h13 tr h)
  release tr h := releases_ppo (h14 tr h)
  seqCst tr tr' h h' := ordered_inOrder (h15 tr tr' h h')
  failure tr h := by
    obtain ⟨h, ho, hr, hf⟩ := h
    exact acquires_ppo (h16 _ _ _ _ _ _ _ _ _ h ho hr hf)

theorem Backend.OrderingsOK.casTable {W : Nat} {A : Backend W} (h : A.OrderingsOK) : A.CasTableOK := by
  intro s f w a old new B tr rs hB hr
  refine ⟨fun hok => ⟨fun hs => ?_, fun hs => ?_, fun hs tr' h' => ?_⟩, fun hok => ⟨fun hf => ?_, fun hf tr' h' => ?_⟩⟩
  · exact h.acquire tr (.cas hB (by rcases hs with rfl | rfl | rfl <;> rfl) hr hok)
  · exact h.release tr (.cas hB (by rcases hs with rfl | rfl | rfl <;> rfl) hr hok)
  · subst hs
    exact ⟨h.seqCst _ _ (.casOk hB hr hok) h', h.seqCst _ _ h' (.casOk hB hr hok)⟩
  · exact h.failure tr (.intro hB (by rcases hf with rfl | rfl <;> rfl) hr hok)
  · subst hf
    exact ⟨h.seqCst _ _ (.casFail hB hr hok) h', h.seqCst _ _ h' (.casFail hB hr hok)⟩

/-- C30 follows from C13, C14 and C16. -/
theorem Backend.messagePassing {W : Nat} {A : Backend W} (h13 : A.AcquireOK) (h14 : A.ReleaseOK) (h16 : A.FailureOK) :
    A.MessagePassing := by
  intro X hX i j pre post pre' post' tR tA hij hR hA hi hj nw nr hnw hnr hrf x y k k' hx hy
  obtain ⟨n, h1, h2⟩ := releases_ppo (h14 tR hR)
  have hAq : Acquires A.imp (monOf tA) = true := by
    rcases hA with h | ⟨h, ho, hr, hf⟩
    · exact h13 tA h
    · exact h16 _ _ _ _ _ _ _ _ _ h ho hr hf
  obtain ⟨n', h1', h2'⟩ := acquires_ppo hAq
  have e1 := h1.unique hnw; subst e1
  have e2 := h1'.unique hnr; subst e2
  refine X.gmo_trans _ _ _ (X.gmo_ppo i _ _ _ _ ?_) (X.gmo_trans _ _ _ (X.rf_gmo _ _ hrf hij) (X.gmo_ppo j _ _ _ _ ?_))
  · rw [hi, hX]; exact h2 pre post x k hx
  · rw [hj, hX]; exact h2' pre' post' y k' hy

theorem Backend.messageSeen {W : Nat} {A : Backend W} (h : A.MessagePassing) : A.MessageSeen := by
  intro X hX i j pre post pre' post' tR tA hij hR hA hi hj nw nr hnw hnr hrf x y hx hy hloc
  have hg := h X.toWExec hX i j pre post pre' post' tR tA hij hR hA hi hj nw nr hnw hnr hrf x y .wr .rd hx hy
  have hxa : Access (X.po i) x .wr := by
    rw [hi]; exact access_append_left _ (access_append_left _ hx)
  have hya : Access (X.po j) ((pre' ++ ownEvs tA).length + y) .rd := by
    rw [hj]; exact access_append_right _ hy
  by_cases hn : ∀ w, ¬ X.rf w ⟨j, (pre' ++ ownEvs tA).length + y, .rd⟩
  · exact absurd hg (X.init_read _ hya rfl hn ⟨i, x, .wr⟩ hxa rfl hloc)
  · obtain ⟨w, hw⟩ := Classical.not_forall.1 hn
    have hw := Classical.not_not.1 hw
    refine ⟨w, hw, ?_⟩
    obtain ⟨hk, hl⟩ := X.rf_loc _ _ hw
    rcases X.gmo_total w ⟨i, x, .wr⟩ hk rfl (hl.trans hloc.symm) with h1 | h1 | h1
    · exact .inl h1
    · exact absurd h1 (X.rf_latest _ _ ⟨i, x, .wr⟩ hw hxa rfl hloc hg)
    · exact .inr h1

end Verif
