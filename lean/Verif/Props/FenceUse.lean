/-
Consequences of C54: store buffering and independent reads of independent writes, with operations of any orderings and SeqCst fences.
-/
import Verif.Props.FenceSC
import Verif.Props.NonMCALitmus
import Verif.Lin.Litmus

namespace Verif

/-- Store buffering with fences: thread 0 stores 1 to `x` and then loads `y`, thread 1 stores 1 to `y` and then loads `x`, both with a
`fence(SeqCst)` in between and any orderings. Then not both loads return 0. -/
theorem Backend.FencesSC.sb {W : Nat} {A : Backend W} {P : Call → Prop} (h : A.FencesSC P)
    {X : AxShape W} {items : Nat → List (Item W)} (hX : AxExec A.imp X) (hpo : ∀ t, X.po t = (items t).flatMap Item.code)
    {d0 e0 d1 e1 : Done W} {f0 f1 : Own W} {p0 p1 : Pairs}
    (i0 : items 0 = [.op d0, .other f0, .op e0]) (i1 : items 1 = [.op d1, .other f1, .op e1]) (hN : ∀ t, 2 ≤ t → items t = [])
    (hf0 : f0.ev = .fence p0 ∧ ∀ k k', p0.keeps k k' = true) (hf1 : f1.ev = .fence p1 ∧ ∀ k k', p1.keeps k k' = true)
    (hok : ∀ d ∈ [d0, e0, d1, e1], d.OK A ∧ P d.call)
    {w x y : Nat} {so so' o o' : Ordering} {r0 r1 : BitVec w} (hw : w % 8 = 0) (hw0 : w ≠ 0) (hxy : x + w / 8 ≤ y ∨ y + w / 8 ≤ x)
    (c0 : d0.call = .store so w x 1) (c1 : d1.call = .store so' w y 1)
    (c2 : e0.call = .load o w y ∧ e0.ret = .bits w r0) (c3 : e1.call = .load o' w x ∧ e1.ret = .bits w r1) :
    ¬ (r0 = 0#w ∧ r1 = 0#w) := by
  have hit : ∀ {t it}, it ∈ items t → (t = 0 ∧ (it = .op d0 ∨ it = .other f0 ∨ it = .op e0)) ∨ (t = 1 ∧ (it = .op d1 ∨ it = .other f1 ∨ it = .op e1)) := by
    intro t it hm
    rcases (by omega : t = 0 ∨ t = 1 ∨ 2 ≤ t) with rfl | rfl | ht
    · rw [i0] at hm; left; simpa using hm
    · rw [i1] at hm; right; simpa using hm
    · rw [hN t ht] at hm; cases hm
  have three : ∀ {t k k' : Nat} {a b : Done W} {f : Own W} {d d' : Done W}, items t = [.op a, .other f, .op b] → k < k' →
      (items t)[k]? = some (.op d) → (items t)[k']? = some (.op d') → k < 1 ∧ 1 < k' := by
    intro t k k' a b f d d' he hk g g'
    rw [he] at g g'
    match k, k', hk with
    | 0, 1, _ => cases g'
    | 0, k' + 2, _ => omega
    | 1, _, _ => cases g
    | k + 2, k' + 3, _ => cases g'
  obtain ⟨seq, m, hl, ht, _⟩ := h X 2 items hX hN hpo
    (fun t d hm => by
      rcases hit hm with ⟨_, h | h | h⟩ | ⟨_, h | h | h⟩ <;> cases h <;> exact hok _ (by simp))
    (fun t k k' d d' hk g g' => by
      have ht : t < 2 := Nat.lt_of_not_le fun h2 => by rw [hN t h2] at g; cases g
      rcases (by omega : t = 0 ∨ t = 1) with rfl | rfl
      · obtain ⟨k1, k2⟩ := three i0 hk g g'
        exact .inr ⟨1, k1, k2, fun kd kd' => .inr ⟨f0, p0, by rw [i0]; rfl, hf0.1, hf0.2 kd kd'⟩⟩
      · obtain ⟨k1, k2⟩ := three i1 hk g g'
        exact .inr ⟨1, k1, k2, fun kd kd' => .inr ⟨f1, p1, by rw [i1]; rfl, hf1.1, hf1.2 kd kd'⟩⟩)
    (fun t o t' d o' x ho _ _ hw => by
      rcases hit ho with ⟨_, h | h | h⟩ | ⟨_, h | h | h⟩ <;> cases h
      · have := hw.1; rw [hf0.1] at this; cases this
      · have := hw.1; rw [hf1.1] at this; cases this)
  -- the orderings do not matter for a sequence
  have u0 : d0.ret = .unit := by unfold Done.ret; generalize d0.B = B; generalize d0.rs = rs; generalize d0.call = c at c0 B; subst c0; rfl
  have u1 : d1.ret = .unit := by unfold Done.ret; generalize d1.B = B; generalize d1.rs = rs; generalize d1.call = c at c1 B; subst c1; rfl
  let g : Call → Call := fun c => match c with
    | .store _ w a v => .store .relaxed w a v
    | .load _ w a => .load .relaxed w a
    | c => c
  let G : Nat × Call × Ret → Nat × Call × Ret := fun z => (z.1, g z.2.1, z.2.2)
  have hl' : ∀ l m m', Legal A.e m l m' → Legal A.e m (l.map G) m' := by
    intro l
    induction l with
    | nil => exact fun _ _ h => h
    | cons z l ih =>
      rintro m m' ⟨m1, h1, h2⟩
      refine ⟨m1, ?_, ih _ _ h2⟩
      show (g z.2.1).Sem A.e m m1 z.2.2
      cases hz : z.2.1 <;> rw [hz] at h1 <;> exact h1
  have hth : ∀ i l, ofThread i (l.map G) = (ofThread i l).map G := by
    intro i l
    induction l with
    | nil => rfl
    | cons z l ih =>
      unfold ofThread at ih ⊢
      by_cases hz : z.1 = i
      · have : (G z).1 = i := hz
        simp [hz, this, ih]
      · have : (G z).1 ≠ i := hz
        simp [hz, this, ih]
  refine legal_sb (so := .relaxed) (o := .relaxed) hw hw0 hxy (hl' _ _ _ hl) ?_ ?_ fun i hi => ?_
  · rw [hth, ht, i0]
    simp [opsOf, G, g, c0, c2.1, c2.2, u0]
  · rw [hth, ht, i1]
    simp [opsOf, G, g, c1, c3.1, c3.2, u1]
  · rw [hth, ht, hN i hi]; rfl

/-- Independent reads of independent writes with fences between the loads, without multi-copy atomicity: thread 0 stores 1 to `x`, thread 1 stores 1 to `y`, thread
2 loads 1 from `x` and then loads `y`, thread 3 loads 1 from `y` and then loads `x`, with a full barrier between their loads and any (the same) orderings.
Then at least one of the second loads returns 1. -/
theorem Backend.FencesSCOnNonMCA.iriw {W : Nat} {A : Backend W} {P : Call → Prop} (h : A.FencesSCOnNonMCA P)
    {X : AxShape W} {rf : Node → Nat → Option Node} {items : Nat → List (Item W)} (hX : NMExec X rf)
    (hN : ∀ t, 4 ≤ t → items t = []) (hpo : ∀ t, X.po t = (items t).flatMap Item.code)
    {d0 d1 d2 e2 d3 e3 : Done W} {f2 f3 : Own W} {p2 p3 : Pairs}
    (i0 : items 0 = [.op d0]) (i1 : items 1 = [.op d1]) (i2 : items 2 = [.op d2, .other f2, .op e2]) (i3 : items 3 = [.op d3, .other f3, .op e3])
    (hf2 : f2.ev = .fence p2 ∧ p2.wr = true) (hf3 : f3.ev = .fence p3 ∧ p3.wr = true)
    (hok : ∀ d ∈ [d0, d1, d2, e2, d3, e3], d.OK A ∧ P d.call)
    {w x y : Nat} {so o : Ordering} {r s : BitVec w} (hw : IsSize w) (hx : x % (w / 8) = 0) (hy : y % (w / 8) = 0)
    (hxy : x + w / 8 ≤ y ∨ y + w / 8 ≤ x)
    (c0 : d0.call = .store so w x 1 ∧ d0.ret = .unit) (c1 : d1.call = .store so w y 1 ∧ d1.ret = .unit)
    (c2 : d2.call = .load o w x ∧ d2.ret = .bits w 1) (c2' : e2.call = .load o w y ∧ e2.ret = .bits w r)
    (c3 : d3.call = .load o w y ∧ d3.ret = .bits w 1) (c3' : e3.call = .load o w x ∧ e3.ret = .bits w s) : r = 1 ∨ s = 1 := by
  have hit : ∀ {t it}, it ∈ items t → it = .op d0 ∨ it = .op d1 ∨ it = .op d2 ∨ it = .op e2 ∨ it = .op d3 ∨ it = .op e3 ∨ it = .other f2 ∨ it = .other f3 := by
    intro t it hm
    rcases (by omega : t = 0 ∨ t = 1 ∨ t = 2 ∨ t = 3 ∨ 4 ≤ t) with rfl | rfl | rfl | rfl | ht
    · rw [i0] at hm; simp at hm; simp [hm]
    · rw [i1] at hm; simp at hm; simp [hm]
    · rw [i2] at hm; simp at hm; rcases hm with h | h | h <;> simp [h]
    · rw [i3] at hm; simp at hm; rcases hm with h | h | h <;> simp [h]
    · rw [hN t ht] at hm; cases hm
  have on : ∀ {t d}, Item.op d ∈ items t → (d.OK A ∧ P d.call) ∧ (d.call.On w x ∨ d.call.On w y) := by
    intro t d hd
    rcases hit hd with h | h | h | h | h | h | h | h <;> cases h <;> refine ⟨hok _ (by simp), ?_⟩
    · rw [c0.1]; exact .inl ⟨rfl, rfl⟩
    · rw [c1.1]; exact .inr ⟨rfl, rfl⟩
    · rw [c2.1]; exact .inl ⟨rfl, rfl⟩
    · rw [c2'.1]; exact .inr ⟨rfl, rfl⟩
    · rw [c3.1]; exact .inr ⟨rfl, rfl⟩
    · rw [c3'.1]; exact .inl ⟨rfl, rfl⟩
  have three : ∀ {t k k' : Nat} {a b : Done W} {f : Own W} {d d' : Done W}, items t = [.op a, .other f, .op b] → k < k' →
      (items t)[k]? = some (.op d) → (items t)[k']? = some (.op d') → k < 1 ∧ 1 < k' := by
    intro t k k' a b f d d' he hk g g'
    rw [he] at g g'
    match k, k', hk with
    | 0, 1, _ => cases g'
    | 0, k' + 2, _ => omega
    | 1, _, _ => cases g
    | k + 2, k' + 3, _ => cases g'
  obtain ⟨seq, m, hl, ht, _⟩ := h X rf 4 items hX hN hpo
    (fun t d hd => by
      obtain ⟨h1, ⟨g1, g2⟩ | ⟨g1, g2⟩⟩ := on hd <;> rw [g1, g2]
      · exact ⟨h1.1, h1.2, hw, hx⟩
      · exact ⟨h1.1, h1.2, hw, hy⟩)
    (fun t k k' d d' hk g g' => by
      rcases (by omega : t = 0 ∨ t = 1 ∨ t = 2 ∨ t = 3 ∨ 4 ≤ t) with rfl | rfl | rfl | rfl | ht
      · rw [i0] at g'
        match k', hk with
        | k' + 1, _ => cases g'
      · rw [i1] at g'
        match k', hk with
        | k' + 1, _ => cases g'
      · obtain ⟨k1, k2⟩ := three i2 hk g g'
        exact .inr ⟨1, f2, p2, k1, k2, by rw [i2]; rfl, hf2.1, hf2.2⟩
      · obtain ⟨k1, k2⟩ := three i3 hk g g'
        exact .inr ⟨1, f3, p3, k1, k2, by rw [i3]; rfl, hf3.1, hf3.2⟩
      · rw [hN t ht] at g; cases g)
    (fun t d t' d' hd hd' => by
      unfold Call.SameOrApart Call.On Call.Off
      rcases (on hd).2 with ⟨g1, g2⟩ | ⟨g1, g2⟩ <;> rcases (on hd').2 with ⟨g3, g4⟩ | ⟨g3, g4⟩ <;> rw [g1, g2, g3, g4]
      · exact .inl ⟨rfl, rfl⟩
      · right; omega
      · right; omega
      · exact .inl ⟨rfl, rfl⟩)
    (fun t o t' d b ho hd _ _ hwr => by
      rcases hit ho with h | h | h | h | h | h | h | h <;> cases h
      · have := hwr.1; rw [hf2.1] at this; cases this
      · have := hwr.1; rw [hf3.1] at this; cases this)
  exact legal_iriw (so := so) (o := o) (isSize_mod hw).1 hxy hl (by rw [ht, i0]; simp [opsOf, c0.1, c0.2]) (by rw [ht, i1]; simp [opsOf, c1.1, c1.2])
    (by rw [ht, i2]; simp [opsOf, c2.1, c2.2, c2'.1, c2'.2]) (by rw [ht, i3]; simp [opsOf, c3.1, c3.2, c3'.1, c3'.2]) fun i hi => by rw [ht, hN i hi]; rfl

end Verif
