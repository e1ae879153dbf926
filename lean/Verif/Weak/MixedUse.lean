/-
C59: what it means for `get_mut`, `into_inner` and ordinary accesses through pointers.
-/
import Verif.Weak.MixedProof
import Verif.Weak.Conserve

namespace Verif
variable {W : Nat}

/-- The call does not change the object. -/
def Call.IsLoad : Call → Prop
  | .load .. => True
  | _ => False

theorem Legal.loads {e : Endian} : ∀ {l : List (Nat × Call × Ret)} {m m' : Mem}, Legal e m l m' → (∀ z ∈ l, z.2.1.IsLoad) → m' = m
  | [], _, _, h, _ => h.symm
  | (i, c, r) :: t, m, m', ⟨m1, h, h'⟩, hl => by
    have h1 : m' = m1 := h'.loads fun z hz => hl z (List.mem_cons_of_mem _ hz)
    have h2 := hl _ List.mem_cons_self
    cases c with
    | load o w a => obtain ⟨v, h3, _⟩ := h; rw [h1, h3.2]
    | _ => exact h2.elim

theorem pairwise_split {α : Type} {l : List α} {x y : α} {R : α → α → Prop} (hx : x ∈ l) (hy : y ∈ l) (hne : x ≠ y) (hp : l.Pairwise R)
    (h : ¬ R y x) : ∃ s t u, l = s ++ x :: (t ++ y :: u) ∧ ∀ z ∈ t, R x z ∧ R z y := by
  obtain ⟨s, t, rfl⟩ := List.append_of_mem hx
  rcases List.mem_append.1 hy with hy | hy
  · exact absurd ((List.pairwise_append.1 hp).2.2 y hy x List.mem_cons_self) h
  · rcases List.mem_cons.1 hy with hy | hy
    · exact absurd hy.symm hne
    · obtain ⟨t1, t2, rfl⟩ := List.append_of_mem hy
      refine ⟨s, t1, t2, rfl, fun z hz => ?_⟩
      obtain ⟨h1, h2⟩ := List.pairwise_cons.1 (List.pairwise_append.1 hp).2.1
      exact ⟨h1 z (by simp [hz]), (List.pairwise_append.1 h2).2.2 z hz y List.mem_cons_self⟩

section
variable {e : Endian} {X : AxShape W} {items : Nat → List (Item W)} {R : (i k j l : Nat) → Prop} {w a : Nat}

/-- What a load finds in the object, if a store happens before it and all else that may change the object happens before this store or
after this load: what was stored. Each of them can be an operation or an ordinary access. So ordinary code reads what the last `store` wrote
(`into_inner`, `get_mut`), and a `load` returns what ordinary code wrote (`get_mut`, `as_ptr`). -/
theorem C59_reads_store (hw : w % 8 = 0) (h : OneHistory e X items R w a) {t k t' k' : Nat} {it it' : Item W} {o o' : Ordering} {v u : BitVec w}
    (hit : (items t)[k]? = some it) (hst : it.Acts e w a (.store o w a v) .unit)
    (hit' : (items t')[k']? = some it') (hld : it'.Acts e w a (.load o' w a) (.bits w u))
    (hb : ItemBefore R t k t' k')
    (hall : ∀ t'' k'' it'' c r, (items t'')[k'']? = some it'' → it''.Acts e w a c r → (t'', k'') ≠ (t, k) →
      c.IsLoad ∨ ItemBefore R t'' k'' t k ∨ ItemBefore R t' k' t'' k'') : u = v := by
  obtain ⟨seq, m, h1, h2, h3, _⟩ := h
  obtain ⟨s, l, s', rfl, hl⟩ := pairwise_split ((h2 _ _ _ _).2 ⟨it, hit, hst⟩) ((h2 _ _ _ _).2 ⟨it', hit', hld⟩)
    (fun hc => by cases hc) h3 fun hc => hc.2 hb
  have hmid : ∀ z ∈ l, z.2.2.1.IsLoad := by
    rintro ⟨t'', k'', c, r⟩ hz
    obtain ⟨⟨g1, g2⟩, g3, g4⟩ := hl _ hz
    obtain ⟨it'', q1, q2⟩ := (h2 t'' k'' c r).1 (by simp [hz])
    rcases hall _ _ _ _ _ q1 q2 (fun hc => g1 (by cases hc; exact ⟨rfl, rfl⟩)) with hc | hc | hc
    · exact hc
    · exact absurd hc g2
    · exact absurd hc g4
  simp only [List.map_append, List.map_cons] at h1
  obtain ⟨m1, _, m2, ⟨g1, _⟩, h1⟩ := legal_append.1 h1
  obtain ⟨m3, g2, m4, ⟨x, ⟨g3, _⟩, g4⟩, _⟩ := legal_append.1 h1
  cases g4
  have : m3 = m2 := g2.loads fun z hz => by
    obtain ⟨y, hy, rfl⟩ := List.mem_map.1 hz
    exact hmid y hy
  rw [g3, this, g1]
  exact load_store hw _

/-- `into_inner`, when all threads have finished: an ordinary load that everything that may change the object happens before finds the
newest bytes. -/
theorem C59_reads_final (h : OneHistory e X items R w a) {t k : Nat} {it : Item W} {o : Ordering} {u : BitVec w}
    (hit : (items t)[k]? = some it) (hld : it.Acts e w a (.load o w a) (.bits w u))
    (hall : ∀ t' k' it' c r, (items t')[k']? = some it' → it'.Acts e w a c r → c.IsLoad ∨ ItemBefore R t' k' t k) :
    ∃ m : Mem, (∀ x, a ≤ x → x < a + w / 8 → X.Newest (fun _ => True) x (m x)) ∧ u = load e m a w := by
  obtain ⟨seq, m, h1, h2, h3, h4⟩ := h
  obtain ⟨s, l, rfl⟩ := List.append_of_mem ((h2 _ _ _ _).2 ⟨it, hit, hld⟩)
  refine ⟨m, h4, ?_⟩
  have hmid : ∀ z ∈ l, z.2.2.1.IsLoad := by
    rintro ⟨t', k', c, r⟩ hz
    obtain ⟨_, g2⟩ := (List.pairwise_cons.1 (List.pairwise_append.1 h3).2.1).1 _ hz
    obtain ⟨it', q1, q2⟩ := (h2 t' k' c r).1 (by simp [hz])
    rcases hall _ _ _ _ _ q1 q2 with hc | hc
    · exact hc
    · exact absurd hc g2
  simp only [List.map_append, List.map_cons] at h1
  obtain ⟨m1, _, m2, ⟨x, ⟨g1, g3⟩, g4⟩, h1⟩ := legal_append.1 h1
  cases g4
  have : m = m2 := h1.loads fun z hz => by
    obtain ⟨y, hy, rfl⟩ := List.mem_map.1 hz
    exact hmid y hy
  rw [g1, this, g3]

/-- After `new`, `from_ptr` or an exclusive borrow: a load that happens before everything that may change the object finds what it held initially. -/
theorem C59_reads_initial (h : OneHistory e X items R w a) {t k : Nat} {it : Item W} {o : Ordering} {u : BitVec w}
    (hit : (items t)[k]? = some it) (hld : it.Acts e w a (.load o w a) (.bits w u))
    (hall : ∀ t' k' it' c r, (items t')[k']? = some it' → it'.Acts e w a c r → c.IsLoad ∨ ItemBefore R t k t' k') :
    u = load e X.m0 a w := by
  obtain ⟨seq, m, h1, h2, h3, _⟩ := h
  obtain ⟨s, l, rfl⟩ := List.append_of_mem ((h2 _ _ _ _).2 ⟨it, hit, hld⟩)
  have hmid : ∀ z ∈ s, z.2.2.1.IsLoad := by
    rintro ⟨t', k', c, r⟩ hz
    obtain ⟨_, g2⟩ := (List.pairwise_append.1 h3).2.2 _ hz _ List.mem_cons_self
    obtain ⟨it', q1, q2⟩ := (h2 t' k' c r).1 (by simp [hz])
    rcases hall _ _ _ _ _ q1 q2 with hc | hc
    · exact hc
    · exact absurd hc g2
  simp only [List.map_append, List.map_cons] at h1
  obtain ⟨m1, g0, m2, ⟨x, ⟨g1, _⟩, g4⟩, _⟩ := legal_append.1 h1
  cases g4
  have : m1 = X.m0 := g0.loads fun z hz => by
    obtain ⟨y, hy, rfl⟩ := List.mem_map.1 hz
    exact hmid y hy
  rw [g1, this]
end

end Verif
