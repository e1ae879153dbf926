/-
C61: an execution that meets its hypotheses, for every back end with 32-bit operations. Thread 0 stores version 1 (Relaxed), executes a
fence, stores the data, 7 (Relaxed), and version 2 (Release); thread 1 loads version 2 (Acquire), the data (Relaxed), executes a fence and loads
version 2 again (Relaxed).
-/
import Verif.Weak.DRFSample
import Verif.Weak.SeqlockProof
import Verif.Lin.ReadOnly

namespace Verif
variable {W : Nat}

namespace SeqlockSample
def odd : Call := .store .relaxed 32 0x1000 1#32
def data : Call := .store .relaxed 32 0x2000 7#32
def even : Call := .store .release 32 0x1000 2#32
def begin : Call := .load .acquire 32 0x1000
def look : Call := .load .relaxed 32 0x2000
def again : Call := .load .relaxed 32 0x1000

/-- the fence -/
def fence (rs : RS W) (m : Mem) : Own W := ⟨.fence .full, rs, .fence .full, m, m⟩

/-- even versions are stable -/
def Stable (v : BitVec 32) : Prop := v.toNat % 2 = 0
instance : DecidablePred Stable := fun v => inferInstanceAs (Decidable (v.toNat % 2 = 0))
/-- one data object -/
def D (w a : Nat) : Prop := w = 32 ∧ a = 0x2000

def calls : List (Nat × Call) := [(0, odd), (0, data), (0, even), (1, begin), (1, look), (1, again)]

/-- An execution in which the writer stores data and the reader gets it, and the hypotheses of C61 are met (with a global memory order; and
without multi-copy atomicity, if the code of 32-bit loads contains no instruction that writes: C58). -/
def Met (A : Backend W) : Prop :=
  ∃ (X : AxShape W) (rf : Node → Nat → Option Node) (items : Nat → List (Item W)),
    FullyConsistent A.imp X rf ∧ (∀ P : Call → Prop, (∀ z ∈ calls, P z.2) →
      SeqlockRun A P X 2 items 32 0x1000 D Stable 0 (ReleaseFence A.imp items 0) ∧
      SeqlockRun A P X 2 items 32 0x1000 D Stable 0
        (fun f => ∃ o p, (items 0)[f]? = some (.other o) ∧ o.ev = .fence p ∧ p.rw = true ∧ p.ww = true)) ∧
    ((∀ o a B, A.Load o 32 a B → B.ReadOnly) → SolelyStored items 32 0x1000 D 0) ∧
    LoadsAt items 1 32 0x1000 0 .acquire 2#32 ∧ LoadsAt items 1 32 0x2000 1 .relaxed 7#32 ∧ LoadsAt items 1 32 0x1000 3 .relaxed 2#32 ∧
    AcquireFence A.imp items 1 2 ∧ (∃ o p, (items 1)[2]? = some (.other o) ∧ o.ev = .fence p ∧ p.rr = true ∧ p.rw = true)

/-- Code without instructions that write does not write. -/
theorem reads {e : Endian} {P : List (Instr W)} {c0 c : Cfg W} {tr : List (LEv W)} (hP : ∀ i ∈ P, i.needsWrite = false)
    (h : LRun e P c0 tr c) : ∀ o ∈ owns tr, o.ev.isWrite = false := by
  induction h with
  | nil => simp [owns]
  | own _ hi hs ih =>
    intro o ho
    simp only [owns, List.filterMap_append, List.mem_append] at ho
    rcases ho with ho | ho
    · exact ih o ho
    · simp only [List.filterMap_cons, List.filterMap_nil, List.mem_singleton] at ho
      subst ho
      exact (hs.readOnly (hP _ (List.mem_of_getElem? hi))).2
  | env _ _ _ _ ih =>
    intro o ho
    simp only [owns, List.filterMap_append, List.mem_append] at ho
    rcases ho with ho | ho
    · exact ih o ho
    · simp at ho

theorem zero (e : Endian) : load e (fun _ => 0) 0x1000 32 = 0#32 := by
  refine BitVec.eq_of_getLsbD_eq fun i _ => ?_
  rw [getLsbD_load]
  simp

theorem met {A : Backend W} {sc : List Mon} (h : Good A sc) (h6 : A.ProgressOK) (hc : ∀ z ∈ calls, A.Startable z.2) : Met A := by
  have hloc : A.LocalOps fun c => ∃ t, (t, c) ∈ calls := h.localOps fun s f w a old new B hP => by
    obtain ⟨t, hP⟩ := hP
    simp [calls, odd, data, even, begin, look, again] at hP
  obtain ⟨_, _, rs, _⟩ := hc (0, odd) (by simp [calls])
  obtain ⟨ops, m, hS, hcalls⟩ := Serially.exists h6 calls (fun _ => 0) hc
  have hleg := hS.legal hloc fun z hz => ⟨z.1, by rw [← hcalls]; exact List.mem_map.2 ⟨z, hz, rfl⟩⟩
  obtain ⟨⟨t0, d0⟩, ⟨t1, d1⟩, ⟨t2, d2⟩, ⟨t3, d3⟩, ⟨t4, d4⟩, ⟨t5, d5⟩, rfl⟩ : ∃ z0 z1 z2 z3 z4 z5, ops = [z0, z1, z2, z3, z4, z5] := by
    have hlen := congrArg List.length hcalls
    simp only [List.length_map, calls, List.length_cons, List.length_nil] at hlen
    exact ⟨ops[0], ops[1], ops[2], ops[3], ops[4], ops[5], List.ext_getElem (by simp [hlen]) fun i hi _ => by
      match i, (by omega : i < 6) with
      | 0, _ => rfl
      | 1, _ => rfl
      | 2, _ => rfl
      | 3, _ => rfl
      | 4, _ => rfl
      | 5, _ => rfl⟩
  simp only [List.map_cons, List.map_nil, calls, List.cons.injEq, Prod.mk.injEq, and_true] at hcalls
  obtain ⟨⟨rfl, e0⟩, ⟨rfl, e1⟩, ⟨rfl, e2⟩, ⟨rfl, e3⟩, ⟨rfl, e4⟩, rfl, e5⟩ := hcalls
  simp only [List.map_cons, List.map_nil, e0, e1, e2, e3, e4, e5] at hleg
  obtain ⟨m1, ⟨hm1, _⟩, m2, ⟨hm2, _⟩, m3, ⟨hm3, _⟩, m4, ⟨x3, ⟨s3, hm4⟩, r3⟩, m5, ⟨x4, ⟨s4, hm5⟩, r4⟩, m6, ⟨x5, ⟨s5, hm6⟩, r5⟩, _⟩ := hleg
  have l3 : load A.e m3 0x1000 32 = 2#32 := by rw [hm3]; exact load_store (by decide) _
  have x3e : x3 = 2#32 := s3.trans l3
  have x4e : x4 = 7#32 := by
    rw [s4, hm4, hm3, load_store_disjoint (by decide) (.inr (by decide)), hm2]
    exact load_store (by decide) _
  have x5e : x5 = 2#32 := by rw [s5, hm5, hm4]; exact l3
  subst x3e x4e x5e
  obtain ⟨n1, a0, n2, a1, n3, a2, n4, a3, n5, a4, n6, a5, hm⟩ := hS
  let f0 : Own W := fence rs n1
  let f1 : Own W := fence rs n5
  let L : List (Nat × Item W) :=
    [(0, .op d0), (0, .other f0), (0, .op d1), (0, .op d2), (1, .op d3), (1, .op d4), (1, .other f1), (1, .op d5)]
  have hmix : Mixed A (fun _ => 0) L m :=
    ⟨n1, a0, rfl, fun _ _ => rfl, rfl, n2, a1, n3, a2, n4, a3, n5, a4, rfl, fun _ _ => rfl, rfl, n6, a5, hm⟩
  have i0 : mixedItems L 0 = [.op d0, .other f0, .op d1, .op d2] := rfl
  have i1 : mixedItems L 1 = [.op d3, .op d4, .other f1, .op d5] := rfl
  have i2 : ∀ t, 2 ≤ t → mixedItems L t = [] := by
    intro t ht
    match t with
    | t + 2 => rfl
  have ops : ∀ t d, Item.op d ∈ mixedItems L t → d.OK A ∧ (t, d.call) ∈ calls := by
    intro t d hd
    match t with
    | 0 =>
      rw [i0] at hd
      simp only [List.mem_cons, Item.op.injEq, reduceCtorEq, List.not_mem_nil, or_false, false_or] at hd
      rcases hd with rfl | rfl | rfl
      · exact ⟨a0.ok, by rw [e0]; simp [calls]⟩
      · exact ⟨a1.ok, by rw [e1]; simp [calls]⟩
      · exact ⟨a2.ok, by rw [e2]; simp [calls]⟩
    | 1 =>
      rw [i1] at hd
      simp only [List.mem_cons, Item.op.injEq, reduceCtorEq, List.not_mem_nil, or_false, false_or] at hd
      rcases hd with rfl | rfl | rfl
      · exact ⟨a3.ok, by rw [e3]; simp [calls]⟩
      · exact ⟨a4.ok, by rw [e4]; simp [calls]⟩
      · exact ⟨a5.ok, by rw [e5]; simp [calls]⟩
    | t + 2 => rw [i2 _ (by omega)] at hd; cases hd
  have others : ∀ t o, Item.other o ∈ mixedItems L t → ∀ x, ¬ o.writes x := by
    intro t d hd x hx
    match t with
    | 0 => rw [i0] at hd; simp at hd; subst hd; exact absurd hx.1 (by simp [f0, fence, Ev.isWrite])
    | 1 => rw [i1] at hd; simp at hd; subst hd; exact absurd hx.1 (by simp [f1, fence, Ev.isWrite])
    | t + 2 => rw [i2 _ (by omega)] at hd; cases hd
  -- the stores of the writer
  have stores : ∀ w a k (v : BitVec w), StoresAt (mixedItems L) 0 w a k v →
      (k = 0 ∧ w = 32 ∧ a = 0x1000 ∧ v.toNat = 1) ∨ (k = 2 ∧ w = 32 ∧ a = 0x2000 ∧ v.toNat = 7) ∨ (k = 3 ∧ w = 32 ∧ a = 0x1000 ∧ v.toNat = 2) := by
    rintro w a k v ⟨d, o, g1, g2⟩
    rw [i0] at g1
    match k with
    | 0 => simp at g1; subst g1; rw [e0] at g2; cases g2; exact .inl ⟨rfl, rfl, rfl, rfl⟩
    | 1 => simp at g1
    | 2 => simp at g1; subst g1; rw [e1] at g2; cases g2; exact .inr (.inl ⟨rfl, rfl, rfl, rfl⟩)
    | 3 => simp at g1; subst g1; rw [e2] at g2; cases g2; exact .inr (.inr ⟨rfl, rfl, rfl, rfl⟩)
    | k + 4 => simp at g1
  have run : ∀ (rel : Nat → Prop), rel 1 → ∀ P : Call → Prop, (∀ z ∈ calls, P z.2) →
      SeqlockRun A P (interleaved (fun _ => 0) (mixedCode L)) 2 (mixedItems L) 32 0x1000 D Stable 0 rel := by
    intro rel hrel P hP
    refine ⟨.inr (.inr (.inl rfl)), rfl, ?_, i2, mixed_code L, ?_, ?_, fun t o x ho hx => absurd hx (others t o ho x), ?_, ?_, ?_, ?_, ?_⟩
    · rintro w a ⟨rfl, rfl⟩; exact ⟨.inr (.inr (.inl rfl)), rfl⟩
    · intro t d hd
      obtain ⟨g1, g2⟩ := ops t d hd
      refine ⟨g1, hP _ g2, ?_⟩
      generalize d.call = c at g2
      simp only [calls, List.mem_cons, Prod.mk.injEq, List.not_mem_nil, or_false] at g2
      have v32 : IsSize 32 := .inr (.inr (.inl rfl))
      have ver : ∀ c : Call, c.width = 32 → c.addr = 0x1000 → c.OnOrOff 32 0x1000 ∧ ∀ w a, D w a → c.OnOrOff w a := by
        intro c h1 h2
        refine ⟨⟨by rw [h1]; exact v32, by rw [h1, h2], .inl ⟨h1, h2⟩⟩, ?_⟩
        rintro w a ⟨rfl, rfl⟩
        refine ⟨by rw [h1]; exact v32, by rw [h1, h2], .inr (.inl ?_)⟩
        rw [h1, h2]; decide
      have dat : ∀ c : Call, c.width = 32 → c.addr = 0x2000 → c.OnOrOff 32 0x1000 ∧ ∀ w a, D w a → c.OnOrOff w a := by
        intro c h1 h2
        refine ⟨⟨by rw [h1]; exact v32, by rw [h1, h2], .inr (.inr ?_)⟩, ?_⟩
        · rw [h2]; decide
        rintro w a ⟨rfl, rfl⟩
        exact ⟨by rw [h1]; exact v32, by rw [h1, h2], .inl ⟨h1, h2⟩⟩
      rcases g2 with ⟨_, rfl⟩ | ⟨_, rfl⟩ | ⟨_, rfl⟩ | ⟨_, rfl⟩ | ⟨_, rfl⟩ | ⟨_, rfl⟩
      · exact ver _ rfl rfl
      · exact dat _ rfl rfl
      · exact ver _ rfl rfl
      · exact ver _ rfl rfl
      · exact dat _ rfl rfl
      · exact ver _ rfl rfl
    · rintro w a ⟨rfl, rfl⟩ ⟨_, h⟩; cases h
    · intro t d w a hd _ ⟨h1, h2⟩
      obtain ⟨_, g2⟩ := ops t d hd
      generalize d.call = c at g2 h1 h2
      simp only [calls, List.mem_cons, Prod.mk.injEq, List.not_mem_nil, or_false] at g2
      subst h1 h2
      rcases g2 with ⟨g, rfl⟩ | ⟨g, rfl⟩ | ⟨g, rfl⟩ | ⟨_, rfl⟩ | ⟨_, rfl⟩ | ⟨_, rfl⟩
      · exact .inr ⟨g, _, _, rfl⟩
      · exact .inr ⟨g, _, _, rfl⟩
      · exact .inr ⟨g, _, _, rfl⟩
      · exact .inl ⟨_, rfl⟩
      · exact .inl ⟨_, rfl⟩
      · exact .inl ⟨_, rfl⟩
    · intro k k' v h1 h2
      rcases stores _ _ _ _ h1 with h | h | h <;> rcases stores _ _ _ _ h2 with h' | h' | h' <;> omega
    · intro k v h1 h2
      have : v.toNat = 0 := by rw [h2]; exact congrArg BitVec.toNat (zero A.e)
      rcases stores _ _ _ _ h1 with h | h | h <;> omega
    · intro d o v hd h1 h2
      obtain ⟨_, g2⟩ := ops 0 d hd
      rw [h1] at g2
      simp only [calls, List.mem_cons, Prod.mk.injEq, List.not_mem_nil, or_false] at g2
      rcases g2 with ⟨_, g⟩ | ⟨_, g⟩ | ⟨_, g⟩ | ⟨_, g⟩ | ⟨_, g⟩ | ⟨_, g⟩ <;> cases g
      · exact absurd h2 (by decide)
      · rfl
    · rintro w a k v ⟨rfl, rfl⟩ h1
      have hk : k = 2 := by rcases stores _ _ _ _ h1 with h | h | h <;> omega
      subst hk
      refine ⟨0, 1, 1#32, by decide, by decide, ⟨d0, .relaxed, rfl, e0⟩, by decide, hrel, fun k' v' g1 g2 g3 => ?_⟩
      rcases stores _ _ _ _ g3 with h | h | h <;> omega
  have fen : ∀ t f (o : Own W), (mixedItems L t)[f]? = some (.other o) → o.ev = .fence .full → ∀ k k', FenceAt A.imp (mixedItems L) t f k k' :=
    fun t f o h1 h2 k k' => .inr ⟨o, .full, h1, h2, by cases k <;> cases k' <;> rfl⟩
  refine ⟨_, _, mixedItems L, hmix.consistent A.imp, fun P hP => ⟨run _ (fun kd => fen 0 1 f0 rfl rfl _ _) P hP,
    run _ ⟨f0, .full, rfl, rfl, rfl, rfl⟩ P hP⟩, ?_, ⟨d3, rfl, e3, r3⟩, ⟨d4, rfl, e4, r4⟩, ⟨d5, rfl, e5, r5⟩, fun kd => fen 1 2 f1 rfl rfl _ _,
    f1, .full, rfl, rfl, rfl, rfl⟩
  intro hro t d o w a x hd ho _ _ _ hx
  obtain ⟨g1, g2⟩ := ops t d hd
  match t with
  | 0 => rfl
  | 1 =>
    exfalso
    have key : ∀ (c : Call) (B : Block W c.width), (1, c) ∈ calls → A.Runs c B → ∀ i ∈ B.code, i.needsWrite = false := by
      intro c B hc hB
      simp only [calls, List.mem_cons, Prod.mk.injEq, List.not_mem_nil, or_false] at hc
      rcases hc with ⟨g, _⟩ | ⟨g, _⟩ | ⟨g, _⟩ | ⟨_, rfl⟩ | ⟨_, rfl⟩ | ⟨_, rfl⟩
      · cases g
      · cases g
      · cases g
      all_goals exact hro _ _ B hB
    obtain ⟨hB, c0, c, _, _, _, hl, _, _⟩ := g1
    have := reads (key d.call d.B g2 hB) hl o ho
    rw [hx.1] at this
    cases this
  | t + 2 => rw [i2 _ (by omega)] at hd; cases hd

theorem met' {A : Backend W} {sc : List Mon} (h : Good A sc) (h6 : A.ProgressOK) (h1 : A.Startable odd) (h2 : A.Startable data)
    (h3 : A.Startable even) (h4 : A.Startable begin) (h5 : A.Startable look) (h7 : A.Startable again) : Met A := by
  refine met h h6 fun z hz => ?_
  simp only [calls, List.mem_cons, List.not_mem_nil, or_false] at hz
  rcases hz with rfl | rfl | rfl | rfl | rfl | rfl <;> assumption

end SeqlockSample
end Verif
