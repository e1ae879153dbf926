/-
C36 (swap conserves values) and C31 (no lost updates) on weak memory, for any orderings: consequences of C42.
-/
import Verif.Weak.Coherence
import Verif.Lin.Conserve

namespace Verif

/-- All operations of the threads `0 … N-1`: thread, call, answer. -/
def allOps {W : Nat} (N : Nat) (items : Nat → List (Item W)) : List (Nat × Call × Ret) :=
  (List.range N).flatMap fun t => (opsOf (items t)).map fun d => (t, d.call, d.ret)

/-- The threads of a coherent execution execute operations of `A` on the `w`-bit object at `a` or on disjoint objects and
anything else that does not write the object; those on the object satisfy `Q`. -/
structure CohRun {W : Nat} (A : Backend W) (P : Call → Prop) (Q : Nat → Call → Prop) (w a : Nat) (X : AxShape W)
    (rf : Node → Nat → Option Node) (N : Nat) (items : Nat → List (Item W)) : Prop where
  coh : CohExec X rf
  size : IsSize w
  aligned : a % (w / 8) = 0
  threads : ∀ t, N ≤ t → items t = []
  code : ∀ t, X.po t = (items t).flatMap Item.code
  ops : ∀ t d, Item.op d ∈ items t → d.OK A ∧ P d.call ∧ d.call.OnOrOff w a ∧ (d.call.On w a → Q t d.call)
  others : ∀ t o x, Item.other o ∈ items t → a ≤ x → x < a + w / 8 → ¬ o.writes x

/-- C36 on weak memory. If all accesses to an object are loads and swaps, with any orderings, then the initial value
together with all values handed in is a permutation of the final value (the newest bytes) together with all values handed
out. -/
def Backend.SwapConservesWeak {W : Nat} (A : Backend W) (P : Call → Prop) : Prop :=
  ∀ (w a : Nat) (X : AxShape W) (rf : Node → Nat → Option Node) (N : Nat) (items : Nat → List (Item W)),
    CohRun A P LoadOrSwap w a X rf N items →
    ∃ m : Mem, (∀ x, a ≤ x → x < a + w / 8 → X.Newest (fun _ => True) x (m x)) ∧
      List.Perm (load A.e X.m0 a w :: (allOps N items).flatMap fun (_, c, _) => swapIn w a c)
        (load A.e m a w :: (allOps N items).flatMap fun (_, c, r) => swapOut w a c r)

/-- C31 on weak memory. If all accesses to an object are loads and compare-exchange attempts, with any orderings, as made by
`fetch_update` with functions `f i`, then the successful updates can be put into an order in which each
was applied to the result of the previous one, from the initial to the final value (the newest bytes): none is lost. -/
def Backend.NoLostUpdatesWeak {W : Nat} (A : Backend W) (P : Call → Prop) : Prop :=
  ∀ (w a : Nat) (f : Nat → BitVec w → Option (BitVec w)) (X : AxShape W) (rf : Node → Nat → Option Node) (N : Nat)
    (items : Nat → List (Item W)), CohRun A P (UpdateBy f) w a X rf N items →
    ∃ (m : Mem) (l : List (Nat × BitVec w × BitVec w)), (∀ x, a ≤ x → x < a + w / 8 → X.Newest (fun _ => True) x (m x)) ∧
      List.Perm l ((allOps N items).flatMap fun (i, c, r) => casOk w a i c r) ∧
      UpdateChain (load A.e X.m0 a w) l (load A.e m a w) ∧
      ∀ i old new, (i, old, new) ∈ l → f i old = some new

/-! ### Sequences -/

theorem legal_append {e : Endian} {m0 m : Mem} {s1 s2 : List (Nat × Call × Ret)} :
    Legal e m0 (s1 ++ s2) m ↔ ∃ m1, Legal e m0 s1 m1 ∧ Legal e m1 s2 m := by
  induction s1 generalizing m0 with
  | nil => simp [Legal]
  | cons z t ih =>
    obtain ⟨i, c, r⟩ := z
    simp only [List.cons_append, Legal, ih]
    constructor
    · rintro ⟨m1, h, m2, h1, h2⟩; exact ⟨m2, ⟨m1, h, h1⟩, h2⟩
    · rintro ⟨m2, ⟨m1, h, h1⟩, h2⟩; exact ⟨m1, h, m2, h1, h2⟩

/-- What one effect does to the values of a swapped object. -/
theorem sem_swap {e : Endian} {w a : Nat} (hw : w % 8 = 0) {c : Call} {r : Ret} {m m' : Mem}
    (hon : c.On w a) {i : Nat} (hq : LoadOrSwap i c) (hsem : c.Sem e m m' r) :
    List.Perm (load e m a w :: swapIn w a c) (load e m' a w :: swapOut w a c r) := by
  cases c with
  | load o w' a' =>
    obtain ⟨v, ⟨rfl, rfl⟩, rfl⟩ := hsem
    simp [swapIn, swapOut]
  | swap o w' a' v =>
    obtain ⟨rfl, rfl⟩ : w' = w ∧ a' = a := hon
    obtain ⟨x, ⟨rfl, rfl⟩, rfl⟩ := hsem
    simp only [swapIn, swapOut, and_self, if_true, BitVec.setWidth_eq, load_store hw]
    exact List.Perm.swap _ _ _
  | store => cases hq
  | cas => cases hq
  | casWeak => cases hq

theorem legal_swaps {e : Endian} {w a : Nat} (hw : w % 8 = 0) {seq : List (Nat × Call × Ret)} {m0 m : Mem}
    (h : Legal e m0 seq m) (hq : ∀ z ∈ seq, z.2.1.On w a ∧ LoadOrSwap z.1 z.2.1) :
    List.Perm (load e m0 a w :: seq.flatMap fun (_, c, _) => swapIn w a c)
      (load e m a w :: seq.flatMap fun (_, c, r) => swapOut w a c r) := by
  induction seq generalizing m0 with
  | nil => cases (show m0 = m from h); exact List.Perm.refl _
  | cons z t ih =>
    obtain ⟨i, c, r⟩ := z
    obtain ⟨m1, hs, hl⟩ := h
    have h1 := sem_swap hw (hq (i, c, r) (by simp)).1 (hq (i, c, r) (by simp)).2 hs
    have h2 := ih hl fun z hz => hq z (List.mem_cons_of_mem _ hz)
    simp only [List.flatMap_cons]
    -- (load m0 :: in c) ++ ins ~ (load m1 :: out c) ++ ins ~ out c ++ (load m1 :: ins) ~ out c ++ (load m :: outs)
    refine (List.Perm.append_right _ h1).trans ?_
    refine List.Perm.trans (l₂ := swapOut w a c r ++ (load e m1 a w :: t.flatMap fun (_, c, _) => swapIn w a c)) ?_ ?_
    · exact (List.perm_middle).symm
    · exact (List.Perm.append_left _ h2).trans List.perm_middle

/-- What one effect does to an updated object. -/
theorem sem_update {e : Endian} {w a : Nat} (hw : w % 8 = 0) {f : Nat → BitVec w → Option (BitVec w)} {c : Call} {r : Ret}
    {m m' : Mem} (hon : c.On w a) {i : Nat} (hq : UpdateBy f i c) (hsem : c.Sem e m m' r) :
    UpdateChain (load e m a w) (casOk w a i c r) (load e m' a w) ∧
      ∀ j old new, (j, old, new) ∈ casOk w a i c r → f j old = some new := by
  cases c with
  | load o w' a' =>
    obtain ⟨v, ⟨rfl, rfl⟩, rfl⟩ := hsem
    exact ⟨rfl, by simp [casOk]⟩
  | swap => cases hq
  | store => cases hq
  | cas so fo w' a' old new =>
    obtain ⟨rfl, rfl⟩ : w' = w ∧ a' = a := hon
    obtain ⟨x, ok, ⟨rfl, ⟨h1, rfl, rfl⟩ | ⟨h1, rfl, rfl⟩⟩, rfl⟩ := hsem
    · simp only [casOk, and_self, if_true, BitVec.setWidth_eq, load_store hw]
      refine ⟨⟨h1, rfl⟩, ?_⟩
      intro j o n hm
      simp only [List.mem_singleton, Prod.mk.injEq] at hm
      obtain ⟨rfl, rfl, rfl⟩ := hm
      simpa [UpdateBy] using hq
    · exact ⟨rfl, by simp [casOk]⟩
  | casWeak so fo w' a' old new =>
    obtain ⟨rfl, rfl⟩ : w' = w ∧ a' = a := hon
    obtain ⟨x, ok, ⟨rfl, ⟨h1, rfl, rfl⟩ | ⟨rfl, rfl⟩⟩, rfl⟩ := hsem
    · simp only [casOk, and_self, if_true, BitVec.setWidth_eq, load_store hw]
      refine ⟨⟨h1, rfl⟩, ?_⟩
      intro j o n hm
      simp only [List.mem_singleton, Prod.mk.injEq] at hm
      obtain ⟨rfl, rfl, rfl⟩ := hm
      simpa [UpdateBy] using hq
    · exact ⟨rfl, by simp [casOk]⟩

theorem legal_updates {e : Endian} {w a : Nat} (hw : w % 8 = 0) {f : Nat → BitVec w → Option (BitVec w)}
    {seq : List (Nat × Call × Ret)} {m0 m : Mem}
    (h : Legal e m0 seq m) (hq : ∀ z ∈ seq, z.2.1.On w a ∧ UpdateBy f z.1 z.2.1) :
    UpdateChain (load e m0 a w) (seq.flatMap fun (i, c, r) => casOk w a i c r) (load e m a w) ∧
      ∀ j old new, (j, old, new) ∈ (seq.flatMap fun (i, c, r) => casOk w a i c r) → f j old = some new := by
  induction seq generalizing m0 with
  | nil => cases (show m0 = m from h); exact ⟨rfl, by simp⟩
  | cons z t ih =>
    obtain ⟨i, c, r⟩ := z
    obtain ⟨m1, hs, hl⟩ := h
    have h1 := sem_update hw (hq (i, c, r) (by simp)).1 (hq (i, c, r) (by simp)).2 hs
    have h2 := ih hl fun z hz => hq z (List.mem_cons_of_mem _ hz)
    simp only [List.flatMap_cons]
    refine ⟨updateChain_append h1.1 h2.1, fun j old new hm => ?_⟩
    rcases List.mem_append.1 hm with hm | hm
    · exact h1.2 j old new hm
    · exact h2.2 j old new hm

theorem flatMap_congr_mem {α β : Type} {l : List α} {f g : α → List β} (h : ∀ x ∈ l, f x = g x) : l.flatMap f = l.flatMap g := by
  induction l with
  | nil => rfl
  | cons z t ih =>
    rw [List.flatMap_cons, List.flatMap_cons, h z (by simp), ih fun x hx => h x (List.mem_cons_of_mem _ hx)]

/-- A list is made of its threads' parts. -/
theorem perm_threads {α : Type} (N : Nat) (l : List (Nat × α)) (h : ∀ z ∈ l, z.1 < N) :
    List.Perm l ((List.range N).flatMap fun t => ofThread t l) := by
  induction N generalizing l with
  | zero =>
    cases l with
    | nil => simp
    | cons z t => have := h z (by simp); omega
  | succ N ih =>
    have h1 : List.Perm l (l.filter (fun z => z.1 != N) ++ ofThread N l) := by
      have := List.filter_append_perm (fun z : Nat × α => z.1 != N) l
      refine this.symm.trans (List.Perm.append_left _ ?_)
      rw [ofThread]
      apply List.Perm.of_eq
      congr 1; funext z; simp [bne]
    rw [List.range_succ, List.flatMap_append]
    simp only [List.flatMap_cons, List.flatMap_nil, List.append_nil]
    refine h1.trans (List.Perm.append_right _ ?_)
    refine (ih _ fun z hz => ?_).trans (List.Perm.of_eq ?_)
    · have := List.mem_filter.1 hz
      have h1 := h z this.1
      have h2 : z.1 ≠ N := by simpa using this.2
      omega
    · apply flatMap_congr_mem
      intro t ht
      rw [ofThread, ofThread, List.filter_filter]
      congr 1; funext z
      have ht := List.mem_range.1 ht
      by_cases hz : z.1 = t
      · subst hz; simp; omega
      · simp [hz]

variable {W : Nat} {A : Backend W} {P : Call → Prop} {Q : Nat → Call → Prop} {w a : Nat} {X : AxShape W}
  {rf : Node → Nat → Option Node} {N : Nat} {items : Nat → List (Item W)}

theorem mem_opsOf {l : List (Item W)} {d : Done W} : d ∈ opsOf l ↔ Item.op d ∈ l := by
  induction l with
  | nil => simp [opsOf]
  | cons z t ih =>
    cases z with
    | op d' =>
      have e : opsOf (Item.op d' :: t) = d' :: opsOf t := rfl
      rw [e, List.mem_cons, List.mem_cons, ih]
      constructor
      · rintro (rfl | h)
        · exact .inl rfl
        · exact .inr h
      · rintro (h | h)
        · cases h; exact .inl rfl
        · exact .inr h
    | other o =>
      have e : opsOf (Item.other o :: t) = opsOf t := rfl
      rw [e, List.mem_cons, ih]
      constructor
      · exact .inr
      · rintro (h | h)
        · cases h
        · exact h

/-- The sequence of C42, and its relation to all operations. -/
theorem CohRun.seq (hc : A.Coherent P) (h : CohRun A P Q w a X rf N items) :
    ∃ (seq : List (Nat × Call × Ret)) (m : Mem), Legal A.e X.m0 seq m ∧ (∀ x, a ≤ x → x < a + w / 8 → X.Newest (fun _ => True) x (m x)) ∧
      (∀ z ∈ seq, z.2.1.On w a ∧ Q z.1 z.2.1) ∧
      ∀ {β : Type} (g : Nat × Call × Ret → List β), (∀ i c r, c.Off w a → g (i, c, r) = []) →
        List.Perm (seq.flatMap g) ((allOps N items).flatMap g) := by
  obtain ⟨seq, m, h1, h2, h3⟩ := hc X rf N items a w h.coh h.size h.aligned h.threads h.code
    (fun t d hd => ⟨(h.ops t d hd).1, (h.ops t d hd).2.1, (h.ops t d hd).2.2.1⟩) h.others
  have hthr : ∀ z ∈ seq, z.2.1.On w a ∧ Q z.1 z.2.1 ∧ z.1 < N := by
    intro z hz
    have : z ∈ ofThread z.1 seq := List.mem_filter.2 ⟨hz, by simp⟩
    rw [h2] at this
    obtain ⟨d, hd, hz⟩ := List.mem_map.1 this
    obtain ⟨hd1, hd2⟩ := List.mem_filter.1 hd
    have hd1 := mem_opsOf.1 hd1
    have hd2 : d.call.On w a := by simpa using hd2
    have hz2 : z.2.1 = d.call := by rw [← hz]
    rw [hz2]
    refine ⟨hd2, (h.ops _ _ hd1).2.2.2 hd2, ?_⟩
    rcases Nat.lt_or_ge z.1 N with hn | hn
    · exact hn
    · rw [h.threads _ hn] at hd1; simp at hd1
  refine ⟨seq, m, h1, h3, fun z hz => ⟨(hthr z hz).1, (hthr z hz).2.1⟩, fun {β} g hg => ?_⟩
  refine (List.Perm.flatMap_right g (perm_threads N seq fun z hz => (hthr z hz).2.2)).trans (List.Perm.of_eq ?_)
  simp only [allOps, List.flatMap_assoc]
  apply flatMap_congr_mem
  intro t _
  rw [h2, List.flatMap_map, List.flatMap_map]
  -- filtered operations contribute nothing
  have hops : ∀ d ∈ opsOf (items t), d.call.On w a ∨ d.call.Off w a :=
    fun d hd => (h.ops t d (mem_opsOf.1 hd)).2.2.1.2.2
  revert hops
  generalize opsOf (items t) = l
  intro hops
  induction l with
  | nil => rfl
  | cons d l ih =>
    have ih := ih fun d hd => hops d (List.mem_cons_of_mem _ hd)
    rw [List.filter_cons]
    split
    · rw [List.flatMap_cons, List.flatMap_cons, ih]
    · rename_i hn
      rw [List.flatMap_cons, ih]
      rcases hops d (by simp) with ho | ho
      · exact absurd (by simpa using ho) hn
      · rw [hg _ _ _ ho]; rfl

theorem isSize_mod {w : Nat} (h : IsSize w) : w % 8 = 0 ∧ w ≠ 0 := by
  unfold IsSize at h; omega

/-- C36 on weak memory from C42. -/
theorem Backend.Coherent.swapConserves (hc : A.Coherent P) : A.SwapConservesWeak P := by
  intro w a X rf N items h
  obtain ⟨seq, m, h1, h2, h3, h4⟩ := h.seq hc
  obtain ⟨hw, hw0⟩ := isSize_mod h.size
  refine ⟨m, h2, ?_⟩
  have e1 := h4 (fun (_, c, _) => swapIn w a c) fun i c r ho => (off_swap (r := r) hw hw0 ho).1
  have e2 := h4 (fun (_, c, r) => swapOut w a c r) fun i c r ho => (off_swap (r := r) hw hw0 ho).2.1
  exact (List.Perm.cons _ e1.symm).trans ((legal_swaps hw h1 h3).trans (List.Perm.cons _ e2))

/-- C31 on weak memory from C42. -/
theorem Backend.Coherent.noLostUpdates (hc : A.Coherent P) : A.NoLostUpdatesWeak P := by
  intro w a f X rf N items h
  obtain ⟨seq, m, h1, h2, h3, h4⟩ := h.seq hc
  obtain ⟨hw, hw0⟩ := isSize_mod h.size
  obtain ⟨h5, h6⟩ := legal_updates hw h1 h3
  exact ⟨m, _, h2, h4 _ fun i c r ho => (off_swap (r := r) hw hw0 ho).2.2 i, h5, h6⟩

end Verif
