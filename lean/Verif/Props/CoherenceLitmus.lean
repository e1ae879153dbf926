/-
C42: a consequence (read-read coherence), and an execution that shows that its hypotheses can be met.
-/
import Verif.Props.Coherence
import Verif.Props.WeakSCLitmus

namespace Verif

/-- Read-read coherence, with any orderings, on any machine: thread 0 stores `v` to the object at `a`, which
did not hold `v`, thread 1 loads it twice (and each does anything else on disjoint objects). If the first load returns the
new value, so does the second. -/
theorem Backend.Coherent.corr {W : Nat} {A : Backend W} {P : Call → Prop} (h : A.Coherent P) {w a : Nat} {X : AxShape W}
    {rf : Node → Nat → Option Node} {items : Nat → List (Item W)} {so o o' : Ordering} {v r r' : BitVec w}
    (hX : CohRun A P (fun _ _ => True) w a X rf 2 items) (hv : load A.e X.m0 a w ≠ v)
    (h0 : ((opsOf (items 0)).filter fun d => d.call.On w a).map (fun d => (d.call, d.ret)) = [(.store so w a v, .unit)])
    (h1 : ((opsOf (items 1)).filter fun d => d.call.On w a).map (fun d => (d.call, d.ret)) =
      [(.load o w a, .bits w r), (.load o' w a, .bits w r')]) (hr : r = v) : r' = v := by
  obtain ⟨seq, m, hl, ht, _⟩ := h X rf 2 items a w hX.coh hX.size hX.aligned hX.threads hX.code
    (fun t d hd => ⟨(hX.ops t d hd).1, (hX.ops t d hd).2.1, (hX.ops t d hd).2.2.1⟩) hX.others
  have key : ∀ t l, ((opsOf (items t)).filter fun d => d.call.On w a).map (fun d => (d.call, d.ret)) = l →
      ofThread t seq = l.map fun z => (t, z.1, z.2) := by
    rintro t l rfl
    rw [ht, List.map_map]; rfl
  refine legal_corr (so := so) (o := o) (o' := o') (isSize_mod hX.size).1 hv hl (by rw [key 0 _ h0]; rfl)
    (by rw [key 1 _ h1]; rfl) (fun i hi => ?_) hr
  rw [ht, hX.threads i hi]; rfl

namespace SB

/-- The execution of store buffering in which both loads come first is coherent. -/
theorem coh_relaxed {W : Nat} {s0 l0 s1 l1 : Own W} {m0 : Mem} {x y n : Nat}
    (hxy : x + n ≤ y) (e0 : s0.ev = .wr .plain) (e1 : l0.ev = .rd .plain) (e2 : s1.ev = .wr .plain) (e3 : l1.ev = .rd .plain)
    (w0 : s0.ins.wrFoot s0.rs = (x, n)) (w1 : s1.ins.wrFoot s1.rs = (y, n)) (r0 : l0.ins.rdFoot l0.rs = (y, n))
    (r1 : l1.ins.rdFoot l1.rs = (x, n)) (v0 : l0.m = m0) (v1 : l1.m = m0)
    (ll0 : l0.ins.isLL = false) (ll1 : l1.ins.isLL = false) :
    CohExec (shape s0 l0 s1 l1 m0 lateStores) (fun _ _ => none) where
  value := by
    intro nd o b hat hk hb
    refine ⟨fun _ h => (by cases h), fun _ => ?_⟩
    obtain ⟨hkd, hn⟩ := at_cases hat
    rw [hk] at hkd
    rcases hn with ⟨_, _, rfl⟩ | ⟨_, _, rfl⟩ | ⟨_, _, rfl⟩ | ⟨_, _, rfl⟩
    · rw [e0] at hkd; cases hkd
    · rw [v0]; rfl
    · rw [e2] at hkd; cases hkd
    · rw [v1]; rfl
  inj := by
    rintro ⟨t, p, k⟩ o _ ⟨t', p', k'⟩ o' _ ⟨h, hk, _⟩ ⟨h', hk', _⟩ hr
    simp only at hk hk'
    subst hk hk'
    obtain ⟨_, hn⟩ := at_cases h
    obtain ⟨_, hn'⟩ := at_cases h'
    have hr : lateStores _ = lateStores _ := hr
    simp only [lateStores] at hr
    simp only at hn hn'
    have : t = t' ∧ p = p' := by split at hr <;> split at hr <;> omega
    rw [this.1, this.2]
  single := by intro _ _ _ _ _ _ _ _ h; cases h
  coWW := by
    rintro ⟨t, p, k⟩ ⟨t', p', k'⟩ o o' z ht hp ⟨h, hk, _⟩ ⟨h', hk', _⟩
    exfalso
    simp only at hk hk' hp ht
    subst hk hk'
    obtain ⟨_, hn⟩ := at_cases h
    obtain ⟨hkd, hn'⟩ := at_cases h'
    simp only at hn hn' hkd
    rcases hn' with ⟨_, _, rfl⟩ | ⟨_, _, rfl⟩ | ⟨_, _, rfl⟩ | ⟨_, _, rfl⟩
    · omega
    · rw [e1] at hkd; cases hkd
    · omega
    · rw [e3] at hkd; cases hkd
  coRW := by intro _ _ _ _ _ _ _ _ _ _ h; cases h
  coWR := by
    rintro ⟨t, p, k⟩ ⟨t', p', k'⟩ o o' z ht hp ⟨h, hk, _, _, h1, h2⟩ ⟨h', hk', _, h3, h4⟩
    exfalso
    simp only at hk hk' hp ht
    subst hk hk'
    obtain ⟨hkd, hn⟩ := at_cases h
    obtain ⟨hkd', hn'⟩ := at_cases h'
    simp only at hn hn' hkd hkd'
    rcases hn with ⟨_, _, rfl⟩ | ⟨_, _, rfl⟩ | ⟨_, _, rfl⟩ | ⟨_, _, rfl⟩
    · rcases hn' with ⟨_, _, rfl⟩ | ⟨_, _, rfl⟩ | ⟨_, _, rfl⟩ | ⟨_, _, rfl⟩
      · omega
      · rw [w0] at h1 h2; rw [r0] at h3 h4; simp only at h1 h2 h3 h4; omega
      · omega
      · omega
    · rw [e1] at hkd; cases hkd
    · rcases hn' with ⟨_, _, rfl⟩ | ⟨_, _, rfl⟩ | ⟨_, _, rfl⟩ | ⟨_, _, rfl⟩
      · omega
      · omega
      · omega
      · rw [w1] at h1 h2; rw [r1] at h3 h4; simp only at h1 h2 h3 h4; omega
    · rw [e3] at hkd; cases hkd
  coRR := by intro _ _ _ _ _ _ _ _ _ _ h; cases h
  rmw := by
    rintro ⟨t, p, k⟩ ⟨t', p', k'⟩ o z ht hp ⟨h, hk, _⟩ ⟨h', hk', _⟩
    exfalso
    simp only at hk hk'
    subst hk hk'
    obtain ⟨hkd, hn⟩ := at_cases h
    obtain ⟨hkd', _⟩ := at_cases h'
    simp only at hkd hkd'
    rcases hn with ⟨_, _, rfl⟩ | ⟨_, _, rfl⟩ | ⟨_, _, rfl⟩ | ⟨_, _, rfl⟩
    · rw [e0] at hkd; cases hkd
    · rw [e1] at hkd'; cases hkd'
    · rw [e2] at hkd; cases hkd
    · rw [e3] at hkd'; cases hkd'
  llsc := by
    rintro ⟨t, p, k⟩ _ l s z ht hp ⟨h, hk, _⟩ _ hl
    exfalso
    simp only at hk
    subst hk
    obtain ⟨hkd, hn⟩ := at_cases h
    simp only at hkd
    rcases hn with ⟨_, _, rfl⟩ | ⟨_, _, rfl⟩ | ⟨_, _, rfl⟩ | ⟨_, _, rfl⟩
    · rw [e0] at hkd; cases hkd
    · rw [ll0] at hl; cases hl
    · rw [e2] at hkd; cases hkd
    · rw [ll1] at hl; cases hl

/-- The hypotheses of C42 can be met, and it is not C41: in this coherent execution of two threads on x86_64, each
stores to its object and then loads, by a SeqCst load, the old value of the other's object. -/
theorem C42_example : ∃ (X : AxShape 64) (rf : Node → Nat → Option Node) (items : Nat → List (Item 64)),
    CohRun (X86.backend64 c64) (fun _ => True) (fun _ _ => True) 32 0x1000 X rf 2 items ∧
    (opsOf (items 0)).map (fun d => (d.call, d.ret)) = [(.store .release 32 0x1000 1, .unit), (.load .seqCst 32 0x2000, .bits 32 0)] ∧
    (opsOf (items 1)).map (fun d => (d.call, d.ret)) = [(.store .release 32 0x2000 1, .unit), (.load .seqCst 32 0x1000, .bits 32 0)] := by
  refine ⟨shape (movOwn 0x1000) (ldOwn 0x2000 zero) (movOwn 0x2000) (ldOwn 0x1000 zero) zero lateStores, fun _ _ => none,
    relaxedItems, ⟨?_, .inr (.inr (.inl rfl)), rfl, ?_, ?_, ?_, ?_⟩, ?_, ?_⟩
  · refine coh_relaxed (x := 0x1000) (y := 0x2000) (n := 4) (by decide) rfl rfl rfl rfl ?_ ?_ ?_ ?_ rfl rfl rfl rfl <;>
      simp [movOwn, ldOwn, Instr.wrFoot, Instr.rdFoot, X86.mov_st, X86.mov_ld, X86.ea, movReg, ldReg]
  · intro t ht
    match t, ht with
    | t + 2, _ => rfl
  · intro t
    match t with
    | 0 => rfl
    | 1 => rfl
    | t + 2 => rfl
  · intro t d hd
    have hs : IsSize 32 := .inr (.inr (.inl rfl))
    match t with
    | 0 =>
      rcases List.mem_cons.1 hd with h | hd
      · cases h; exact ⟨movDone_ok _, trivial, ⟨hs, rfl, .inl ⟨rfl, rfl⟩⟩, fun _ => trivial⟩
      · cases List.mem_singleton.1 hd; exact ⟨ldDone_ok _ _, trivial, ⟨hs, rfl, .inr (.inr (by decide))⟩, fun _ => trivial⟩
    | 1 =>
      rcases List.mem_cons.1 hd with h | hd
      · cases h; exact ⟨movDone_ok _, trivial, ⟨hs, rfl, .inr (.inr (by decide))⟩, fun _ => trivial⟩
      · cases List.mem_singleton.1 hd; exact ⟨ldDone_ok _ _, trivial, ⟨hs, rfl, .inl ⟨rfl, rfl⟩⟩, fun _ => trivial⟩
    | t + 2 => cases hd
  · intro t o x ho
    match t with
    | 0 => simp [relaxedItems] at ho
    | 1 => simp [relaxedItems] at ho
    | t + 2 => cases ho
  all_goals
    simp only [relaxedItems, opsOf, List.filterMap_cons, List.filterMap_nil, List.map_cons, List.map_nil, ldDone_ret, zero_load]
    rfl

end SB
end Verif
