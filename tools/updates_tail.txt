
/-! ### A case that meets the hypotheses -/

private def cX : X86.Conf64 := ⟨64, .inr rfl, true⟩
private def ldX : Call := .load .relaxed 32 0x1000
private def casX (old new : BitVec 32) : Call := .cas .acqRel .relaxed 32 0x1000 old new

private theorem extX {tr : List GEv} {g : GState 64} (hr : GRun (X86.backend64 cX) (fun _ => True) ⟨fun _ => 0, fun _ => .idle⟩ tr g)
    {ops : List (Nat × Call × Ret)} (hv : GEv.vis tr = serial ops) (hidle : ∀ j, g.th j = .idle) (i : Nat) (c : Call)
    (hc : c = ldX ∨ ∃ old new, c = casX old new) :
    ∃ tr' g' r, GRun (X86.backend64 cX) (fun _ => True) ⟨fun _ => 0, fun _ => .idle⟩ tr' g' ∧
      GEv.vis tr' = serial (ops ++ [(i, c, r)]) ∧ (∀ j, g'.th j = .idle) ∧
      Legal .little (fun _ => 0) (ops ++ [(i, c, r)]) g'.mem := by
  have key : ∀ {B : Block 64 c.width} {rs}, c.Valid → (X86.backend64 cX).Runs c B → B.pre rs → _ := fun h1 h2 h3 =>
    Backend.serial_snoc (X86.progress64 cX) hr hv hidle i c trivial h1 _ h2 h3
  have : ∃ tr' g' r, GRun (X86.backend64 cX) (fun _ => True) ⟨fun _ => 0, fun _ => .idle⟩ tr' g' ∧
      GEv.vis tr' = serial (ops ++ [(i, c, r)]) ∧ ∀ j, g'.th j = .idle := by
    rcases hc with rfl | ⟨old, new, rfl⟩
    · exact key (B := X86.loadBlock (W := 64) (Alloc.std _) 32 (0x1000#64)) rfl
        (X86.Load64.word (c := cX) (Alloc.std _) .relaxed (0x1000#64) (w := 32) (.inr (.inl rfl)))
        (argRegs_pre (by simp [X86.loadBlock]) (by simp [X86.loadBlock]))
    · exact key (B := X86.casBlock (W := 64) (Alloc.std _) 32 (0x1000#64) old new) rfl
        (X86.Cas64.word (c := cX) (Alloc.std _) .acqRel .relaxed (0x1000#64) old new (w := 32) (.inr (.inl rfl)))
        (argRegs_pre (by simp [X86.casBlock]) (by simp [X86.casBlock]))
  obtain ⟨tr', g', r, h1, h2, h3⟩ := this
  exact ⟨tr', g', r, h1, h2, h3, (C21_x86_64 cX).serial h1 h2⟩

private def incX : Closure 32 := ⟨Unit, (), fun s v => (some (v + 1), s)⟩
private def wX (old new : BitVec 32) : Call := .casWeak .acqRel .relaxed 32 0x1000 old new
/-- two threads' `fetch_update(AcqRel, Relaxed, |x| Some(x + 1))`; the second retries once -/
def twoUpdates : Nat → List (FetchUpdate 32 0x1000)
  | 0 => [⟨.acqRel, .relaxed, incX, [(ldX, .bits 32 0), (wX 0 1, .cas 32 0 true)], .ok 0⟩]
  | 1 => [⟨.acqRel, .relaxed, incX, [(ldX, .bits 32 0), (wX 0 1, .cas 32 1 false), (wX 1 2, .cas 32 1 true)], .ok 1⟩]
  | _ => []

/-- The hypotheses are met: on x86-64, two threads call `fetch_update(AcqRel, Relaxed, |x| Some(x + 1))` on the same object;
both load 0, then thread 0 stores 1, thread 1's compare-exchange fails and its second one stores 2. -/
theorem C31_example_x86_64 : ∃ tr g, GRun (X86.backend64 ⟨64, .inr rfl, true⟩) (fun _ => True) ⟨fun _ => 0, fun _ => .idle⟩ tr g ∧
    (∀ i, g.th i = .idle) ∧ VRegular .little 32 0x1000 (fun _ _ => True) (GEv.vis tr) ∧
    ByFetchUpdate 2 twoUpdates (fun i => threadCalls 32 0x1000 i (GEv.vis tr)) ∧ (∀ i, ∀ u ∈ twoUpdates i, u.f.Increments) ∧
    total 2 twoUpdates = 2 ∧ load .little g.mem 0x1000 32 = 2 := by
  obtain ⟨t1, g1, r1, h1, v1, i1, -⟩ := extX (ops := []) .nil rfl (fun _ => rfl) 0 ldX (.inl rfl)
  obtain ⟨t2, g2, r2, h2, v2, i2, -⟩ := extX h1 v1 i1 1 ldX (.inl rfl)
  obtain ⟨t3, g3, r3, h3, v3, i3, -⟩ := extX h2 v2 i2 0 (casX 0 1) (.inr ⟨_, _, rfl⟩)
  obtain ⟨t4, g4, r4, h4, v4, i4, -⟩ := extX h3 v3 i3 1 (casX 0 1) (.inr ⟨_, _, rfl⟩)
  obtain ⟨t5, g5, r5, h5, v5, i5, l5⟩ := extX h4 v4 i4 1 (casX 1 2) (.inr ⟨_, _, rfl⟩)
  have hz : load .little (fun _ => 0) 0x1000 32 = 0 := by
    ext i hi; rw [← BitVec.getLsbD_eq_getElem, getLsbD_load]; simp
  have hs : ∀ (m : Mem) (v : BitVec 32), load .little (store .little m 0x1000 32 v) 0x1000 32 = v :=
    fun m v => load_store (by decide) v
  simp only [List.nil_append, List.cons_append, Legal, Call.Sem, ldX, casX, LoadSpec, CasSpec] at l5
  obtain ⟨m1, ⟨x1, ⟨rfl, rfl⟩, rfl⟩, m2, ⟨x2, ⟨rfl, rfl⟩, rfl⟩, m3, ⟨x3, k3, ⟨rfl, q3⟩, rfl⟩, m4, ⟨x4, k4, ⟨rfl, q4⟩, rfl⟩,
    m5, ⟨x5, k5, ⟨rfl, q5⟩, rfl⟩, rfl⟩ := l5
  rw [hz] at *
  rcases q3 with ⟨-, rfl, rfl⟩ | ⟨hne, -⟩
  case inr => exact absurd rfl hne
  rw [hs] at *
  rcases q4 with ⟨hne, -⟩ | ⟨-, rfl, rfl⟩
  case inl => exact absurd hne (by decide)
  rw [hs] at *
  rcases q5 with ⟨-, rfl, hm⟩ | ⟨hne, -⟩
  case inr => exact absurd rfl hne
  have hr := GRun.sameCode (A := (X86.backend64 cX).weakened) (A' := X86.backend64 cX) (P' := fun _ => True) rfl (by
    intro c B _ hB
    refine ⟨trivial, ?_⟩
    cases c with
    | cas => exact hB.elim
    | casWeak => exact hB.elim id id
    | _ => exact hB) (grun_weaken h5)
  have hv := vis_weaken t5
  rw [v5] at hv
  refine ⟨_, _, hr, fun i => by simp only [i5]; rfl, ?_, ?_, ?_, by decide, ?_⟩
  · rw [hv]
    refine ⟨fun i c hm => .inl ⟨?_, trivial⟩, fun m m' hm => ?_⟩
    · simp [serial, VEv.weaken, HEv.weaken, ldX, casX, Call.weaken] at hm
      rcases hm with ⟨-, rfl⟩ | ⟨-, rfl⟩ | ⟨-, rfl⟩ | ⟨-, rfl⟩ | ⟨-, rfl⟩ <;> simp [Call.On, Call.width, Call.addr]
    · simp [serial, VEv.weaken] at hm
  · refine ⟨fun i hi => ?_, fun i u hu => ?_, fun i => ?_⟩
    · match i, hi with
      | n + 2, _ => rfl
    · match i, hu with
      | 0, hu =>
        cases List.mem_singleton.1 hu
        exact ⟨_, ((Method.Follows.start.call (c := ldX) rfl (0 : BitVec 32)).call (c := wX 0 1) rfl
          ((0 : BitVec 32), true)), rfl⟩
      | 1, hu =>
        cases List.mem_singleton.1 hu
        exact ⟨_, (((Method.Follows.start.call (c := ldX) rfl (0 : BitVec 32)).call (c := wX 0 1) rfl
          ((1 : BitVec 32), false)).call (c := wX 1 2) rfl ((1 : BitVec 32), true)), rfl⟩
    · simp only [hv]
      match i with
      | 0 => rfl
      | 1 => rfl
      | n + 2 => simp [threadCalls, serial, VEv.rets, VEv.weaken, HEv.weaken, twoUpdates]
  · intro i u hu s v
    match i, hu with
    | 0, hu => cases List.mem_singleton.1 hu; rfl
    | 1, hu => cases List.mem_singleton.1 hu; rfl
  · simp only [hm]; exact hs _ _
