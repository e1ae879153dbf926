
/-! ### Violations: `fetch_update` of 32-bit objects on riscv64, mips64 and loongarch64 -/

theorem Finishes.alone {e : Endian} {W : Nat} {P : List (Instr W)} {n : Nat} {c0 c : Cfg W} (hr : QSteps e P c0 c)
    (h : Finishes e P n c) : ∃ c', QSteps e P c0 c' ∧ c'.pc = P.length := by
  induction n generalizing c with
  | zero => exact ⟨c, hr, h⟩
  | succ n ih =>
    rcases h with h | ⟨i, hi, ⟨c', hq⟩, h3⟩
    · exact ⟨c, hr, h⟩
    · exact ih (hr.step hi hq) (h3 c' hq)

/-- A block with progress, called alone, is finished in some run. -/
theorem Block.Progress.alone {W w : Nat} {e : Endian} {B : Block W w} (h : B.Progress e) {rs : RS W} (hp : B.pre rs)
    (m : Mem) : ∃ c', QSteps e B.code ⟨0, rs, m, none⟩ c' ∧ c'.pc = B.code.length := by
  obtain ⟨N, -, hN⟩ := h
  exact (hN ⟨0, rs, m, none⟩ [] _ rfl hp .nil).alone .refl

/-- The closure `|x| Some(x)`. -/
def idClosure (w : Nat) : Closure w := ⟨Unit, (), fun _ x => (some x, ())⟩

/-- If a weak compare_exchange of zeros that runs alone may fail, `fetch_update(|x| Some(x))` of a zero need not return. -/
theorem livelock {A : Backend 64} {B : Block 64 32} (hB : A.CasWeak .relaxed .relaxed 32 0 0#32 0#32 B) (hw : A.WeakCasAtomic)
    (hr : ∃ rs m', B.Alone A.e zeroMem rs m' ∧ B.ok rs = false) (n : Nat) :
    ¬ (fetchUpdateM 32 0 .relaxed .relaxed (idClosure 32)).EndsAlone A n (.set 0#32 0#32 ()) zeroMem := by
  induction n with
  | zero => exact fun h => h _ _ rfl
  | succ n ih =>
    intro h
    obtain ⟨rs, m', hr, hok⟩ := hr
    have := (h _ _ rfl B hB).2 rs m' hr
    obtain ⟨rs0, hq⟩ := hr.quiet
    obtain ⟨h1, ⟨_, h2, _⟩ | ⟨_, rfl⟩⟩ := (hw _ _ _ _ _ _ _ hB).quiet hq
    · rw [hok] at h2; cases h2
    · rw [show load A.e zeroMem 0 32 = 0#32 from load_zero _ _ _] at h1
      simp [Call.value, toResult, hok, h1, FU.next, idClosure] at this
      exact ih this

/-- From the start. -/
theorem livelock_start {A : Backend 64} {B : Block 64 32} (hB : A.CasWeak .relaxed .relaxed 32 0 0#32 0#32 B)
    (hw : A.WeakCasAtomic) (hr : ∃ rs m', B.Alone A.e zeroMem rs m' ∧ B.ok rs = false) (hl : A.LoadsAtomic)
    (hld : ∃ L : Block 64 32, A.Load .relaxed 32 0 L ∧ L.Progress A.e ∧ ∃ rs, L.pre rs) :
    ∀ n, ¬ (fetchUpdateM 32 0 .relaxed .relaxed (idClosure 32)).EndsAlone A n .start zeroMem := by
  rintro (_ | n) h
  · exact h _ _ rfl
  · obtain ⟨L, hL, hp, rs, hpre⟩ := hld
    obtain ⟨c', hs, hc⟩ := hp.alone hpre zeroMem
    have hal : L.Alone A.e zeroMem c'.rs c'.mem := ⟨_, c', rfl, hpre, rfl, hs, hc, rfl, rfl⟩
    have := (h _ _ rfl L hL).2 _ _ hal
    obtain ⟨rs0, hq⟩ := hal.quiet
    obtain ⟨h1, h2⟩ := (hl _ _ _ _ hL).quiet hq
    rw [show load A.e zeroMem 0 32 = 0#32 from load_zero _ _ _] at h1
    rw [h2] at this
    simp only [Call.value, h1] at this
    exact livelock hB hw hr n this

/-- Non-vacuity: a method that is in the middle of its second call, and a call that succeeds alone: on Armv7, memory all zero,
`compare_exchange_weak(0, 1)` of 32 bits at address 0. -/
example (e : Endian) (c : Arm.Conf) : ∃ (B : Block 32 32) (rs : RS 32) (m' : Mem),
    (Arm.backend e c).CasWeak .relaxed .relaxed 32 0 0#32 1#32 B ∧ B.Alone e zeroMem rs m' ∧ B.ok rs = true := by
  have hB : (Arm.backend e c).CasWeak .relaxed .relaxed 32 0 0#32 1#32
      (Arm.casFrame e c (Alloc.std _) 32 (Arm.weakAsm c (Alloc.std (Arm.casKind c)) 32 _) 0#32 0#32 1#32) :=
    .word (Alloc.std _) (0#32) 0#32 1#32 (.inr rfl) rfl rfl
  obtain ⟨c', hs, hc⟩ := (Arm.C20_arm e c _ (.casWeak hB)).alone (argRegs_pre (by simp [asm]) (by simp [asm])) zeroMem
  have hal : Block.Alone e _ zeroMem c'.rs c'.mem :=
    ⟨_, c', rfl, argRegs_pre (by simp [asm]) (by simp [asm]), rfl, hs, hc, rfl, rfl⟩
  refine ⟨_, c'.rs, c'.mem, hB, hal, ?_⟩
  obtain ⟨_, h | h⟩ := Arm.weakAlone e c _ _ _ _ _ _ _ trivial hB _ _ _ hal
  · exact h.2.1
  · exact absurd (load_zero _ _ _) h.1
----

namespace $N
theorem bad_alone $B : ∃ rs m', badBlock.Alone e zeroMem rs m' ∧ badBlock.ok rs = false := by
  have hp : badBlock.pre badRegs := by
    intro x hx
    simp only [badBlock, casBlock, List.mem_cons, List.not_mem_nil, or_false] at hx
    rcases hx with rfl | rfl | rfl <;> simp [badRegs]
  obtain ⟨c', hs, hc⟩ := (C20_$U $A badBlock (.cas (A := $E) (s := .relaxed) (f := .relaxed) (a := 0) (old := 0#32)
    (new := 0#32) ($CAS))).alone hp zeroMem
  have hs : QSteps e _ _ _ := hs
  refine ⟨_, _, ⟨_, c', rfl, hp, rfl, hs, hc, rfl, rfl⟩, ?_⟩
  refine qpost_sound (Q := fun rs _ => badBlock.ok rs = false) (n := 60) ?_ hs hc
  simp [asm, badBlock, badRegs, show load e zeroMem 0 32 = 0#32 from load_zero _ _ _]
end $N

/-- C45 fails for 32-bit objects on $T: `fetch_update(|x| Some(x))`, running alone, may call compare_exchange_weak again
and again, because $W, so the undefined upper half of the register with `prev` makes it fail. -/
theorem C45_$T_violated $B :
    ∀ n, ¬ (fetchUpdateM 32 0 .relaxed .relaxed (idClosure 32)).EndsAlone ($N.$E) n .start zeroMem :=
  livelock_start (A := $N.$E) (B := $N.badBlock)
    ($CAS)
    ($N.C05_$U $A) ($N.bad_alone $Z) ($N.C01_$U $A)
    ⟨_, .mk (Alloc.std $N.loadKind) (o := .relaxed) (0#64) (.inr (.inl rfl)) rfl,
      $N.C20_$U $A _ (.load (.mk (Alloc.std $N.loadKind) (o := .relaxed) (0#64) (.inr (.inl rfl)) rfl)),
      _, argRegs_pre (by simp [asm]) (by simp [asm])⟩
