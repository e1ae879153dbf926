
/-! ### The hypotheses are met -/

/-- Two threads on MIPS that swap, under any schedule whatsoever: there is a run as `C46_mips32`
assumes, and in it operations return again and again. -/
example (e : Endian) (sched : Nat → Nat) (hs : ∀ n, sched n < 2) :
    ∃ st ev, Endless (Mips.backend e 32) (fun _ => True) st ev ∧ (∀ n, (ev n).thread = some (sched n)) ∧
      ∀ n, ∃ m, n ≤ m ∧ (ev m).returns := by
  have hs1 : ∀ i : Nat, ∃ B : Block 32 32, (Mips.backend e 32).Runs (.swap .seqCst 32 64 7#32) B ∧ ∃ rs, B.pre rs := fun _ =>
    ⟨_, .word (Alloc.std Mips.swapKind) .seqCst (64#32) 7#32 (.inl rfl), _, argRegs_pre (by simp [asm]) (by simp [asm])⟩
  obtain ⟨st, ev, h1, h2, h3, -⟩ := exists_endless (P := fun _ => True) (Mips.C20_mips (W := 32) e (.inl rfl)) zeroMem sched
    (fun _ => .swap .seqCst 32 64 7#32) (fun _ => trivial) (fun _ => trivial) hs1
  refine ⟨st, ev, h1, h2, C46_mips32 e _ st ev 2 h1 (fun n i h => ?_) ⟨0, fun n _ => by rw [h2]; simp⟩ h3⟩
  rw [h2] at h
  injection h with h
  exact h ▸ hs n

/-- The assumption on the hardware is needed: if store-conditionals may fail for ever, a swap on MIPS, running alone, may
retry for ever. -/
theorem Mips.spurious (e : Endian) : ∃ st ev, Endless (Mips.backend e 32) (fun _ => True) st ev ∧
    ev 0 = .h (.inv 0 (.swap .relaxed 32 64 7#32)) ∧ ∀ n, (ev (n + 1)).executes 0 := by
  let c : Call := .swap .relaxed 32 64 7#32
  let B : Block 32 32 := Mips.swapBlock (Alloc.std Mips.swapKind) 32 (Mips.rmwFences .relaxed) 64#32 7#32
  let t := Alloc.std Mips.swapKind .tmp
  refine exists_stuck zeroMem (fun g => ∃ pc rs r, g.th 0 = Thread.run c B pc rs r ∧ (pc ≤ 3 ∨ pc = 4 ∧ rs.r t = 0)) _ _
    (.inv _ 0 c B _ none rfl trivial trivial
      (.word (Alloc.std Mips.swapKind) .relaxed (64#32) 7#32 (.inl rfl)) (argRegs_pre (by simp [B, asm]) (by simp [B, asm]))) ?_ ?_
  · exact ⟨0, _, none, rfl, .inl (by decide)⟩
  · rintro g ⟨pc, rs, r, hg, hpc⟩
    have go : ∀ ins ev (c' : Cfg 32), B.code[pc]? = some ins → Step e ins ⟨pc, rs, g.mem, r⟩ ev c' → c'.mem = g.mem →
        (c'.pc ≤ 3 ∨ c'.pc = 4 ∧ c'.rs.r t = 0) →
        ∃ x g', GStep (Mips.backend e 32) (fun _ => True) g x g' ∧ x.executes 0 ∧
          ∃ pc rs r, g'.th 0 = Thread.run c B pc rs r ∧ (pc ≤ 3 ∨ pc = 4 ∧ rs.r t = 0) := by
      intro ins ev c' hi hs hm hq
      refine ⟨_, _, .own g 0 c B pc rs r ins ev c' (upd g.th 0 (.run c B c'.pc c'.rs c'.resv)) hg hi hs (by simp [upd]) ?_,
        rfl, c'.pc, c'.rs, c'.resv, by simp [upd], hq⟩
      intro j hj
      simp only [upd, if_neg hj, hm]
      exact disturbed_refl _ _
    rcases hpc with hpc | ⟨rfl, hr⟩
    · match pc, hpc with
      | 0, _ => exact go _ _ _ rfl (.fence ..) rfl (.inl (Nat.le_of_ble_eq_true rfl))
      | 1, _ => exact go _ _ _ rfl (.ll ..) rfl (.inl (Nat.le_of_ble_eq_true rfl))
      | 2, _ => exact go _ _ _ rfl (.op _ _ ⟨0⟩) rfl (.inl (Nat.le_of_ble_eq_true rfl))
      | 3, _ => exact go _ _ _ rfl (.scFail _ _ _ _ _ _ 0) rfl (.inr ⟨rfl, by simp [asm, t]⟩)
    · exact go _ _ _ rfl (.br ..) rfl (.inl (by simp [asm, show rs.r (Alloc.std Mips.swapKind .tmp) = 0 from hr]))

/-- So swap is not wait-free on MIPS; `C47_mips` does not claim it. -/
theorem Mips.swap_not_waitFree (e : Endian) (N : Nat) :
    ¬ (Mips.backend e 32).WaitFree (fun c => ∃ o w a v, c = .swap o w a v) N := by
  obtain ⟨st, ev, h, h0, hx⟩ := Mips.spurious e
  exact not_waitFree h h0 hx ⟨_, _, _, _, rfl⟩ N
