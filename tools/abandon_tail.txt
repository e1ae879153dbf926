
/-- An abandoned operation: a `swap` of a byte on RV32 that has executed two of its instructions, is not finished, and
falls under the theorems above. -/
example : ∃ (B : Block 32 8) (c0 : Cfg 32) (tr : List TEv) (cfg : Cfg 32),
    (RiscV.backend .little 32 false).Runs (.swap .seqCst 8 7 0x5A#8) B ∧ c0.pc = 0 ∧ B.pre c0.rs ∧
      Run .little B.code c0 tr cfg ∧ cfg.pc < B.code.length ∧ tr.length = 2 := by
  let B : Block 32 8 := RiscV.subSwapBlock .little (Alloc.std _) 8 (RiscV.lrscOrder .seqCst) 7#32 0x5A#8
  have hp : B.pre (argRegs B.args) := argRegs_pre (by decide) (by decide)
  exact ⟨B, ⟨0, argRegs B.args, fun _ => 0, none⟩, _, _,
    RiscV.Swap.lrsc (Alloc.std _) .seqCst 7#32 _ rfl (.inl rfl) (.native (by decide)), rfl, hp,
    .own (.own .nil rfl (.op _ _ ⟨0⟩)) rfl (.op _ _ ⟨0⟩), by decide, rfl⟩
