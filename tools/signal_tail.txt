
/-- A run as in C57, on Armv7: a `swap` of a byte is interrupted after its first instruction by a handler that stores to the same byte
(its word is the one in which the `swap` works), and goes on afterwards. -/
example (m0 : Mem) : ∃ t2 t1 r1 r2 n, NRun (Arm.backend .little ⟨true, false⟩) (fun _ => True) m0
    ([.inv 0 0 (.swap .acqRel 8 0x1001 5), .own 0 0, .enter 0, .inv 0 1 (.store .release 8 0x1001 7)] ++ t2 ++
      [.ret 0 1 (.store .release 8 0x1001 7) r2, .leave 0] ++ t1 ++ [.ret 0 0 (.swap .acqRel 8 0x1001 5) r1]) n ∧
    (∀ x ∈ t2, x = .own 0 1) ∧ ∀ x ∈ t1, x = .own 0 0 := by
  have hs := Arm.Swap.word (e := .little) (c := ⟨true, false⟩) (o := .acqRel) (Alloc.std _) (0x1001#32) (5#8) (.inl (.inl rfl))
  have ht := Arm.Store.word (e := .little) (c := ⟨true, false⟩) (o := .release) (Alloc.std _) (0x1001#32) (7#8) (.inl (.inl rfl)) rfl
  have hpr : (Arm.backend .little ⟨true, false⟩).ProgressOK := Arm.C20_arm .little ⟨true, false⟩
  obtain ⟨_, _, c1, _, _, hp1, _⟩ := (hpr _ (.swap hs)).completed' (by simp [Arm.swapBlock]) (by simp [Arm.swapBlock])
  obtain ⟨_, _, c2, _, _, hp2, _⟩ := (hpr _ (.store ht)).completed' (by simp [Arm.storeBlock]) (by simp [Arm.storeBlock])
  exact Backend.interrupted_run hpr m0 (.swap .acqRel 8 0x1001 5) (.store .release 8 0x1001 7)
    trivial rfl hs ht hp1 hp2 (by simp [Arm.swapBlock, Arm.swapAsm])
