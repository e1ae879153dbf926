
/-- The hypotheses are met, with two objects in one machine word: on RISC-V without zabha, thread 0 is inside a swap of the
byte at 0x1000 while thread 1 swaps the byte at 0x1001 (both by LR/SC of the word at 0x1000); the history of each of the
two bytes is regular. -/
example : ∃ tr g r1, GRun (RiscV.backend .little 32 false) (fun _ => True) ⟨fun _ => 0, fun _ => .idle⟩ tr g ∧
    objectPart 8 0x1000 (GEv.vis tr) = [.inv 0 (.swap .acqRel 8 0x1000 7)] ∧
    objectPart 8 0x1001 (GEv.vis tr) = [.inv 1 (.swap .relaxed 8 0x1001 9), .ret 1 (.swap .relaxed 8 0x1001 9) r1] ∧
    VRegular .little 8 0x1000 (fun _ _ => True) (GEv.vis tr) ∧
    VRegular .little 8 0x1001 (fun _ _ => True) (GEv.vis tr) := by
  have hal : ∀ p : BitVec 32, SubPtr 32 8 p := fun p => ⟨by omega, .inl rfl⟩
  have h0 := RiscV.Swap.lrsc (e := .little) (zabha := false) (Alloc.std _) .acqRel (0x1000#32) (7#8) rfl (.inl rfl) (hal _)
  have h1 := RiscV.Swap.lrsc (e := .little) (zabha := false) (Alloc.std _) .relaxed (0x1001#32) (9#8) rfl (.inl rfl) (hal _)
  have hpr : (RiscV.backend .little 32 false).ProgressOK := RiscV.progress .little false
  have s0 := (GRun.nil (A := RiscV.backend .little 32 false) (P := fun _ => True) (g0 := ⟨fun _ => 0, fun _ => .idle⟩)).snoc
    (.inv _ 0 (.swap .acqRel 8 0x1000 7) _ _ none rfl trivial trivial h0
      (argRegs_pre (by simp [RiscV.subSwapBlock]) (by simp [RiscV.subSwapBlock])))
  have s1 := s0.snoc (.inv _ 1 (.swap .relaxed 8 0x1001 9) _ _ none (by simp [upd]) trivial trivial h1
      (argRegs_pre (by simp [RiscV.subSwapBlock]) (by simp [RiscV.subSwapBlock])))
  obtain ⟨t1, g1, r1, hr, _, hown, _⟩ := Backend.nonBlocking _ hpr _ _ _ s1 1 _ _ _ _ _ (by simp only [upd, if_true]; rfl)
  have hv : GEv.vis t1 = [] := vis_own hown
  refine ⟨_, g1, r1, hr, ?_, ?_, ?_, ?_⟩
  · simp [GEv.vis_append', hv, GEv.vis, objectPart, Call.On, Call.width, Call.addr]
  · simp [GEv.vis_append', hv, GEv.vis, objectPart, Call.On, Call.width, Call.addr]
  all_goals
    simp only [GEv.vis_append', hv, GEv.vis, List.nil_append, List.append_nil, List.cons_append]
    refine ⟨fun i c hm => ?_, fun m m' hm => by simp at hm⟩
    simp only [List.mem_cons, VEv.h.injEq, HEv.inv.injEq, List.not_mem_nil, or_false, reduceCtorEq] at hm
    rcases hm with ⟨-, rfl⟩ | ⟨-, rfl⟩ <;> simp [Call.On, Call.Off, Call.width, Call.addr]
