
/-- A closure that panics when called. -/
private def boom : PClosure 32 := ⟨Unit, (), fun _ _ => none⟩
/-- A closure that increments. -/
private def inc : PClosure 32 := ⟨Unit, (), fun _ v => some (some (v + 1), ())⟩

/-- Executions as in C56 exist, on Armv7: `fetch_update(AcqRel, Acquire, ..)` with a closure that panics after the load has been
executed; and one that is stopped inside its `compare_exchange_weak`, after some steps of it. -/
example : (∃ tr cs, (fetchUpdateP 32 0x1000 .acqRel .acquire boom).Panics (Arm.backend .little ⟨true, false⟩) tr cs ∧
      cs ≠ []) ∧
    ∃ t1 cs prev c k B c0 t2 cfg, (fetchUpdateP 32 0x1000 .acqRel .acquire inc).Run (Arm.backend .little ⟨true, false⟩) t1 cs
      (.set prev (prev + 1) ()) ∧ (fetchUpdateP 32 0x1000 .acqRel .acquire inc).act (.set prev (prev + 1) ()) = .call c k ∧
      (Arm.backend .little ⟨true, false⟩).Runs c B ∧ c0.pc = 0 ∧ B.pre c0.rs ∧ Run .little B.code c0 t2 cfg ∧
      t2 ≠ [] ∧ (fetchUpdateP 32 0x1000 .acqRel .acquire inc).Stopped (Arm.backend .little ⟨true, false⟩) (t1 ++ t2) := by
  have hpr : (Arm.backend .little ⟨true, false⟩).ProgressOK := Arm.C20_arm .little ⟨true, false⟩
  have hl := Arm.Load.word (e := .little) (c := ⟨true, false⟩) (o := .acquire) (Alloc.std _) (0x1000#32)
    (w := 32) (.inr rfl) rfl
  obtain ⟨B1, hl, t, rs, h⟩ : ∃ B, (Arm.backend .little ⟨true, false⟩).Load .acquire 32 0x1000 B ∧
      ∃ t rs, B.Completed Endian.little t rs :=
    ⟨_, hl, (hpr _ (.load hl)).completed' (by simp [Arm.loadBlock]) (by simp [Arm.loadBlock])⟩
  constructor
  · exact ⟨_, _, ⟨_, Method.Run.call (c := .load .acquire 32 0x1000) .start rfl hl h, rfl⟩, by simp⟩
  · have hr := Method.Run.call (M := fetchUpdateP 32 0x1000 .acqRel .acquire inc) (A := Arm.backend .little ⟨true, false⟩)
      (c := .load .acquire 32 0x1000) .start rfl hl h
    have hw := Arm.CasWeak.word (e := .little) (c := ⟨true, false⟩) (s := .acqRel) (f := .acquire) (g := .weak Arm.dmb Arm.dmb) (Alloc.std _) (0x1000#32)
      (B1.out rs) (B1.out rs + 1) (.inr rfl) rfl rfl
    obtain ⟨t2, rs2, c0, cfg, h0, hp, hrun, hpc, -⟩ := (hpr _ (.casWeak hw)).completed' (by simp [Arm.casFrame]) (by simp [Arm.casFrame])
    refine ⟨_, _, B1.out rs, _, _, _, c0, t2, cfg, hr, rfl, hw, h0, hp, hrun, ?_, ⟨_, _, _, hr, .inr ⟨_, _, _, c0, t2, cfg, rfl, hw, h0, hp, hrun, rfl⟩⟩⟩
    intro ht
    cases hrun with
    | nil => rw [h0] at hpc; cases hpc
    | _ => simp at ht
