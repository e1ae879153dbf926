
/-- Executions of the methods that return exist: a `Release` store and an `Acquire` load of a word on Armv7, with
another thread changing memory in between. -/
example : (∃ tr cs, (storeM 32 0x1000 7#32 .release).Returns (Arm.backend .little ⟨true, false⟩) tr cs ()) ∧
    ∃ tr cs r, (loadM 32 0x1000 .acquire).Returns (Arm.backend .little ⟨true, false⟩)
      (.env (fun _ => 0) (fun _ => 1) :: tr) cs r := by
  have hpr : (Arm.backend .little ⟨true, false⟩).ProgressOK := Arm.C20_arm .little ⟨true, false⟩
  have hs := Arm.Store.word (e := .little) (c := ⟨true, false⟩) (o := .release) (Alloc.std _) (0x1000#32) (7#32)
    (.inr rfl) rfl
  have hl := Arm.Load.word (e := .little) (c := ⟨true, false⟩) (o := .acquire) (Alloc.std _) (0x1000#32)
    (w := 32) (.inr rfl) rfl
  constructor
  · obtain ⟨t, rs, h⟩ := (hpr _ (.store hs)).completed' (by simp [Arm.storeBlock]) (by simp [Arm.storeBlock])
    exact ⟨_, _, _, Method.Run.call (c := .store .release 32 0x1000 7) .start rfl hs h, rfl⟩
  · obtain ⟨t, rs, h⟩ := (hpr _ (.load hl)).completed' (by simp [Arm.loadBlock]) (by simp [Arm.loadBlock])
    exact ⟨_, _, _, _, Method.Run.call (c := .load .acquire 32 0x1000) (Method.Run.env .start _ _) rfl hl h, rfl⟩
