
/-! ### The hypotheses are met -/

/-- The closure `|x| Some(x + 1)`. -/
def incClosure (w : Nat) : Closure w := ⟨Unit, (), fun _ x => (some (x + 1), ())⟩

/-- Two threads on MIPS that call `fetch_update(SeqCst, SeqCst, |x| Some(x + 1))` of the same object for ever, under any
schedule whatsoever: there is a run as `C52_mips32` assumes, and in it `fetch_update` returns again and again. -/
example (e : Endian) (sched : Nat → Nat) (hs : ∀ n, sched n < 2) :
    ∃ st ev mp, Endless (Mips.backend e 32) (fun _ => True) st ev ∧ ByMethods (fun _ => True) st ev mp ∧
      (∀ n i, mp n i = .out ∨ ∃ s, mp n i = .within (fetchUpdateM 32 64 .seqCst .seqCst (incClosure 32)) s) ∧
      (∀ n, (ev n).thread = some (sched n)) ∧ ∀ n, ∃ m, n ≤ m ∧ ∃ i, mp m i ≠ .out ∧ mp (m + 1) i = .out := by
  have hf : Feasible (Mips.backend e 32) (fun _ => True) (fun _ => True) fun _ => fetchUpdateM 32 64 .seqCst .seqCst (incClosure 32) := by
    refine ⟨fun _ => .fetchUpdate _ _ _ _ _ trivial, fun _ => ⟨_, _, rfl⟩, fun _ s c k ha => ⟨trivial, ?_⟩⟩
    cases s with
    | start =>
      simp only [fetchUpdateM] at ha
      cases ha
      exact ⟨rfl, _, .mk (Alloc.std Mips.loadKind) (64#32) (.inr (.inl rfl)) rfl, _, argRegs_pre (by simp [asm]) (by simp [asm])⟩
    | set prev nx σ =>
      simp only [fetchUpdateM] at ha
      cases ha
      exact ⟨rfl, _, .word (Alloc.std Mips.casKind) .seqCst .seqCst (64#32) prev nx (.inl rfl) rfl, _, argRegs_pre (by simp [asm]) (by simp [asm])⟩
    | fin x => simp [fetchUpdateM] at ha
  obtain ⟨st, ev, mp, h1, h2, ho, h3, h4, -⟩ := exists_endless_methods (Mips.C20_mips e (.inl rfl)) hf zeroMem sched
  refine ⟨st, ev, mp, h1, h2, fun n i => ?_, h3, C52_mips32 e _ st ev 2 mp h1 h2 (fun n i h => ?_) ⟨0, fun n _ => by rw [h3]; simp⟩ h4⟩
  · have := ho n i
    generalize mp n i = p at this
    cases p with
    | out => exact .inl rfl
    | within M s => exact .inr this
  · rw [h3] at h
    injection h with h
    exact h ▸ hs n

/-! ### Violations: `fetch_update` of 32-bit objects on riscv64, mips64 and loongarch64 -/

section
variable {A : Backend 64} (L B : Block 64 32) (rsL rsB : RS 64)

/-- `fetch_update(|x| Some(x))` of the 32-bit object at address 0. -/
abbrev idUpdate : Method (Except (BitVec 32) (BitVec 32)) := fetchUpdateM 32 0 .relaxed .relaxed (idClosure 32)

/-- Thread 0, alone, calls it with a zero there. -/
inductive Live (A : Backend 64) : GState 64 → MPos → Prop where
  | start : Live A ⟨zeroMem, fun _ => .idle⟩ .out
  | load (g c) (hq : QSteps A.e L.code ⟨0, rsL, zeroMem, none⟩ c) (hm : g.mem = c.mem)
      (ht : g.th 0 = .run (.load .relaxed 32 0) L c.pc c.rs c.resv) : Live A g (.within idUpdate .start)
  | idle (g) (hm : g.mem = zeroMem) (ht : g.th 0 = .idle) : Live A g (.within idUpdate (.set 0#32 0#32 ()))
  | cas (g c) (hq : QSteps A.e B.code ⟨0, rsB, zeroMem, none⟩ c) (hm : g.mem = c.mem)
      (ht : g.th 0 = .run (.casWeak .relaxed .relaxed 32 0 0#32 0#32) B c.pc c.rs c.resv) : Live A g (.within idUpdate (.set 0#32 0#32 ()))

variable {L B rsL rsB} (hp : A.ProgressOK) (h1 : A.LoadsAtomic) (h5 : A.WeakCasAtomic) (hL : A.Load .relaxed 32 0 L) (hpL : L.pre rsL)
  (hB : A.CasWeak .relaxed .relaxed 32 0 0#32 0#32 B) (hpB : B.pre rsB)
  (hbad : ∀ c', QSteps A.e B.code ⟨0, rsB, zeroMem, none⟩ c' → c'.pc = B.code.length → B.ok c'.rs = false)
include hp h1 h5 hL hpL hB hpB hbad

theorem Live.step {tr : List GEv} {g : GState 64} {p : MPos} (hg : Live L B rsL rsB A g p)
    (hr : GRun A (fun _ => True) ⟨zeroMem, fun _ => .idle⟩ tr g) :
    ∃ x g' p', NiceStep A (fun _ => True) 0 g x g' ∧ MStep (fun _ => True) 0 (g.th 0) x p p' ∧ p' ≠ .out ∧ Live L B rsL rsB A g' p' := by
  have call : ∀ (c : Call) (B : Block 64 c.width) rs, g.th 0 = .idle → c.Valid → A.Runs c B → B.pre rs →
      NiceStep A (fun _ => True) 0 g (.h (.inv 0 c)) ⟨g.mem, upd g.th 0 (.run c B 0 rs none)⟩ := by
    intro c B rs ht h2 hB hpre
    refine ⟨.inv g 0 c B rs none ht trivial h2 hB hpre, rfl, fun h => h.elim, fun _ j hj => ?_⟩
    simp only [upd, if_neg hj]
  have go : ∀ (c : Call) (B : Block 64 c.width) (rs0 : RS 64) (cfg : Cfg 64), A.Runs c B → c.Valid → B.pre rs0 → QSteps A.e B.code ⟨0, rs0, zeroMem, none⟩ cfg →
      g.mem = cfg.mem → g.th 0 = .run c B cfg.pc cfg.rs cfg.resv →
      ∃ x g', NiceStep A (fun _ => True) 0 g x g' ∧
        ((∃ cfg', ¬ x.callOf 0 ∧ ¬ x.returnOf 0 ∧ QSteps A.e B.code ⟨0, rs0, zeroMem, none⟩ cfg' ∧ g'.mem = cfg'.mem ∧
          g'.th 0 = .run c B cfg'.pc cfg'.rs cfg'.resv) ∨
        ((∃ res, x = .h (.ret 0 c res)) ∧ g'.mem = g.mem ∧ g'.th 0 = .idle ∧ cfg.pc = B.code.length)) := by
    intro c B rs0 cfg hB hv hpre hq hm ht
    obtain ⟨x, g', hn⟩ := exists_niceStep hp hr 0 trivial hv hB hpre
    refine ⟨x, g', hn, ?_⟩
    obtain ⟨hs, hthr, hex, -⟩ := hn
    cases hs with
    | inv j c' B' rs' r' hidle =>
      have : j = 0 := by simpa [GEv.thread] using hthr
      subst this
      rw [hidle] at ht; cases ht
    | ret j c' B' rs' r' hrun =>
      have : j = 0 := by simpa [GEv.thread] using hthr
      subst this
      rw [hrun] at ht
      injection ht with e1 e2 e3
      subst e1; cases e2
      exact .inr ⟨⟨_, rfl⟩, rfl, by simp [upd], e3.symm⟩
    | ext => simp [GEv.thread] at hthr
    | own j =>
      have : j = 0 := by simpa [GEv.thread] using hthr
      subst this
      obtain ⟨c1, B1, pc1, rs1, r1, ins, cfg', e1, e2, e3, e4, e5⟩ := hex rfl
      rw [ht] at e1
      injection e1 with g1 g2 g3 g4 g5
      subst g1; cases g2; subst g3 g4 g5
      rw [hm] at e3
      exact .inl ⟨cfg', id, id, hq.step e2 e3, e4, e5⟩
  cases hg with
  | start =>
    exact ⟨_, _, _, call (.load .relaxed 32 0) L rsL rfl rfl hL hpL, .start idUpdate _ _ (.fetchUpdate _ _ _ _ _ trivial) rfl, by simp,
      .load _ ⟨0, rsL, zeroMem, none⟩ .refl rfl (by simp [upd])⟩
  | idle _ hm ht =>
    exact ⟨_, _, _, call (.casWeak .relaxed .relaxed 32 0 0#32 0#32) B rsB ht rfl hB hpB, .next idUpdate _ _ _ rfl, by simp,
      .cas _ ⟨0, rsB, zeroMem, none⟩ .refl hm (by simp [upd])⟩
  | load _ c hq hm ht =>
    obtain ⟨x, g', hn, ⟨cfg', h2, h3, h4, h6, h7⟩ | ⟨⟨res, rfl⟩, hm', hid, hc⟩⟩ := go (.load .relaxed 32 0) L rsL c hL rfl hpL hq hm ht
    · exact ⟨x, g', _, hn, .other _ _ h2 h3, by simp, .load _ cfg' h4 h6 h7⟩
    · have hal : L.Alone A.e zeroMem c.rs c.mem := ⟨_, c, rfl, hpL, rfl, hq, hc, rfl, rfl⟩
      obtain ⟨rs0, hqr⟩ := hal.quiet
      obtain ⟨ho, hmem⟩ := (h1 _ _ _ _ hL).quiet hqr
      rw [show Verif.load A.e zeroMem 0 32 = 0#32 from load_zero _ _ _] at ho
      have hk : FU.next (idClosure 32) (Call.value (W := 64) (.load .relaxed 32 0) L c.rs) () = .set 0#32 0#32 () := by
        simp [Call.value, ho, FU.next, idClosure]
      refine ⟨_, g', .within idUpdate (.set 0#32 0#32 ()), hn, ?_, by simp, .idle _ (by rw [hm', hm, hmem]) hid⟩
      have := MStep.back (S := fun _ => True) (i := 0) (t := g.th 0) idUpdate .start (.load .relaxed 32 0)
        (fun prev => FU.next (idClosure 32) prev ()) L _ c.rs _ res (.casWeak .relaxed .relaxed 32 0 0#32 0#32) _ ht rfl (by rw [hk]; rfl)
      rw [hk] at this
      exact this
  | cas _ c hq hm ht =>
    obtain ⟨x, g', hn, ⟨cfg', h2, h3, h4, h6, h7⟩ | ⟨⟨res, rfl⟩, hm', hid, hc⟩⟩ :=
      go (.casWeak .relaxed .relaxed 32 0 0#32 0#32) B rsB c hB rfl hpB hq hm ht
    · exact ⟨x, g', _, hn, .other _ _ h2 h3, by simp, .cas _ cfg' h4 h6 h7⟩
    · have hal : B.Alone A.e zeroMem c.rs c.mem := ⟨_, c, rfl, hpB, rfl, hq, hc, rfl, rfl⟩
      have hok := hbad c hq hc
      obtain ⟨rs0, hqr⟩ := hal.quiet
      obtain ⟨ho, ⟨-, h2, -⟩ | ⟨-, hmem⟩⟩ := (h5 _ _ _ _ _ _ _ hB).quiet hqr
      · rw [hok] at h2; cases h2
      rw [show Verif.load A.e zeroMem 0 32 = 0#32 from load_zero _ _ _] at ho
      have ha : ∃ k, idUpdate.act (.set 0#32 0#32 ()) = .call (.casWeak .relaxed .relaxed 32 0 0#32 0#32) k ∧
          k (Call.value (W := 64) (.casWeak .relaxed .relaxed 32 0 0#32 0#32) B c.rs) = .set 0#32 0#32 () :=
        ⟨_, rfl, by simp [Call.value, toResult, hok, ho, FU.next, idClosure]; rfl⟩
      obtain ⟨k, ha, hk⟩ := ha
      refine ⟨_, g', .within idUpdate (.set 0#32 0#32 ()), hn, ?_, by simp, .idle _ (by rw [hm', hm, hmem]) hid⟩
      have := MStep.back (S := fun _ => True) (i := 0) (t := g.th 0) idUpdate (.set 0#32 0#32 ()) (.casWeak .relaxed .relaxed 32 0 0#32 0#32)
        k B _ c.rs _ res (.casWeak .relaxed .relaxed 32 0 0#32 0#32) k ht ha (by rw [hk]; exact ha)
      rw [hk] at this
      exact this

/-- C52 fails: thread 0, alone, stays in its method for ever. -/
theorem livelock_run : ¬ A.MethodsLockFree (fun _ => True) (fun _ => True) := by
  intro hlf
  let T := { y : GState 64 × MPos // (∃ tr, GRun A (fun _ => True) ⟨zeroMem, fun _ => .idle⟩ tr y.1) ∧ Live L B rsL rsB A y.1 y.2 }
  have hstep : ∀ s : T, ∃ y : GEv × T, NiceStep A (fun _ => True) 0 s.1.1 y.1 y.2.1.1 ∧ MStep (fun _ => True) 0 (s.1.1.th 0) y.1 s.1.2 y.2.1.2 ∧
      y.2.1.2 ≠ .out := by
    rintro ⟨⟨g, p⟩, ⟨tr, hr⟩, hg⟩
    obtain ⟨x, g', p', h1, h2, h3, h4⟩ := hg.step hp h1 h5 hL hpL hB hpB hbad hr
    exact ⟨(x, ⟨(g', p'), ⟨_, hr.snoc h1.1⟩, h4⟩), h1, h2, h3⟩
  let s0 : T := ⟨(⟨zeroMem, fun _ => .idle⟩, .out), ⟨[], .nil⟩, .start⟩
  let seq : Nat → T := fun n => Nat.rec s0 (fun _ s => (hstep s).choose.2) n
  let ev : Nat → GEv := fun n => (hstep (seq n)).choose.1
  have hn : ∀ n, NiceStep A (fun _ => True) 0 (seq n).1.1 (ev n) (seq (n + 1)).1.1 ∧
      MStep (fun _ => True) 0 ((seq n).1.1.th 0) (ev n) (seq n).1.2 (seq (n + 1)).1.2 ∧ (seq (n + 1)).1.2 ≠ .out :=
    fun n => (hstep (seq n)).choose_spec
  let mp : Nat → Nat → MPos := fun n i => if i = 0 then (seq n).1.2 else .out
  have hthr : ∀ n, (ev n).thread = some 0 := fun n => (hn n).1.2.1
  have hmp : ByMethods (fun _ => True) (fun n => (seq n).1.1) ev mp := by
    refine ⟨fun i => by by_cases hi : i = 0 <;> simp only [mp, hi, if_true, if_false] <;> rfl, fun n i => ?_⟩
    by_cases hi : i = 0
    · subst hi; exact (hn n).2.1
    · have ht := hthr n
      simp only [mp, if_neg hi]
      generalize ev n = x at ht
      refine .other _ _ ?_ ?_ <;>
      · intro hx
        cases x with
        | h y =>
          cases y with
          | _ => first | exact hx.elim | (have hx : _ = i := hx; subst hx; simp [GEv.thread] at ht; exact hi ht)
        | _ => exact hx.elim
  obtain ⟨m, -, i, h2, h3⟩ := hlf (fun n => (seq n).1.1) ev 1 mp ⟨⟨zeroMem, rfl⟩, fun n => (hn n).1.1⟩ hmp
    (fun n i h => by rw [hthr] at h; injection h with h; omega) ⟨0, fun n _ => by rw [hthr]; simp⟩
    (hardwareProgress_of (sched := fun _ => 0) fun n => (hn n).1) 0
  by_cases hi : i = 0
  · subst hi; exact (hn m).2.2 h3
  · simp [mp, hi] at h2
end

namespace RiscV
theorem bad_ok (e : Endian) (c' : Cfg 64) (hs : QSteps e badBlock.code ⟨0, badRegs, zeroMem, none⟩ c') (hc : c'.pc = badBlock.code.length) :
    badBlock.ok c'.rs = false := by
  refine qpost_sound (Q := fun rs _ => badBlock.ok rs = false) (n := 60) ?_ hs hc
  simp [asm, badBlock, badRegs, show load e zeroMem 0 32 = 0#32 from load_zero _ _ _]
end RiscV

/-- C52 fails for 32-bit objects on riscv64: a thread that calls `fetch_update(|x| Some(x))` may stay in it for ever, though nobody
disturbs it, see `C45_riscv64_violated`. -/
theorem C52_riscv64_violated (e : Endian) (z : Bool) : ¬ (RiscV.backend e 64 z).MethodsLockFree (fun _ => True) (fun _ => True) :=
  livelock_run (A := RiscV.backend e 64 z) (B := RiscV.badBlock) (rsB := RiscV.badRegs) (RiscV.C20_riscv e (.inr rfl) z) (RiscV.C01_riscv e (.inr rfl) z) (RiscV.C05_riscv e (.inr rfl) z)
    (.mk (Alloc.std RiscV.loadKind) (o := .relaxed) (0#64) (.inr (.inl rfl)) rfl) (argRegs_pre (by simp [asm]) (by simp [asm]))
    (.word (Alloc.std RiscV.casKind) .relaxed .relaxed (0#64) 0#32 0#32 (.inl rfl) rfl)
    (by
      intro x hx
      simp only [RiscV.badBlock, RiscV.casBlock, List.mem_cons, List.not_mem_nil, or_false] at hx
      rcases hx with rfl | rfl | rfl <;> simp [RiscV.badRegs])
    (RiscV.bad_ok e)

namespace Mips
theorem bad_ok (e : Endian) (c' : Cfg 64) (hs : QSteps e badBlock.code ⟨0, badRegs, zeroMem, none⟩ c') (hc : c'.pc = badBlock.code.length) :
    badBlock.ok c'.rs = false := by
  refine qpost_sound (Q := fun rs _ => badBlock.ok rs = false) (n := 60) ?_ hs hc
  simp [asm, badBlock, badRegs, show load e zeroMem 0 32 = 0#32 from load_zero _ _ _]
end Mips

/-- C52 fails for 32-bit objects on mips64: a thread that calls `fetch_update(|x| Some(x))` may stay in it for ever, though nobody
disturbs it, see `C45_mips64_violated`. -/
theorem C52_mips64_violated (e : Endian) : ¬ (Mips.backend e 64).MethodsLockFree (fun _ => True) (fun _ => True) :=
  livelock_run (A := Mips.backend e 64) (B := Mips.badBlock) (rsB := Mips.badRegs) (Mips.C20_mips e (.inr rfl)) (Mips.C01_mips e (.inr rfl)) (Mips.C05_mips e (.inr rfl))
    (.mk (Alloc.std Mips.loadKind) (o := .relaxed) (0#64) (.inr (.inl rfl)) rfl) (argRegs_pre (by simp [asm]) (by simp [asm]))
    (.word (Alloc.std Mips.casKind) .relaxed .relaxed (0#64) 0#32 0#32 (.inl rfl) rfl)
    (by
      intro x hx
      simp only [Mips.badBlock, Mips.casBlock, List.mem_cons, List.not_mem_nil, or_false] at hx
      rcases hx with rfl | rfl | rfl <;> simp [Mips.badRegs])
    (Mips.bad_ok e)

namespace LoongArch
theorem bad_ok (e : Endian) (c' : Cfg 64) (hs : QSteps e badBlock.code ⟨0, badRegs, zeroMem, none⟩ c') (hc : c'.pc = badBlock.code.length) :
    badBlock.ok c'.rs = false := by
  refine qpost_sound (Q := fun rs _ => badBlock.ok rs = false) (n := 60) ?_ hs hc
  simp [asm, badBlock, badRegs, show load e zeroMem 0 32 = 0#32 from load_zero _ _ _]
end LoongArch

/-- C52 fails for 32-bit objects on loongarch64: a thread that calls `fetch_update(|x| Some(x))` may stay in it for ever, though nobody
disturbs it, see `C45_loongarch64_violated`. -/
theorem C52_loongarch64_violated (e : Endian) : ¬ (LoongArch.backend e 64).MethodsLockFree (fun _ => True) (fun _ => True) :=
  livelock_run (A := LoongArch.backend e 64) (B := LoongArch.badBlock) (rsB := LoongArch.badRegs) (LoongArch.C20_loongarch e) (LoongArch.C01_loongarch e) (LoongArch.C05_loongarch e)
    (.mk (Alloc.std LoongArch.loadKind) (o := .relaxed) (0#64) (.inr (.inl rfl)) rfl) (argRegs_pre (by simp [asm]) (by simp [asm]))
    (.word (Alloc.std LoongArch.casKind) .relaxed (0#64) 0#32 0#32 (.inl rfl) rfl)
    (by
      intro x hx
      simp only [LoongArch.badBlock, LoongArch.casBlock, List.mem_cons, List.not_mem_nil, or_false] at hx
      rcases hx with rfl | rfl | rfl <;> simp [LoongArch.badRegs])
    (LoongArch.bad_ok e)

end Verif
