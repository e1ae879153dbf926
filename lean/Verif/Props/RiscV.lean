/-
Properties of the RISC-V back end (src/arch/riscv.rs).
-/
import Verif.Proofs.RiscV
import Verif.Core.Progress
set_option linter.unusedSimpArgs false
set_option linter.unusedSectionVars false
namespace Verif.RiscV
variable {W : Nat}

/-- Monitors of SeqCst operations. -/
def scMons : List Mon :=
  [ ((({} : Mon).onFence fenceRW_RW).onRd .plain).onFence fenceR_RW,
    ((({} : Mon).onFence fenceRW_W).onWr .plain).onFence fenceRW_RW,
    (({} : Mon).onRd sfxAqRl).onWr sfxAqRl,
    (({} : Mon).onRd sfxAqRl).onWr sfxRl,
    ({} : Mon).onRd sfxAqRl ]

theorem rd_ord {o : Ordering} {f : Pairs × Pairs} (h : loadFences o = some f) :
    RdOrd Pairs.none scMons o (((({} : Mon).onFence f.2).onRd .plain).onFence f.1) := by
  cases o <;> simp [loadFences] at h <;> subst h <;> decide +revert

theorem wr_ord {o : Ordering} {f : Pairs × Pairs} (h : storeFences o = some f) :
    WrOrd Pairs.none scMons o (((({} : Mon).onFence f.2).onWr .plain).onFence f.1) := by
  cases o <;> simp [storeFences] at h <;> subst h <;> decide +revert

theorem amo_ord (o : Ordering) :
    RmwOrd Pairs.none scMons o ((({} : Mon).onRd (amoOrder o)).onWr (amoOrder o)) := by
  cases o <;> decide

theorem lrsc_ord (o : Ordering) :
    RmwOrd Pairs.none scMons o ((({} : Mon).onRd (lrscOrder o).1).onWr (lrscOrder o).2) := by
  cases o <;> decide

theorem cas_ord {s f : Ordering} (hv : assertCompareExchangeOrdering s f = .ok ()) (ok : Bool) :
    CasOrd Pairs.none scMons s f ok (if ok then
      (({} : Mon).onRd (lrscOrder (upgradeSuccessOrdering s f)).1).onWr
        (lrscOrder (upgradeSuccessOrdering s f)).2
      else ({} : Mon).onRd (lrscOrder (upgradeSuccessOrdering s f)).1) := by
  cases s <;> cases f <;> simp [assertCompareExchangeOrdering] at hv <;> cases ok <;> decide

theorem good (e : Endian) (hW : 32 ≤ W) (z : Bool) : Good (backend e W z) scMons where
  load := by
    rintro o w a B ⟨al, p, hw, hf⟩
    exact (load_impl e al (size_le hW hw) _ p _ rfl).mono (fun _ h => h)
      (by rintro m m' rs M ⟨h, rfl⟩; exact ⟨h, rd_ord hf⟩)
  store := by
    rintro o w a v B ⟨al, p, val, hw, hf⟩
    exact (store_impl e al _ p v _ rfl).mono (fun _ h => h)
      (by rintro m m' rs M ⟨h, rfl⟩; exact ⟨h, wr_ord hf⟩)
  swap := by
    rintro o w a v B (⟨al, o, p, val, hw⟩ | ⟨al, o, p, val, hz, hw, hal⟩)
    · exact (swap_impl e al (size_le hW (hw.symm.imp And.right id)) _ p v _ rfl).mono (fun _ h => h)
        (by rintro m m' rs M ⟨h, rfl⟩; exact ⟨h, amo_ord _⟩)
    · exact (sub_swap_impl e al hW hw _ p hal v _ rfl).mono (fun _ h => h)
        (by rintro m m' rs M ⟨h, rfl⟩; exact ⟨h, lrsc_ord _⟩)
  cas := by
    rintro s f w a old new B (⟨al, _, _, p, _, _, hw, hv⟩ | ⟨al, _, _, p, _, _, hw, hv, hal⟩)
    · exact (cas_impl_weak e al (by rcases hw with rfl | ⟨rfl, _⟩ <;> rfl) (size_le hW (.inr hw))
        (by rcases hw with rfl | ⟨rfl, _⟩ <;> decide) _ p old new _ rfl).mono (fun _ h => h)
        (by rintro m m' rs M ⟨⟨h, _⟩, rfl⟩; exact ⟨h, cas_ord hv _⟩)
    · exact (sub_cas_impl e al hW hw _ p hal old new _ rfl).mono (fun _ h => h)
        (by rintro m m' rs M ⟨⟨h, _⟩, rfl⟩; exact ⟨h.weak, cas_ord hv _⟩)
  casWeak := by
    rintro s f w a old new B (⟨al, _, _, p, _, _, hw, hv⟩ | ⟨al, _, _, p, _, _, hw, hv, hal⟩)
    · exact (cas_impl_weak e al (by rcases hw with rfl | ⟨rfl, _⟩ <;> rfl) (size_le hW (.inr hw))
        (by rcases hw with rfl | ⟨rfl, _⟩ <;> decide) _ p old new _ rfl).mono (fun _ h => h)
        (by rintro m m' rs M ⟨⟨h, _⟩, rfl⟩; exact ⟨h, cas_ord hv _⟩)
    · exact (sub_cas_impl e al hW hw _ p hal old new _ rfl).mono (fun _ h => h)
        (by rintro m m' rs M ⟨⟨h, _⟩, rfl⟩; exact ⟨h.weak, cas_ord hv _⟩)
  ord := by show ∀ M ∈ scMons, ∀ M' ∈ scMons, Ordered Pairs.none M M' = true; decide

theorem contract (e : Endian) (z : Bool) : (backend e W z).ContractOK := by
  intro w B hB
  cases hB with
  | load h => obtain ⟨al, p, hw, hf⟩ := h; contract_tac
  | store h => obtain ⟨al, p, val, hw, hf⟩ := h; contract_tac
  | swap h =>
    obtain ⟨al, o, p, val, hw⟩ | ⟨al, o, p, val, hz, hw, hal⟩ := h
    · contract_tac
    · contract_tac
  | cas h =>
    obtain ⟨al, _, _, p, _, _, hw, hv⟩ | ⟨al, _, _, p, _, _, hw, hv, hal⟩ := h
    · contract_tac
    · contract_tac
  | casWeak h =>
    obtain ⟨al, _, _, p, _, _, hw, hv⟩ | ⟨al, _, _, p, _, _, hw, hv, hal⟩ := h
    · contract_tac
    · contract_tac

theorem assumes (e : Endian) (hW : 32 ≤ W) (z : Bool) : (backend e W z).AssumesOK := by
  have hcas : ∀ {s f w a old new B}, Cas (W := W) e s f w a old new B → ∀ tr rs,
      B.Completed e tr rs → B.assumes rs := by
    rintro s f w a old new B (⟨al, _, _, p, _, _, hw, hv⟩ | ⟨al, _, _, p, _, _, hw, hv, hal⟩) tr rs hr
    · obtain ⟨_, _, h⟩ := (cas_impl_weak e al (by rcases hw with rfl | ⟨rfl, _⟩ <;> rfl)
        (size_le hW (.inr hw)) (by rcases hw with rfl | ⟨rfl, _⟩ <;> decide) _ p old new _ rfl).completed hr
      exact h.1.2
    · obtain ⟨_, _, h⟩ := (sub_cas_impl e al hW hw _ p hal old new _ rfl).completed hr
      exact h.1.2
  intro w B tr rs hB hr
  cases hB with
  | load h => obtain ⟨al, p, hw, hf⟩ := h; exact trivial
  | store h => obtain ⟨al, p, val, hw, hf⟩ := h; exact trivial
  | swap h =>
    obtain ⟨al, o, p, val, hw⟩ | ⟨al, o, p, val, hz, hw, hal⟩ := h
    · exact trivial
    · exact trivial
  | cas h => exact hcas h tr rs hr
  | casWeak h => exact hcas h tr rs hr

theorem progress (e : Endian) (z : Bool) : (backend e W z).ProgressOK := by
  have hcas : ∀ {s f w a old new B}, Cas (W := W) e s f w a old new B → B.Progress e := by
    rintro s f w a old new B (⟨al, _, _, p, _, _, hw, hv⟩ | ⟨al, _, _, p, _, _, hw, hv, hal⟩)
    · progress_loop 20 0
    · progress_loop 30 3
  intro w B hB
  cases hB with
  | load h => obtain ⟨al, p, hw, hf⟩ := h; progress_straight
  | store h => obtain ⟨al, p, val, hw, hf⟩ := h; progress_straight
  | swap h =>
    obtain ⟨al, o, p, val, hw⟩ | ⟨al, o, p, val, hz, hw, hal⟩ := h
    · progress_straight
    · progress_loop 20 2
  | cas h => exact hcas h
  | casWeak h => exact hcas h

theorem total (e : Endian) (z : Bool) :
    (backend e W z).Total W (fun w => SubSize w ∨ WordSize W w) (fun w => SubSize w ∨ WordSize W w) where
  load o w p hw _ ho := by
    cases o <;> simp [assertLoadOrdering] at ho <;> exact ⟨_, .mk (Alloc.std _) p hw rfl⟩
  store o w p v hw _ ho := by
    cases o <;> simp [assertStoreOrdering] at ho <;> exact ⟨_, .mk (Alloc.std _) p v hw rfl⟩
  swap o w p v hw hal := by
    rcases hw with hw | hw
    · cases z
      · exact ⟨_, .lrsc (Alloc.std _) o p v rfl hw (.native hal)⟩
      · exact ⟨_, .amo (Alloc.std _) o p v (.inr ⟨rfl, hw⟩)⟩
    · exact ⟨_, .amo (Alloc.std _) o p v (.inl hw)⟩
  cas s f w p old new hw hal hv := by
    rcases hw with hw | hw
    · exact ⟨_, .sub (Alloc.std _) s f p old new hw hv (.native hal)⟩
    · exact ⟨_, .word (Alloc.std _) s f p old new hw hv⟩
  casWeak s f w p old new hw hal hv := by
    rcases hw with hw | hw
    · exact ⟨_, .sub (Alloc.std _) s f p old new hw hv (.native hal)⟩
    · exact ⟨_, .word (Alloc.std _) s f p old new hw hv⟩

/-- Strong CAS when the compared operand arrives sign-extended (or fills the register). -/
theorem cas_word_strong (e : Endian) (hW : 32 ≤ W) (al : Alloc casKind) {w : Nat} (hw : WordSize W w)
    (o : Acc × Acc) (p : BitVec W) (old new : BitVec w) (B : Block W w)
    (hB : B = casBlock al w o p old new) :
    ∀ c0 tr c, c0.pc = 0 → B.pre c0.rs → c0.rs.r (al .old) = old.signExtend W → Run e B.code c0 tr c →
      c.pc = B.code.length →
      AtomicTrace tr fun m m' => CasSpec e p.toNat w old new m m' (B.out c.rs) (B.ok c.rs) := by
  intro c0 tr c h1 h2 h3 h4 h5
  obtain ⟨pr, ev, m, m', po, ht, hid, hpost⟩ :=
    (cas_impl e al (by rcases hw with rfl | ⟨rfl, _⟩ <;> rfl) (size_le hW (.inr hw))
      (by rcases hw with rfl | ⟨rfl, _⟩ <;> decide) o p old new B hB).run h1 ⟨h2, h3⟩ h4 h5
  exact ⟨pr, ev, m, m', po, ht, hid, hpost.1.1⟩

/-! ### The properties -/

section Properties
variable (e : Endian) (hW : W = 32 ∨ W = 64) (z : Bool)
include hW

theorem good' : Good (backend e W z) scMons := good e (by omega) z
theorem C01_riscv : (backend e W z).LoadsAtomic := (good' e hW z).loadsAtomic
theorem C02_riscv : (backend e W z).StoresAtomic := (good' e hW z).storesAtomic
theorem C03_riscv : (backend e W z).SwapsAtomic := (good' e hW z).swapsAtomic
theorem C05_riscv : (backend e W z).WeakCasAtomic := (good' e hW z).weakCasAtomic
theorem C06_riscv : (backend e W z).NeighboursOK := (good' e hW z).neighbours
theorem C13_riscv : (backend e W z).AcquireOK := (good' e hW z).acquireOK
theorem C14_riscv : (backend e W z).ReleaseOK := (good' e hW z).releaseOK
theorem C15_riscv : (backend e W z).SeqCstOK := (good' e hW z).seqCstOK
theorem C16_riscv : (backend e W z).FailureOK := (good' e hW z).failureOK
theorem C17_riscv : (backend e W z).ContractOK := contract e z
theorem C19_riscv : (backend e W z).AssumesOK := assumes e (by omega) z
theorem C20_riscv : (backend e W z).ProgressOK := progress e z
theorem C11_riscv : (backend e W z).Total W (fun w => SubSize w ∨ WordSize W w)
    (fun w => SubSize w ∨ WordSize W w) := total e z
end Properties

/-- C04 on riscv32: every `compare_exchange` is a strong CAS. -/
theorem C04_riscv32 (e : Endian) (z : Bool) : (backend e 32 z).CasAtomic := by
  rintro s f w a old new B (⟨al, _, _, p, _, _, hw, hv⟩ | ⟨al, _, _, p, _, _, hw, hv, hal⟩)
  · rcases hw with rfl | ⟨_, h⟩
    · rintro tr rs ⟨c0, c, h1, h2, h3, h4, rfl⟩
      refine cas_word_strong e (by decide) al (.inl rfl) _ p old new _ rfl c0 tr c h1 h2 ?_ h3 h4
      simp [asm] at h2
      simp [h2]
    · simp at h
  · exact (sub_cas_impl e al (by decide) hw _ p hal old new _ rfl).atomic fun _ _ _ _ h => h.1.1

/-- C04 on riscv64 for all sizes but 32 bits. Missing: the 32-bit size, for which the property fails,
see `C04_riscv64_word_fails`. -/
theorem C04_riscv64_partial (e : Endian) (z : Bool) : ∀ s f w a old new B, w ≠ 32 →
    (backend e 64 z).Cas s f w a old new B →
    B.Atomic e fun m m' rs => CasSpec e a w old new m m' (B.out rs) (B.ok rs) := by
  rintro s f w a old new B hne (⟨al, _, _, p, _, _, hw, hv⟩ | ⟨al, _, _, p, _, _, hw, hv, hal⟩)
  · rcases hw with rfl | ⟨rfl, _⟩
    · exact absurd rfl hne
    · rintro tr rs ⟨c0, c, h1, h2, h3, h4, rfl⟩
      refine cas_word_strong e (by decide) al (.inr ⟨rfl, rfl⟩) _ p old new _ rfl c0 tr c h1 h2 ?_ h3 h4
      simp [asm] at h2
      simp [h2]
  · exact (sub_cas_impl e al (by decide) hw _ p hal old new _ rfl).atomic fun _ _ _ _ h => h.1.1

/-- C04 on riscv64 for 32 bits, if the compiler happens to sign-extend the `old` operand (the Rust
reference leaves the upper half of the register undefined). -/
theorem C04_riscv64_signext_partial (e : Endian) (al : Alloc casKind) (o : Acc × Acc) (p : BitVec 64)
    (old new : BitVec 32) :
    ∀ c0 tr c, c0.pc = 0 → (casBlock al 32 o p old new).pre c0.rs →
      c0.rs.r (al .old) = old.signExtend 64 → Run e (casBlock al 32 o p old new).code c0 tr c →
      c.pc = (casBlock al 32 o p old new).code.length →
      AtomicTrace tr fun m m' => CasSpec e p.toNat 32 old new m m'
        ((casBlock al 32 o p old new).out c.rs) ((casBlock al 32 o p old new).ok c.rs) :=
  cas_word_strong e (by decide) al (.inl rfl) o p old new _ rfl

/-- The register file in which the counterexample starts: all operands zero, except that the (undefined)
upper half of the `old` register is not. -/
def badRegs : RS 64 := ⟨fun i => if i = (Alloc.std casKind) .old then 0x8000000000000000#64 else 0#64, false, 0⟩

/-- The operation in the counterexample: a relaxed 32-bit `compare_exchange(0, 0)` at address 0. -/
def badBlock : Block 64 32 := casBlock (Alloc.std casKind) 32 (sfx, sfx) 0#64 0#32 0#32

/-- On riscv64 a 32-bit `compare_exchange` can fail although the object equals `old`: `lr.w`
sign-extends, `bne` compares 64 bits, and the upper half of the `old` register is unspecified. -/
theorem C04_riscv64_word_fails (e : Endian) (z : Bool) : ¬ (backend e 64 z).CasAtomic := by
  intro h
  have hB : (backend e 64 z).Cas .relaxed .relaxed 32 0 0#32 0#32 badBlock :=
    Cas.word (Alloc.std casKind) .relaxed .relaxed (0#64) 0#32 0#32 (.inl rfl) rfl
  have hr : ∃ tr rs, badBlock.Completed e tr rs ∧ badBlock.ok rs = false ∧
      ∀ ev m m', TEv.own ev m m' ∈ tr → m = fun _ => 0#8 := by
    let m : Mem := fun _ => 0#8
    have r0 := Run.nil (e := e) (P := badBlock.code) (c0 := ⟨0, badRegs, m, none⟩)
    have r1 := r0.own (i := lr sfx 32 (Alloc.std casKind .out) (Alloc.std casKind .dst)) rfl (Step.ll _ _ _ _ _ _)
    have r2 := r1.own (i := bne (Alloc.std casKind .out) (Alloc.std casKind .old) 4) rfl (Step.br _ _ _)
    have hl : load e m (ea (Alloc.std casKind .dst) badRegs) 32 = 0#32 := load_zero e _ 32
    simp only [hl] at r2
    have r3 := r2.own (i := xor (Alloc.std casKind .r) (Alloc.std casKind .out) (Alloc.std casKind .old)) rfl
      (Step.op _ _ ⟨0⟩)
    have r4 := r3.own (i := seqz (Alloc.std casKind .r) (Alloc.std casKind .r)) rfl (Step.op _ _ ⟨0⟩)
    refine ⟨_, _, ⟨_, _, rfl, ?_, r4, rfl, rfl⟩, ?_, ?_⟩
    · intro x hx
      simp only [badBlock, casBlock, List.mem_cons, List.not_mem_nil, or_false] at hx
      rcases hx with rfl | rfl | rfl <;> simp [badRegs]
    · simp [asm, badBlock, badRegs]
    · intro ev m1 m2 hm
      simp only [List.nil_append, List.append_assoc, List.cons_append, List.mem_cons, List.not_mem_nil,
        TEv.own.injEq, or_false] at hm
      rcases hm with ⟨_, rfl, _⟩ | ⟨_, rfl, _⟩ | ⟨_, rfl, _⟩ | ⟨_, rfl, _⟩ <;> rfl
  obtain ⟨tr, rs, hc, hok, hz⟩ := hr
  obtain ⟨pre, ev, m, m', post, ht, _, hs⟩ := h _ _ _ _ _ _ _ hB tr rs hc
  have hm : m = fun _ => 0#8 := hz ev m m' (by rw [ht]; simp)
  subst hm
  obtain ⟨_, ⟨_, h2, _⟩ | ⟨h2, _⟩⟩ := hs
  · rw [hok] at h2; cases h2
  · exact h2 (load_zero e _ 32)

/-! ### The hypotheses are satisfiable: concrete blocks with completed runs -/

example : ∃ B tr rs, (backend .little 64 false).Cas .seqCst .acquire 16 0x1002 0x12#16 0x34#16 B ∧
    B.Completed .little tr rs := by
  have hB := Cas.sub (W := 64) (e := .little) (Alloc.std _) .seqCst .acquire (0x1002#64) 0x12#16 0x34#16 (.inr rfl) rfl (.native rfl)
  obtain ⟨tr, rs, h⟩ := (progress .little false _ (Backend.IsBlock.cas hB)).completed'
    (by simp [subCasBlock]) (by simp [subCasBlock])
  exact ⟨_, tr, rs, hB, h⟩

end Verif.RiscV
