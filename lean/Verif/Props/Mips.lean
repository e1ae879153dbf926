/-
Properties of the MIPS back end (src/arch/mips.rs).
-/
import Verif.Proofs.Mips
import Verif.Core.Progress
set_option linter.unusedSimpArgs false
set_option linter.unusedSectionVars false
namespace Verif.Mips
variable {W : Nat}

/-- Monitors of SeqCst operations. -/
def scMons : List Mon :=
  [ (({} : Mon).onRd .plain).onFence sync,
    ((({} : Mon).onFence sync).onWr .plain).onFence sync,
    rmwMon (sync, sync),
    failMon (sync, sync) ]

theorem rd_ord {o : Ordering} {f : Pairs} (h : loadFence o = some f) :
    RdOrd Pairs.none scMons o ((({} : Mon).onRd .plain).onFence f) := by
  cases o <;> simp [loadFence] at h <;> subst h <;> decide +revert

theorem wr_ord {o : Ordering} (h : assertStoreOrdering o = .ok ()) :
    WrOrd Pairs.none scMons o (((({} : Mon).onFence (rmwFences o).2).onWr .plain).onFence (rmwFences o).1) := by
  cases o <;> simp [assertStoreOrdering] at h <;> decide +revert

theorem rmw_ord (o : Ordering) : RmwOrd Pairs.none scMons o (rmwMon (rmwFences o)) := by
  cases o <;> decide

theorem cas_ord {s f : Ordering} (hv : assertCompareExchangeOrdering s f = .ok ()) (ok : Bool) :
    CasOrd Pairs.none scMons s f ok (if ok then rmwMon (rmwFences (upgradeSuccessOrdering s f))
      else failMon (rmwFences (upgradeSuccessOrdering s f))) := by
  cases s <;> cases f <;> simp [assertCompareExchangeOrdering] at hv <;> cases ok <;> decide

theorem cas_good (e : Endian) (hW : 32 ≤ W) {s f w a old new} {B : Block W w}
    (h : Cas e s f w a old new B) : Implements e B.code B.pre fun m m' rs M =>
      WeakCasSpec e a w old new m m' (B.out rs) (B.ok rs) ∧ CasOrd Pairs.none scMons s f (B.ok rs) M := by
  obtain ⟨al, _, _, p, _, _, hw, hv⟩ | ⟨al, _, _, p, _, _, hw, hv, hal⟩ := h
  · exact (cas_impl_weak e al hw.mod8 (hw.le hW) hw.pos _ p old new _ rfl).mono (fun _ h => h)
      (by rintro m m' rs M ⟨⟨h, _⟩, rfl⟩; exact ⟨h, cas_ord hv _⟩)
  · exact (sub_cas_impl e al hW hw _ p hal old new _ rfl).mono (fun _ h => h)
      (by rintro m m' rs M ⟨⟨h, _⟩, rfl⟩; exact ⟨h.weak, cas_ord hv _⟩)

theorem good (e : Endian) (hW : 32 ≤ W) : Good (backend e W) scMons where
  load := by
    rintro o w a B ⟨al, p, hw, hf⟩
    exact (load_impl e al (size_le hW hw) _ p _ rfl).mono (fun _ h => h)
      (by rintro m m' rs M ⟨h, rfl⟩; exact ⟨h, rd_ord hf⟩)
  store := by
    rintro o w a v B ⟨al, p, val, hw, hf⟩
    exact (store_impl e al _ p v _ rfl).mono (fun _ h => h)
      (by rintro m m' rs M ⟨h, rfl⟩; exact ⟨h, wr_ord hf⟩)
  swap := by
    rintro o w a v B (⟨al, o, p, val, hw⟩ | ⟨al, o, p, val, hw, hal⟩)
    · exact (swap_impl e al hw.mod8 (hw.le hW) hw.pos _ p v _ rfl).mono (fun _ h => h)
        (by rintro m m' rs M ⟨h, rfl⟩; exact ⟨h, rmw_ord _⟩)
    · exact (sub_swap_impl e al hW hw _ p hal v _ rfl).mono (fun _ h => h)
        (by rintro m m' rs M ⟨h, rfl⟩; exact ⟨h, rmw_ord _⟩)
  cas := fun _ _ _ _ _ _ _ h => cas_good e hW h
  casWeak := fun _ _ _ _ _ _ _ h => cas_good e hW h
  ord := by show ∀ M ∈ scMons, ∀ M' ∈ scMons, Ordered Pairs.none M M' = true; decide

theorem contract (e : Endian) : (backend e W).ContractOK := by
  have hcas : ∀ {s f w a old new B}, Cas (W := W) e s f w a old new B →
      Frame e B.code B.outs ∧ (B.keepsFlags = true → KeepsFlags e B.code) := by
    rintro s f w a old new B (⟨al, _, _, p, _, _, hw, hv⟩ | ⟨al, _, _, p, _, _, hw, hv, hal⟩) <;> contract_tac
  intro w B hB
  cases hB with
  | load h => obtain ⟨al, p, hw, hf⟩ := h; contract_tac
  | store h => obtain ⟨al, p, val, hw, hf⟩ := h; contract_tac
  | swap h => obtain ⟨al, o, p, val, hw⟩ | ⟨al, o, p, val, hw, hal⟩ := h <;> contract_tac
  | cas h => exact hcas h
  | casWeak h => exact hcas h

theorem assumes (e : Endian) (hW : 32 ≤ W) : (backend e W).AssumesOK := by
  have hcas : ∀ {s f w a old new B}, Cas (W := W) e s f w a old new B → ∀ tr rs,
      B.Completed e tr rs → B.assumes rs := by
    rintro s f w a old new B (⟨al, _, _, p, _, _, hw, hv⟩ | ⟨al, _, _, p, _, _, hw, hv, hal⟩) tr rs hr
    · obtain ⟨_, _, h⟩ := (cas_impl_weak e al hw.mod8 (hw.le hW) hw.pos _ p old new _ rfl).completed hr
      exact h.1.2
    · obtain ⟨_, _, h⟩ := (sub_cas_impl e al hW hw _ p hal old new _ rfl).completed hr
      exact h.1.2
  intro w B tr rs hB hr
  cases hB with
  | load h => obtain ⟨al, p, hw, hf⟩ := h; exact trivial
  | store h => obtain ⟨al, p, val, hw, hf⟩ := h; exact trivial
  | swap h => obtain ⟨al, o, p, val, hw⟩ | ⟨al, o, p, val, hw, hal⟩ := h <;> exact trivial
  | cas h => exact hcas h tr rs hr
  | casWeak h => exact hcas h tr rs hr

theorem progress (e : Endian) (hW : 32 ≤ W) : (backend e W).ProgressOK := by
  have hW' : W ≠ 0 := by omega
  have hcas : ∀ {s f w a old new B}, Cas (W := W) e s f w a old new B → B.Progress e := by
    rintro s f w a old new B (⟨al, _, _, p, _, _, hw, hv⟩ | ⟨al, _, _, p, _, _, hw, hv, hal⟩)
    · progress_loop 20 1 with hW'
    · progress_loop 30 4 with hW'
  intro w B hB
  cases hB with
  | load h => obtain ⟨al, p, hw, hf⟩ := h; progress_straight
  | store h => obtain ⟨al, p, val, hw, hf⟩ := h; progress_straight
  | swap h =>
    obtain ⟨al, o, p, val, hw⟩ | ⟨al, o, p, val, hw, hal⟩ := h
    · progress_loop 20 1 with hW'
    · progress_loop 20 3 with hW'
  | cas h => exact hcas h
  | casWeak h => exact hcas h

theorem cas_total (e : Endian) (s f w) (p : BitVec W) (old new : BitVec w) (hw : SubSize w ∨ WordSize W w)
    (hal : p.toNat % (w / 8) = 0) (hv : assertCompareExchangeOrdering s f = .ok ()) :
    ∃ B, Cas (W := W) e s f w p.toNat old new B := by
  rcases hw with hw | hw
  · exact ⟨_, .sub (Alloc.std _) s f p old new hw hv (.native hal)⟩
  · exact ⟨_, .word (Alloc.std _) s f p old new hw hv⟩

theorem total (e : Endian) :
    (backend e W).Total W (fun w => SubSize w ∨ WordSize W w) (fun w => SubSize w ∨ WordSize W w) where
  load o w p hw _ ho := by
    cases o <;> simp [assertLoadOrdering] at ho <;> exact ⟨_, .mk (Alloc.std _) p hw rfl⟩
  store o w p v hw _ ho := ⟨_, .mk (Alloc.std _) p v hw ho⟩
  swap o w p v hw hal := by
    rcases hw with hw | hw
    · exact ⟨_, .sub (Alloc.std _) o p v hw (.native hal)⟩
    · exact ⟨_, .word (Alloc.std _) o p v hw⟩
  cas s f w p old new hw hal hv := cas_total e s f w p old new hw hal hv
  casWeak s f w p old new hw hal hv := cas_total e s f w p old new hw hal hv

/-! ### The properties -/

section Properties
variable (e : Endian) (hW : W = 32 ∨ W = 64)
include hW

theorem good' : Good (backend e W) scMons := good e (by omega)
theorem C01_mips : (backend e W).LoadsAtomic := (good' e hW).loadsAtomic
theorem C02_mips : (backend e W).StoresAtomic := (good' e hW).storesAtomic
theorem C03_mips : (backend e W).SwapsAtomic := (good' e hW).swapsAtomic
theorem C05_mips : (backend e W).WeakCasAtomic := (good' e hW).weakCasAtomic
theorem C06_mips : (backend e W).NeighboursOK := (good' e hW).neighbours
theorem C13_mips : (backend e W).AcquireOK := (good' e hW).acquireOK
theorem C14_mips : (backend e W).ReleaseOK := (good' e hW).releaseOK
theorem C15_mips : (backend e W).SeqCstOK := (good' e hW).seqCstOK
theorem C16_mips : (backend e W).FailureOK := (good' e hW).failureOK
theorem C17_mips : (backend e W).ContractOK := contract e
theorem C19_mips : (backend e W).AssumesOK := assumes e (by omega)
theorem C20_mips : (backend e W).ProgressOK := progress e (by omega)
theorem C11_mips : (backend e W).Total W (fun w => SubSize w ∨ WordSize W w)
    (fun w => SubSize w ∨ WordSize W w) := total e
end Properties

/-- Strong CAS when the compared operand arrives sign-extended (or fills the register). -/
theorem cas_word_strong (e : Endian) (hW : 32 ≤ W) (al : Alloc casKind) {w : Nat} (hw : WordSize W w)
    (f : Pairs × Pairs) (p : BitVec W) (old new : BitVec w) (B : Block W w)
    (hB : B = casBlock al w f p old new) :
    ∀ c0 tr c, c0.pc = 0 → B.pre c0.rs → c0.rs.r (al .old) = old.signExtend W → Run e B.code c0 tr c →
      c.pc = B.code.length →
      AtomicTrace tr fun m m' => CasSpec e p.toNat w old new m m' (B.out c.rs) (B.ok c.rs) := by
  intro c0 tr c h1 h2 h3 h4 h5
  obtain ⟨pr, ev, m, m', po, ht, hid, hpost⟩ :=
    (cas_impl e al hw.mod8 (hw.le hW) hw.pos f p old new B hB).run h1 ⟨h2, h3⟩ h4 h5
  exact ⟨pr, ev, m, m', po, ht, hid, hpost.1.1⟩

/-- C04 on mips, and on mips64 for all sizes but 32 bits: `compare_exchange` is a strong CAS. Missing:
32 bits on mips64, for which the property fails, see `C04_mips64_word_fails`. -/
theorem C04_mips_partial (e : Endian) (hW : W = 32 ∨ W = 64) : ∀ s f w a old new B, (w ≠ 32 ∨ W = 32) →
    (backend e W).Cas s f w a old new B →
    B.Atomic e fun m m' rs => CasSpec e a w old new m m' (B.out rs) (B.ok rs) := by
  have hW32 : 32 ≤ W := by omega
  rintro s f w a old new B hne (⟨al, _, _, p, _, _, hw, hv⟩ | ⟨al, _, _, p, _, _, hw, hv, hal⟩)
  · have hwW := hw.eqW hne
    subst hwW
    rintro tr rs ⟨c0, c, h1, h2, h3, h4, rfl⟩
    refine cas_word_strong e hW32 al hw _ p old new _ rfl c0 tr c h1 h2 ?_ h3 h4
    simp [asm] at h2
    simp [h2]
  · exact (sub_cas_impl e al hW32 hw _ p hal old new _ rfl).atomic fun _ _ _ _ h => h.1.1

/-- C04 on mips64 for 32 bits, if the compiler happens to sign-extend the `old` operand (the Rust
reference leaves the upper half of the register undefined). -/
theorem C04_mips64_signext_partial (e : Endian) (al : Alloc casKind) (f : Pairs × Pairs) (p : BitVec 64)
    (old new : BitVec 32) :
    ∀ c0 tr c, c0.pc = 0 → (casBlock al 32 f p old new).pre c0.rs →
      c0.rs.r (al .old) = old.signExtend 64 → Run e (casBlock al 32 f p old new).code c0 tr c →
      c.pc = (casBlock al 32 f p old new).code.length →
      AtomicTrace tr fun m m' => CasSpec e p.toNat 32 old new m m'
        ((casBlock al 32 f p old new).out c.rs) ((casBlock al 32 f p old new).ok c.rs) :=
  cas_word_strong e (by decide) al (.inl rfl) f p old new _ rfl

/-- The register file in which the counterexample starts: all operands zero, except that the (undefined)
upper half of the `old` register is not. -/
def badRegs : RS 64 := ⟨fun i => if i = (Alloc.std casKind) .old then 0x8000000000000000#64 else 0#64, false, 0⟩

/-- The operation in the counterexample: a relaxed 32-bit `compare_exchange(0, 0)` at address 0. -/
def badBlock : Block 64 32 := casBlock (Alloc.std casKind) 32 (noFence, noFence) 0#64 0#32 0#32

/-- On mips64 a 32-bit `compare_exchange` can fail although the object equals `old`: `ll`
sign-extends, `bne` compares 64 bits, and the upper half of the `old` register is unspecified. -/
theorem C04_mips64_word_fails (e : Endian) : ¬ (backend e 64).CasAtomic := by
  intro h
  have hB : (backend e 64).Cas .relaxed .relaxed 32 0 0#32 0#32 badBlock :=
    Cas.word (Alloc.std casKind) .relaxed .relaxed (0#64) 0#32 0#32 (.inl rfl) rfl
  have hr : ∃ tr rs, badBlock.Completed e tr rs ∧ badBlock.ok rs = false ∧
      ∀ ev m m', TEv.own ev m m' ∈ tr → m = fun _ => 0#8 := by
    let m : Mem := fun _ => 0#8
    have r0 := Run.nil (e := e) (P := badBlock.code) (c0 := ⟨0, badRegs, m, none⟩)
    have r1 := r0.own (i := .fence noFence) rfl (Step.fence _ _)
    have r2 := r1.own (i := ll 32 (Alloc.std casKind .out) (Alloc.std casKind .dst)) rfl (Step.ll _ _ _ _ _ _)
    have r3 := r2.own (i := bne (Alloc.std casKind .out) (Alloc.std casKind .old) 7) rfl (Step.br _ _ _)
    have hl : load e m (ea (Alloc.std casKind .dst) badRegs) 32 = 0#32 := load_zero e _ 32
    simp only [hl] at r3
    have r4 := r3.own (i := li0 (Alloc.std casKind .tmp)) rfl (Step.op _ _ ⟨0⟩)
    have r5 := r4.own (i := .fence noFence) rfl (Step.fence _ _)
    refine ⟨_, _, ⟨_, _, rfl, ?_, r5, rfl, rfl⟩, ?_, ?_⟩
    · intro x hx
      simp only [badBlock, casBlock, List.mem_cons, List.not_mem_nil, or_false] at hx
      rcases hx with rfl | rfl | rfl <;> simp [badRegs]
    · simp [asm, badBlock, badRegs]
    · intro ev m1 m2 hm
      simp only [List.nil_append, List.append_assoc, List.cons_append, List.mem_cons, List.not_mem_nil,
        TEv.own.injEq, or_false] at hm
      rcases hm with ⟨_, rfl, _⟩ | ⟨_, rfl, _⟩ | ⟨_, rfl, _⟩ | ⟨_, rfl, _⟩ | ⟨_, rfl, _⟩ <;> rfl
  obtain ⟨tr, rs, hc, hok, hz⟩ := hr
  obtain ⟨pre, ev, m, m', post, ht, _, hs⟩ := h _ _ _ _ _ _ _ hB tr rs hc
  have hm : m = fun _ => 0#8 := hz ev m m' (by rw [ht]; simp)
  subst hm
  obtain ⟨_, ⟨_, h2, _⟩ | ⟨h2, _⟩⟩ := hs
  · rw [hok] at h2; cases h2
  · exact h2 (load_zero e _ 32)

/-! ### The hypotheses are satisfiable: concrete blocks with completed runs -/

example : ∃ B tr rs, (backend .big 64).Cas .seqCst .acquire 16 0x1002 0x12#16 0x34#16 B ∧
    B.Completed .big tr rs := by
  have hB := Cas.sub (W := 64) (e := .big) (Alloc.std _) .seqCst .acquire (0x1002#64) 0x12#16 0x34#16 (.inr rfl) rfl (.native rfl)
  obtain ⟨tr, rs, h⟩ := (progress .big (by decide) _ (Backend.IsBlock.cas hB)).completed'
    (by simp [subCasBlock]) (by simp [subCasBlock])
  exact ⟨_, tr, rs, hB, h⟩

end Verif.Mips
