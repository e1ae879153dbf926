/-
Properties of the M68k back end (src/arch/m68k.rs).

C19 fails: after a successful compare_exchange `seq` has set the low byte of `r` to 0xFF, but l.121 promises the
compiler that `r == 0 || r == 1` (`C19_m68k_violated`, `C19_m68k_success_violates`). The C04/C05/C21/... theorems
below describe what the assembly does and what `r != 0` evaluates to; they say nothing about a compiler that
exploits the false promise, hence their suffix `_partial`.
-/
import Verif.Proofs.M68k
import Verif.Core.Progress
set_option linter.unusedSimpArgs false
set_option maxRecDepth 4000
namespace Verif.M68k

/-- Monitors of SeqCst operations. -/
def scMons : List Mon := [ rdMon, wrMon, rmwMon ]

theorem rd_ord (o : Ordering) : RdOrd Pairs.full scMons o rdMon := by cases o <;> decide
theorem wr_ord (o : Ordering) : WrOrd Pairs.full scMons o wrMon := by cases o <;> decide
theorem rmw_ord (o : Ordering) : RmwOrd Pairs.full scMons o rmwMon := by cases o <;> decide
theorem cas_ord (s f : Ordering) (ok : Bool) :
    CasOrd Pairs.full scMons s f ok (if ok then rmwMon else rdMon) := by
  cases s <;> cases f <;> cases ok <;> decide

theorem good (c : Conf) : Good (backend c) scMons where
  load := by
    rintro o w a B ⟨al, p, hw, hv⟩
    exact (load_impl al hw.le p _ rfl).mono (fun _ h => h)
        (by rintro m m' rs M ⟨h, rfl⟩; exact ⟨h, rd_ord _⟩)
  store := by
    rintro o w a v B ⟨al, p, _, hw, hv⟩
    exact (store_impl al p _ _ rfl).mono (fun _ h => h)
        (by rintro m m' rs M ⟨h, rfl⟩; exact ⟨h, wr_ord _⟩)
  swap := by
    rintro o w a v B ⟨al, _, p, _, hw, hc⟩
    exact (swap_impl al hw.le p _ _ rfl).mono (fun _ h => h)
        (by rintro m m' rs M ⟨h, rfl⟩; exact ⟨h, rmw_ord _⟩)
  cas := by
    rintro s f w a old new B ⟨al, _, _, p, _, _, hw, hv, hc⟩
    exact (cas_impl al hw.le p _ _ _ rfl).mono (fun _ h => h)
      (by rintro m m' rs M ⟨h, rfl⟩; exact ⟨h.weak, cas_ord _ _ _⟩)
  casWeak := by
    rintro s f w a old new B ⟨al, _, _, p, _, _, hw, hv, hc⟩
    exact (cas_impl al hw.le p _ _ _ rfl).mono (fun _ h => h)
      (by rintro m m' rs M ⟨h, rfl⟩; exact ⟨h.weak, cas_ord _ _ _⟩)
  ord := by show ∀ M ∈ scMons, ∀ M' ∈ scMons, Ordered Pairs.full M M' = true; decide

theorem contract (c : Conf) : (backend c).ContractOK := by
  intro w B hB
  cases hB with
  | load h => obtain ⟨al, p, hw, hv⟩ := h; contract_tac
  | store h => obtain ⟨al, p, _, hw, hv⟩ := h; contract_tac
  | swap h => obtain ⟨al, _, p, _, hw, hc⟩ := h; contract_tac
  | cas h => obtain ⟨al, _, _, p, _, _, hw, hv, hc⟩ := h; contract_tac
  | casWeak h => obtain ⟨al, _, _, p, _, _, hw, hv, hc⟩ := h; contract_tac

theorem swap_progress (al : Alloc swapKind) {w : Nat} (hw : w ≤ 32) (p : BitVec 32) (val : BitVec w) :
    (swapBlock al w p val).Progress .big := by
  have key : ∀ rs m resv, (rs.r (al .out)).setWidth w = load .big m (rs.r (al .dst)).toNat w →
      qwp .big (swapBlock al w p val).code 10 1 rs m resv := by
    intro rs m resv h
    simp [asm, h]
  refine Block.progress_of 12 [1] (by simp [asm]) ?_
  rintro hd (_ | ⟨_, ⟨⟩⟩) rs m resv
  show qwp _ _ (10 + 2) _ _ _ _
  rcases Decidable.em (load .big m (rs.r (al .dst)).toNat w = (rs.r (al .out)).setWidth w) with h | h
  · simp [asm, h]
  generalize hk : 10 = k at key ⊢
  simp [asm, h]
  simp [asm] at key
  refine key _ _ _ ?_
  simp [asm, h, mergeLow_low hw]

theorem progress (c : Conf) : (backend c).ProgressOK := by
  intro w B hB
  cases hB with
  | load h => obtain ⟨al, p, hw, hv⟩ := h; progress_straight
  | store h => obtain ⟨al, p, _, hw, hv⟩ := h; progress_straight
  | swap h => obtain ⟨al, _, p, _, hw, hc⟩ := h; exact swap_progress al hw.le p _
  | cas h => obtain ⟨al, _, _, p, _, _, hw, hv, hc⟩ := h; progress_straight
  | casWeak h => obtain ⟨al, _, _, p, _, _, hw, hv, hc⟩ := h; progress_straight

/-- Object sizes with swap/compare_exchange. -/
def RmwSize (c : Conf) (w : Nat) : Prop := Size w ∧ c.isa68020 = true

theorem total (c : Conf) : (backend c).Total 32 Size (RmwSize c) where
  load o w p hw _ ho := ⟨_, .mk (Alloc.std _) p hw ho⟩
  store o w p v hw _ ho := ⟨_, .mk (Alloc.std _) p v hw ho⟩
  swap o w p v hw _ := ⟨_, .mk (Alloc.std _) o p v hw.1 hw.2⟩
  cas s f w p old new hw _ hv := ⟨_, .mk (Alloc.std _) s f p old new hw.1 hv hw.2⟩
  casWeak s f w p old new hw _ hv := ⟨_, .mk (Alloc.std _) s f p old new hw.1 hv hw.2⟩

/-! ### The properties -/

section Properties
variable (c : Conf)
theorem C01_m68k : (backend c).LoadsAtomic := (good c).loadsAtomic
theorem C02_m68k : (backend c).StoresAtomic := (good c).storesAtomic
theorem C03_m68k : (backend c).SwapsAtomic := (good c).swapsAtomic
/-- Missing: the compiler may exploit the false `assert_unchecked` (`C19_m68k_violated`). -/
theorem C04_m68k_partial : (backend c).CasAtomic := by
  rintro s f w a old new B ⟨al, _, _, p, _, _, hw, hv, hc⟩
  exact (cas_impl al hw.le p _ _ _ rfl).atomic fun _ _ _ _ h => h.1
/-- Missing: the compiler may exploit the false `assert_unchecked` (`C19_m68k_violated`). -/
theorem C05_m68k_partial : (backend c).WeakCasAtomic := (good c).weakCasAtomic
theorem C06_m68k : (backend c).NeighboursOK := (good c).neighbours
theorem C11_m68k : (backend c).Total 32 Size (RmwSize c) := total c
theorem C13_m68k : (backend c).AcquireOK := (good c).acquireOK
theorem C14_m68k : (backend c).ReleaseOK := (good c).releaseOK
theorem C15_m68k : (backend c).SeqCstOK := (good c).seqCstOK
theorem C16_m68k : (backend c).FailureOK := (good c).failureOK
theorem C17_m68k : (backend c).ContractOK := contract c
theorem C20_m68k : (backend c).ProgressOK := progress c
end Properties

theorem cas_flag (al : Alloc casKind) {w : Nat} (p : BitVec 32) (old new : BitVec w) :
    Implements .big (casBlock al w p old new).code (casBlock al w p old new).pre
      (fun _ _ rs _ => (rs.r (al .r)).setWidth 8 = 0#8 ∨ (rs.r (al .r)).setWidth 8 = 0xff#8) := by
  refine implements_straight 20 ?_
  rintro rs m h
  simp [asm] at h
  obtain ⟨rfl, rfl, rfl⟩ := h
  simp [asm, mergeLow_low (show 8 ≤ 32 by decide)]
  intro m
  by_cases h : load .big m (rs.r (al .dst)).toNat w = (rs.r (al .out)).setWidth w <;> simp [h]

/-- Every successful compare_exchange on M68k breaks the promise made with `assert_unchecked` (l.121). -/
theorem C19_m68k_success_violates (c : Conf) : ∀ s f w a old new B, (backend c).Cas s f w a old new B →
    ∀ tr rs, B.Completed .big tr rs → B.ok rs = true → ¬ B.assumes rs := by
  rintro s f w a old new B ⟨al, _, _, p, _, _, hw, hv, hc⟩ tr rs hr hok
  obtain ⟨_, _, h⟩ := (cas_flag al p old new).completed hr
  intro ha
  simp [asm] at hok ha h
  rcases h with h | h
  · exact hok h
  · rw [h] at ha; revert ha; decide

/-- The register file in which the counterexample starts. -/
def badRegs : RS 32 := ⟨fun _ => 0#32, false, 0⟩
/-- The operation in the counterexample: a relaxed 32-bit `compare_exchange(0, 0)` at address 0. -/
def badBlock : Block 32 32 := casBlock (Alloc.std casKind) 32 0#32 0#32 0#32

/-- C19 fails on M68k: the successful `compare_exchange(0, 0)` on a zero object ends with `r == 0xFF`. -/
theorem C19_m68k_violated : ¬ (backend ⟨true⟩).AssumesOK := by
  intro h
  have hB : (backend ⟨true⟩).Cas .relaxed .relaxed 32 0 0#32 0#32 badBlock :=
    Cas.mk (c := ⟨true⟩) (Alloc.std casKind) .relaxed .relaxed (0#32) 0#32 0#32 (.inr rfl) rfl rfl
  let m : Mem := fun _ => 0#8
  have hl : load .big m (ea (Alloc.std casKind .dst) badRegs) 32 = 0#32 := load_zero .big _ 32
  have r0 := Run.nil (e := .big) (P := badBlock.code) (c0 := ⟨0, badRegs, m, none⟩)
  have r1 := r0.own (i := cas 32 (Alloc.std casKind .out) (Alloc.std casKind .new) (Alloc.std casKind .dst)) rfl
    (Step.rmwYes _ _ _ _ _ _ 0#32 (by show (if load .big m _ 32 = _ then _ else none) = _; rw [hl]; simp [badRegs]))
  have r2 := r1.own (i := seq (Alloc.std casKind .r)) rfl (Step.op _ _ ⟨0⟩)
  have hc : badBlock.Completed .big _ _ := ⟨_, _, rfl, by
      intro x hx
      simp only [badBlock, casBlock, List.mem_cons, List.not_mem_nil, or_false] at hx
      rcases hx with rfl | rfl | rfl <;> simp [badRegs], r2, rfl, rfl⟩
  have h1 := h _ _ _ (Backend.IsBlock.cas hB) hc
  refine C19_m68k_success_violates ⟨true⟩ _ _ _ _ _ _ _ hB _ _ hc ?_ h1
  simp only [hl]
  simp [asm, badBlock, badRegs, mergeLow]

/-! ### The hypotheses are satisfiable: concrete blocks with completed runs -/

example : ∃ B tr rs, (backend ⟨true⟩).Swap .acqRel 16 0x1002 0x12#16 B ∧ B.Completed .big tr rs := by
  have hB := Swap.mk (c := ⟨true⟩) (Alloc.std _) .acqRel (0x1002#32) 0x12#16 (.inl (.inr rfl)) rfl
  obtain ⟨tr, rs, h⟩ := (progress _ _ (Backend.IsBlock.swap hB)).completed'
    (by simp [swapBlock]) (by simp [swapBlock])
  exact ⟨_, tr, rs, hB, h⟩

end Verif.M68k
