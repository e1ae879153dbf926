/-
Properties of the PowerPC back end (src/arch/powerpc.rs).
-/
import Verif.Proofs.PowerPC
import Verif.Core.Progress
set_option linter.unusedSimpArgs false
set_option maxRecDepth 4000
namespace Verif.PowerPC
variable {W : Nat}

/-- Monitors of SeqCst operations. -/
def scMons : List Mon :=
  [ ldMon sync, stMon sync, rmwMon (isync, sync), okMon ⟨noFence, isync, sync⟩, okMon ⟨isync, noFence, sync⟩,
    failMon ⟨isync, noFence, sync⟩, spurMon ⟨isync, noFence, sync⟩ ]

theorem rd_ord {o : Ordering} (h : loadOrd o = some none) :
    RdOrd Pairs.none scMons o (({} : Mon).onRd .plain) := by
  cases o <;> simp [loadOrd] at h <;> decide

theorem rdAcq_ord {o : Ordering} {f : Pairs} (h : loadOrd o = some (some f)) :
    RdOrd Pairs.none scMons o (ldMon f) := by
  cases o <;> simp [loadOrd] at h <;> subst h <;> decide

theorem wr_ord {o : Ordering} {f : Pairs} (h : storeOrd o = some f) : WrOrd Pairs.none scMons o (stMon f) := by
  cases o <;> simp [storeOrd] at h <;> subst h <;> decide

theorem rmw_ord (o : Ordering) : RmwOrd Pairs.none scMons o (rmwMon (rmwOrd o)) := by
  cases o <;> decide

theorem cas_ord {s f : Ordering} {o : CO} (hv : assertCompareExchangeOrdering s f = .ok ())
    (h : casOrd s f = some o) (ok : Bool) :
    CasOrd Pairs.none scMons s f ok (if ok then okMon o else failMon o) := by
  cases s <;> cases f <;> simp [assertCompareExchangeOrdering] at hv <;>
    simp [casOrd, upgradeSuccessOrdering] at h <;> subst h <;> cases ok <;> decide

theorem spur_ord {s f : Ordering} {o : CO} (hv : assertCompareExchangeOrdering s f = .ok ())
    (h : casOrd s f = some o) : CasOrd Pairs.none scMons s f false (spurMon o) := by
  cases s <;> cases f <;> simp [assertCompareExchangeOrdering] at hv <;>
    simp [casOrd, upgradeSuccessOrdering] at h <;> subst h <;> decide

theorem weak_ord {s f : Ordering} {o : CO} (hv : assertCompareExchangeOrdering s f = .ok ())
    (h : casOrd s f = some o) {ok : Bool} {M : Mon}
    (hM : if ok = true then M = okMon o else M = failMon o ∨ M = spurMon o) :
    CasOrd Pairs.none scMons s f ok M := by
  cases ok
  · rcases hM with rfl | rfl
    · exact cas_ord hv h false
    · exact spur_ord hv h
  · have hM : M = okMon o := hM
    subst hM; exact cas_ord hv h true

theorem direct_size {c : Conf} {w : Nat} (h : Direct W c w) : SubSize w ∨ WordSize W w := h.imp (·.1) id

/-- What every compare-exchange block establishes. -/
theorem cas_all (e : Endian) (hW : 32 ≤ W) (c : Conf) {s f w a old new} {B : Block W w}
    (h : Cas e c s f w a old new B) :
    Implements e B.code B.pre
      (fun m m' rs M => CasSpec e a w old new m m' (B.out rs) (B.ok rs) ∧
        CasOrd Pairs.none scMons s f (B.ok rs) M) := by
  obtain ⟨al, p, _, _, hw, hv, ho⟩ | ⟨al, p, _, _, hw, hc, hal, hv, ho⟩ | ⟨al, ⟨rfl, hq⟩, p, _, _, hv, ho⟩ := h
  · exact (cas_impl e al hW (direct_size hw) _ p _ _ _ rfl).mono (fun _ h => h)
      (by rintro m m' rs M ⟨h, rfl⟩; exact ⟨h, cas_ord hv ho _⟩)
  · exact (sub_cas_impl e al hW hw _ p hal _ _ _ rfl).mono (fun _ h => h)
      (by rintro m m' rs M ⟨h, rfl⟩; exact ⟨h, cas_ord hv ho _⟩)
  · exact (casq_impl e al _ p _ _ _ rfl).mono (fun _ h => h)
      (by rintro m m' rs M ⟨h, rfl⟩; exact ⟨h, cas_ord hv ho _⟩)

theorem good (e : Endian) (hW : 32 ≤ W) (c : Conf) : Good (backend e W c) scMons where
  load := by
    rintro o w a B (⟨al, p, hw, hf⟩ | ⟨al, p, hw, hf⟩ | ⟨al, ⟨rfl, hq⟩, p, hf⟩ | ⟨al, ⟨rfl, hq⟩, p, hf⟩)
    · exact (load_impl e al (size_le hW hw) p _ rfl).mono (fun _ h => h)
        (by rintro m m' rs M ⟨h, rfl⟩; exact ⟨h, rd_ord hf⟩)
    · exact (loadAcq_impl e al (size_le hW hw) _ p _ rfl).mono (fun _ h => h)
        (by rintro m m' rs M ⟨h, rfl⟩; exact ⟨h, rdAcq_ord hf⟩)
    · exact (lq_impl e al p _ rfl).mono (fun _ h => h)
        (by rintro m m' rs M ⟨h, rfl⟩; exact ⟨h, rd_ord hf⟩)
    · exact (lqAcq_impl e al _ p _ rfl).mono (fun _ h => h)
        (by rintro m m' rs M ⟨h, rfl⟩; exact ⟨h, rdAcq_ord hf⟩)
  store := by
    rintro o w a v B (⟨al, p, val, hw, hf⟩ | ⟨al, ⟨rfl, hq⟩, p, val, hf⟩)
    · exact (store_impl e al _ p v _ rfl).mono (fun _ h => h)
        (by rintro m m' rs M ⟨h, rfl⟩; exact ⟨h, wr_ord hf⟩)
    · exact (stq_impl e al _ p _ _ rfl).mono (fun _ h => h)
        (by rintro m m' rs M ⟨h, rfl⟩; exact ⟨h, wr_ord hf⟩)
  swap := by
    rintro o w a v B (⟨al, o, p, val, hw⟩ | ⟨al, o, p, val, hw, hc, hal⟩ | ⟨al, o, ⟨rfl, hq⟩, p, val⟩)
    · have := cmpBits_facts hW (direct_size hw)
      exact (swap_impl e al this.2.2.1 this.2.2.2 _ p v _ rfl).mono (fun _ h => h)
        (by rintro m m' rs M ⟨h, rfl⟩; exact ⟨h, rmw_ord _⟩)
    · exact (sub_swap_impl e al hW hw _ p hal v _ rfl).mono (fun _ h => h)
        (by rintro m m' rs M ⟨h, rfl⟩; exact ⟨h, rmw_ord _⟩)
    · exact (swapq_impl e al _ p _ _ rfl).mono (fun _ h => h)
        (by rintro m m' rs M ⟨h, rfl⟩; exact ⟨h, rmw_ord _⟩)
  cas := by
    intro s f w a old new B h
    exact (cas_all e hW c h).mono (fun _ h => h) (by rintro m m' rs M ⟨h, h2⟩; exact ⟨h.weak, h2⟩)
  casWeak := by
    rintro s f w a old new B (⟨al, p, _, _, hw, hv, ho⟩ | ⟨al, p, _, _, hw, hc, hal, hv, ho⟩ |
      ⟨al, ⟨rfl, hq⟩, p, _, _, hv, ho⟩)
    · exact (weak_impl e al hW (direct_size hw) _ p _ _ _ rfl).mono (fun _ h => h)
        (by rintro m m' rs M ⟨h, hM⟩; exact ⟨h, weak_ord hv ho hM⟩)
    · exact (sub_weak_impl e al hW hw _ p hal _ _ _ rfl).mono (fun _ h => h)
        (by rintro m m' rs M ⟨h, hM⟩; exact ⟨h, weak_ord hv ho hM⟩)
    · exact (weakq_impl e al _ p _ _ _ rfl).mono (fun _ h => h)
        (by rintro m m' rs M ⟨h, hM⟩; exact ⟨h, weak_ord hv ho hM⟩)
  ord := by show ∀ M ∈ scMons, ∀ M' ∈ scMons, Ordered Pairs.none M M' = true; decide

set_option maxHeartbeats 4000000 in
theorem contract (e : Endian) (c : Conf) : (backend e W c).ContractOK := by
  intro w B hB
  cases hB with
  | load h =>
    obtain ⟨al, p, hw, hf⟩ | ⟨al, p, hw, hf⟩ | ⟨al, hq, p, hf⟩ | ⟨al, hq, p, hf⟩ := h <;> contract_tac
  | store h => obtain ⟨al, p, val, hw, hf⟩ | ⟨al, hq, p, val, hf⟩ := h <;> contract_tac
  | swap h =>
    obtain ⟨al, o, p, val, hw⟩ | ⟨al, o, p, val, hw, hc, hal⟩ | ⟨al, o, hq, p, val⟩ := h <;> contract_tac
  | cas h =>
    obtain ⟨al, p, _, _, hw, hv, ho⟩ | ⟨al, p, _, _, hw, hc, hal, hv, ho⟩ | ⟨al, hq, p, _, _, hv, ho⟩ := h <;>
      contract_tac
  | casWeak h =>
    obtain ⟨al, p, _, _, hw, hv, ho⟩ | ⟨al, p, _, _, hw, hc, hal, hv, ho⟩ | ⟨al, hq, p, _, _, hv, ho⟩ := h <;>
      contract_tac

/-- This back end has no `assert_unchecked`. -/
theorem assumes (e : Endian) (c : Conf) : (backend e W c).AssumesOK := by
  intro w B tr rs hB hr
  cases hB with
  | load h =>
    obtain ⟨al, p, hw, hf⟩ | ⟨al, p, hw, hf⟩ | ⟨al, hq, p, hf⟩ | ⟨al, hq, p, hf⟩ := h <;> exact trivial
  | store h => obtain ⟨al, p, val, hw, hf⟩ | ⟨al, hq, p, val, hf⟩ := h <;> exact trivial
  | swap h =>
    obtain ⟨al, o, p, val, hw⟩ | ⟨al, o, p, val, hw, hc, hal⟩ | ⟨al, o, hq, p, val⟩ := h <;> exact trivial
  | cas h =>
    obtain ⟨al, p, _, _, hw, hv, ho⟩ | ⟨al, p, _, _, hw, hc, hal, hv, ho⟩ | ⟨al, hq, p, _, _, hv, ho⟩ := h <;>
      exact trivial
  | casWeak h =>
    obtain ⟨al, p, _, _, hw, hv, ho⟩ | ⟨al, p, _, _, hw, hc, hal, hv, ho⟩ | ⟨al, hq, p, _, _, hv, ho⟩ := h <;>
      exact trivial

set_option maxHeartbeats 4000000 in
theorem progress (e : Endian) (c : Conf) : (backend e W c).ProgressOK := by
  intro w B hB
  cases hB with
  | load h =>
    obtain ⟨al, p, hw, hf⟩ | ⟨al, p, hw, hf⟩ | ⟨al, hq, p, hf⟩ | ⟨al, hq, p, hf⟩ := h <;> progress_straight
  | store h => obtain ⟨al, p, val, hw, hf⟩ | ⟨al, hq, p, val, hf⟩ := h <;> progress_straight
  | swap h =>
    obtain ⟨al, o, p, val, hw⟩ | ⟨al, o, p, val, hw, hc, hal⟩ | ⟨al, o, hq, p, val⟩ := h
    · progress_loop 30 1
    · progress_loop 30 2
    · progress_loop 30 1
  | cas h =>
    obtain ⟨al, p, _, _, hw, hv, ho⟩ | ⟨al, p, _, _, hw, hc, hal, hv, ho⟩ | ⟨al, hq, p, _, _, hv, ho⟩ := h
    · progress_loop 40 1
    · progress_loop 40 3
    · progress_loop 40 1
  | casWeak h =>
    obtain ⟨al, p, _, _, hw, hv, ho⟩ | ⟨al, p, _, _, hw, hc, hal, hv, ho⟩ | ⟨al, hq, p, _, _, hv, ho⟩ := h <;>
      progress_straight

/-- Object sizes of the back end. -/
def Size (W : Nat) (c : Conf) (w : Nat) : Prop := (SubSize w ∨ WordSize W w) ∨ (w = 128 ∧ Quad W c)

theorem cas_some {s f : Ordering} (hv : assertCompareExchangeOrdering s f = .ok ()) :
    ∃ o, casOrd s f = some o := by
  cases s <;> cases f <;> simp [assertCompareExchangeOrdering] at hv <;> exact ⟨_, rfl⟩

theorem total (e : Endian) (c : Conf) : (backend e W c).Total W (Size W c) (Size W c) where
  load o w p hw _ ho := by
    rcases hw with hw | ⟨rfl, hq⟩
    · cases o <;> simp [assertLoadOrdering] at ho
      · exact ⟨_, .rlx (Alloc.std _) p hw rfl⟩
      · exact ⟨_, .acq (Alloc.std _) p hw rfl⟩
      · exact ⟨_, .acq (Alloc.std _) p hw rfl⟩
    · cases o <;> simp [assertLoadOrdering] at ho
      · exact ⟨_, .qrlx (Alloc.std _) hq p rfl⟩
      · exact ⟨_, .qacq (Alloc.std _) hq p rfl⟩
      · exact ⟨_, .qacq (Alloc.std _) hq p rfl⟩
  store o w p v hw _ ho := by
    rcases hw with hw | ⟨rfl, hq⟩
    · cases o <;> simp [assertStoreOrdering] at ho <;> exact ⟨_, .word (Alloc.std _) p v hw rfl⟩
    · cases o <;> simp [assertStoreOrdering] at ho <;> exact ⟨_, .quad (Alloc.std _) hq p v rfl⟩
  swap o w p v hw hal := by
    rcases hw with (hw | hw) | ⟨rfl, hq⟩
    · cases hc : c.partword
      · exact ⟨_, .sub (Alloc.std _) o p v hw hc hal⟩
      · exact ⟨_, .word (Alloc.std _) o p v (.inl ⟨hw, hc⟩)⟩
    · exact ⟨_, .word (Alloc.std _) o p v (.inr hw)⟩
    · exact ⟨_, .quad (Alloc.std _) o hq p v⟩
  cas s f w p old new hw hal hv := by
    obtain ⟨o, ho⟩ := cas_some hv
    rcases hw with (hw | hw) | ⟨rfl, hq⟩
    · cases hc : c.partword
      · exact ⟨_, .sub (Alloc.std _) p old new hw hc hal hv ho⟩
      · exact ⟨_, .word (Alloc.std _) p old new (.inl ⟨hw, hc⟩) hv ho⟩
    · exact ⟨_, .word (Alloc.std _) p old new (.inr hw) hv ho⟩
    · exact ⟨_, .quad (Alloc.std _) hq p old new hv ho⟩
  casWeak s f w p old new hw hal hv := by
    obtain ⟨o, ho⟩ := cas_some hv
    rcases hw with (hw | hw) | ⟨rfl, hq⟩
    · cases hc : c.partword
      · exact ⟨_, .sub (Alloc.std _) p old new hw hc hal hv ho⟩
      · exact ⟨_, .word (Alloc.std _) p old new (.inl ⟨hw, hc⟩) hv ho⟩
    · exact ⟨_, .word (Alloc.std _) p old new (.inr hw) hv ho⟩
    · exact ⟨_, .quad (Alloc.std _) hq p old new hv ho⟩

/-! ### The properties (`W` = 32: powerpc, `W` = 64: powerpc64) -/

section Properties
variable (e : Endian) (hW : W = 32 ∨ W = 64) (c : Conf)
include hW

theorem C01_powerpc : (backend e W c).LoadsAtomic := (good e (by omega) c).loadsAtomic
theorem C02_powerpc : (backend e W c).StoresAtomic := (good e (by omega) c).storesAtomic
theorem C03_powerpc : (backend e W c).SwapsAtomic := (good e (by omega) c).swapsAtomic
theorem C05_powerpc : (backend e W c).WeakCasAtomic := (good e (by omega) c).weakCasAtomic
theorem C06_powerpc : (backend e W c).NeighboursOK := (good e (by omega) c).neighbours
theorem C13_powerpc : (backend e W c).AcquireOK := (good e (by omega) c).acquireOK
theorem C14_powerpc : (backend e W c).ReleaseOK := (good e (by omega) c).releaseOK
theorem C15_powerpc : (backend e W c).SeqCstOK := (good e (by omega) c).seqCstOK
theorem C16_powerpc : (backend e W c).FailureOK := (good e (by omega) c).failureOK
omit hW in
theorem C11_powerpc : (backend e W c).Total W (Size W c) (Size W c) := total e c
omit hW in
theorem C17_powerpc : (backend e W c).ContractOK := contract e c
omit hW in
theorem C19_powerpc : (backend e W c).AssumesOK := assumes e c
omit hW in
theorem C20_powerpc : (backend e W c).ProgressOK := progress e c

/-- C04 on PowerPC: `compare_exchange` is a strong CAS. -/
theorem C04_powerpc : (backend e W c).CasAtomic := fun _ _ _ _ _ _ _ h =>
  (cas_all e (by omega) c h).atomic fun _ _ _ _ h => h.1

/-- C32 on PowerPC: the result of `test_cr0_eq` is the EQ bit of cr0, whatever the other bits of the condition
register are. -/
theorem C32_powerpc (cr : BitVec 32) : testCr0Eq (cr.setWidth W) = cr.getLsbD 29 := testCr0Eq_eq (by omega) cr
end Properties

/-! ### The hypotheses are satisfiable: concrete blocks with completed runs -/

example : ∃ B tr rs, (backend .big 64 ⟨false, true⟩).Cas .seqCst .acquire 128 0x1010 0x12#128 0x34#128 B ∧
    B.Completed .big tr rs := by
  have hB := Cas.quad (e := .big) (c := ⟨false, true⟩) (s := .seqCst) (f := .acquire) (Alloc.std _) ⟨rfl, rfl⟩
    (0x1010#64) 0x12#128 0x34#128 rfl rfl
  obtain ⟨tr, rs, h⟩ := (progress .big _ _ (Backend.IsBlock.cas hB)).completed'
    (by simp [casqBlock]) (by simp [casqBlock])
  exact ⟨_, tr, rs, hB, h⟩

end Verif.PowerPC
