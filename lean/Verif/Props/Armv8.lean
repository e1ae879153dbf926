/-
Properties of the Armv8 AArch32 back end (src/arch/armv8.rs).
-/
import Verif.Proofs.Armv8
import Verif.Core.Progress
set_option linter.unusedSimpArgs false
set_option maxRecDepth 4000
namespace Verif.Armv8

/-- Monitors of SeqCst operations. -/
def scMons : List Mon := [ rdMon true, ({} : Mon).onWr (wr true), rmwMon (true, true) ]

theorem rd_ord {o : Ordering} {f : Bool} (h : loadOrd o = some f) : RdOrd Pairs.none scMons o (rdMon f) := by
  cases o <;> simp [loadOrd] at h <;> subst h <;> decide +revert

theorem wr_ord {o : Ordering} {f : Bool} (h : storeOrd o = some f) :
    WrOrd Pairs.none scMons o (({} : Mon).onWr (wr f)) := by
  cases o <;> simp [storeOrd] at h <;> subst h <;> decide +revert

theorem wrd_ord (o : Ordering) : WrOrd Pairs.none scMons o (rmwMon (rmwOrd o)) := by
  cases o <;> decide

theorem rmw_ord (o : Ordering) : RmwOrd Pairs.none scMons o (rmwMon (rmwOrd o)) := by
  cases o <;> decide

theorem cas_ord {s f : Ordering} (h : assertCompareExchangeOrdering s f = .ok ()) (ok : Bool) :
    CasOrd Pairs.none scMons s f ok
      (if ok then rmwMon (rmwOrd (upgradeSuccessOrdering s f))
        else rdMon (rmwOrd (upgradeSuccessOrdering s f)).1) := by
  cases s <;> cases f <;> simp [assertCompareExchangeOrdering] at h <;> cases ok <;> decide

theorem good (e : Endian) (c : Conf) : Good (backend e c) scMons where
  load := by
    rintro o w a B (⟨al, p, hw, hf⟩ | ⟨al, hc, p, hf⟩)
    · exact (load_impl e al (word_facts hw).1 _ p _ rfl).mono (fun _ h => h)
        (by rintro m m' rs M ⟨h, rfl⟩; exact ⟨h, rd_ord hf⟩)
    · exact (loadd_impl e al _ p _ rfl).mono (fun _ h => h)
        (by rintro m m' rs M ⟨h, rfl⟩; exact ⟨h, rd_ord hf⟩)
  store := by
    rintro o w a v B (⟨al, p, val, hw, hf⟩ | ⟨al, hc, p, val, hf⟩)
    · exact (store_impl e al _ p v _ rfl).mono (fun _ h => h)
        (by rintro m m' rs M ⟨h, rfl⟩; exact ⟨h, wr_ord hf⟩)
    · exact (stored_impl e al _ p _ _ rfl).mono (fun _ h => h)
        (by rintro m m' rs M ⟨h, rfl⟩; exact ⟨h, wrd_ord _⟩)
  swap := by
    rintro o w a v B (⟨al, o, p, val, hw⟩ | ⟨al, o, hc, p, val⟩)
    · exact (swap_impl e al (word_facts hw).1 (word_facts hw).2 _ p v _ rfl).mono (fun _ h => h)
        (by rintro m m' rs M ⟨h, rfl⟩; exact ⟨h, rmw_ord _⟩)
    · exact (swapd_impl e al _ p _ _ rfl).mono (fun _ h => h)
        (by rintro m m' rs M ⟨h, rfl⟩; exact ⟨h, rmw_ord _⟩)
  cas := by
    rintro s f w a old new B (⟨al, p, _, _, hw, hv⟩ | ⟨al, hc, p, _, _, hv⟩)
    · exact (cas_impl e c al (word_facts hw).1 (word_facts hw).2 _ p _ _ _ rfl).mono (fun _ h => h)
        (by rintro m m' rs M ⟨⟨h, _⟩, rfl⟩; exact ⟨h.weak, cas_ord hv _⟩)
    · exact (casd_impl e c al _ p _ _ _ rfl).mono (fun _ h => h)
        (by rintro m m' rs M ⟨⟨h, _⟩, rfl⟩; exact ⟨h.weak, cas_ord hv _⟩)
  casWeak := by
    rintro s f w a old new B (⟨al, p, _, _, hw, hv⟩ | ⟨al, hc, p, _, _, hv⟩)
    · exact (weak_impl e c al (word_facts hw).1 (word_facts hw).2 _ p _ _ _ rfl).mono (fun _ h => h)
        (by rintro m m' rs M ⟨⟨h, _⟩, rfl⟩; exact ⟨h, cas_ord hv _⟩)
    · exact (weakd_impl e c al _ p _ _ _ rfl).mono (fun _ h => h)
        (by rintro m m' rs M ⟨⟨h, _⟩, rfl⟩; exact ⟨h, cas_ord hv _⟩)
  ord := by show ∀ M ∈ scMons, ∀ M' ∈ scMons, Ordered Pairs.none M M' = true; decide

set_option maxHeartbeats 4000000 in
theorem contract (e : Endian) (c : Conf) : (backend e c).ContractOK := by
  intro w B hB
  obtain ⟨k⟩ := c
  cases hB with
  | load h => obtain ⟨al, p, hw, hf⟩ | ⟨al, hc, p, hf⟩ := h <;> contract_tac
  | store h => obtain ⟨al, p, val, hw, hf⟩ | ⟨al, hc, p, val, hf⟩ := h <;> contract_tac
  | swap h => obtain ⟨al, o, p, val, hw⟩ | ⟨al, o, hc, p, val⟩ := h <;> contract_tac
  | cas h =>
    obtain ⟨al, p, _, _, hw, hv⟩ | ⟨al, hc, p, _, _, hv⟩ := h <;> cases k <;> contract_tac
  | casWeak h =>
    obtain ⟨al, p, _, _, hw, hv⟩ | ⟨al, hc, p, _, _, hv⟩ := h <;> cases k <;> contract_tac

theorem assumes (e : Endian) (c : Conf) : (backend e c).AssumesOK := by
  intro w B tr rs hB hr
  cases hB with
  | load h => obtain ⟨al, p, hw, hf⟩ | ⟨al, hc, p, hf⟩ := h <;> exact trivial
  | store h => obtain ⟨al, p, val, hw, hf⟩ | ⟨al, hc, p, val, hf⟩ := h <;> exact trivial
  | swap h => obtain ⟨al, o, p, val, hw⟩ | ⟨al, o, hc, p, val⟩ := h <;> exact trivial
  | cas h =>
    obtain ⟨al, p, _, _, hw, hv⟩ | ⟨al, hc, p, _, _, hv⟩ := h
    · obtain ⟨_, _, h⟩ := (cas_impl e c al (word_facts hw).1 (word_facts hw).2 _ p _ _ _ rfl).completed hr
      exact h.1.2
    · obtain ⟨_, _, h⟩ := (casd_impl e c al _ p _ _ _ rfl).completed hr
      exact h.1.2
  | casWeak h =>
    obtain ⟨al, p, _, _, hw, hv⟩ | ⟨al, hc, p, _, _, hv⟩ := h
    · obtain ⟨_, _, h⟩ := (weak_impl e c al (word_facts hw).1 (word_facts hw).2 _ p _ _ _ rfl).completed hr
      exact h.1.2
    · obtain ⟨_, _, h⟩ := (weakd_impl e c al _ p _ _ _ rfl).completed hr
      exact h.1.2

set_option maxHeartbeats 4000000 in
theorem progress (e : Endian) (c : Conf) : (backend e c).ProgressOK := by
  intro w B hB
  obtain ⟨k⟩ := c
  cases hB with
  | load h => obtain ⟨al, p, hw, hf⟩ | ⟨al, hc, p, hf⟩ := h <;> progress_straight
  | store h =>
    obtain ⟨al, p, val, hw, hf⟩ | ⟨al, hc, p, val, hf⟩ := h
    · progress_straight
    · progress_loop 30 0
  | swap h =>
    obtain ⟨al, o, p, val, hw⟩ | ⟨al, o, hc, p, val⟩ := h <;> progress_loop 30 0
  | cas h =>
    obtain ⟨al, p, _, _, hw, hv⟩ | ⟨al, hc, p, _, _, hv⟩ := h <;> cases k <;> progress_loop 40 0
  | casWeak h =>
    obtain ⟨al, p, _, _, hw, hv⟩ | ⟨al, hc, p, _, _, hv⟩ := h <;> cases k <;> progress_straight

/-- Object sizes of the back end. -/
def Size (c : Conf) (w : Nat) : Prop := (SubSize w ∨ w = 32) ∨ (w = 64 ∧ c.mclass = false)

theorem total (e : Endian) (c : Conf) : (backend e c).Total 32 (Size c) (Size c) where
  load o w p hw _ ho := by
    rcases hw with hw | ⟨rfl, hc⟩
    · cases o <;> simp [assertLoadOrdering] at ho <;> exact ⟨_, .word (Alloc.std _) p hw rfl⟩
    · cases o <;> simp [assertLoadOrdering] at ho <;> exact ⟨_, .dword (Alloc.std _) hc p rfl⟩
  store o w p v hw _ ho := by
    rcases hw with hw | ⟨rfl, hc⟩
    · cases o <;> simp [assertStoreOrdering] at ho <;> exact ⟨_, .word (Alloc.std _) p v hw rfl⟩
    · exact ⟨_, .dword (Alloc.std _) hc p v ho⟩
  swap o w p v hw _ := by
    rcases hw with hw | ⟨rfl, hc⟩
    · exact ⟨_, .word (Alloc.std _) o p v hw⟩
    · exact ⟨_, .dword (Alloc.std _) o hc p v⟩
  cas s f w p old new hw _ hv := by
    rcases hw with hw | ⟨rfl, hc⟩
    · exact ⟨_, .word (Alloc.std _) p old new hw hv⟩
    · exact ⟨_, .dword (Alloc.std _) hc p old new hv⟩
  casWeak s f w p old new hw _ hv := by
    rcases hw with hw | ⟨rfl, hc⟩
    · exact ⟨_, .word (Alloc.std _) p old new hw hv⟩
    · exact ⟨_, .dword (Alloc.std _) hc p old new hv⟩

/-! ### The properties -/

section Properties
variable (e : Endian) (c : Conf)

theorem C01_armv8 : (backend e c).LoadsAtomic := (good e c).loadsAtomic
theorem C02_armv8 : (backend e c).StoresAtomic := (good e c).storesAtomic
theorem C03_armv8 : (backend e c).SwapsAtomic := (good e c).swapsAtomic
theorem C05_armv8 : (backend e c).WeakCasAtomic := (good e c).weakCasAtomic
theorem C06_armv8 : (backend e c).NeighboursOK := (good e c).neighbours
theorem C11_armv8 : (backend e c).Total 32 (Size c) (Size c) := total e c
theorem C13_armv8 : (backend e c).AcquireOK := (good e c).acquireOK
theorem C14_armv8 : (backend e c).ReleaseOK := (good e c).releaseOK
theorem C15_armv8 : (backend e c).SeqCstOK := (good e c).seqCstOK
theorem C16_armv8 : (backend e c).FailureOK := (good e c).failureOK
theorem C17_armv8 : (backend e c).ContractOK := contract e c
theorem C19_armv8 : (backend e c).AssumesOK := assumes e c
theorem C20_armv8 : (backend e c).ProgressOK := progress e c

/-- C04 on Armv8 AArch32: `compare_exchange` is a strong CAS. -/
theorem C04_armv8 : (backend e c).CasAtomic := by
  rintro s f w a old new B (⟨al, p, _, _, hw, hv⟩ | ⟨al, hc, p, _, _, hv⟩)
  · exact (cas_impl e c al (word_facts hw).1 (word_facts hw).2 _ p _ _ _ rfl).atomic fun _ _ _ _ h => h.1.1
  · exact (casd_impl e c al _ p _ _ _ rfl).atomic fun _ _ _ _ h => h.1.1
end Properties

/-! ### The hypotheses are satisfiable: concrete blocks with completed runs -/

example : ∃ B tr rs, (backend .big ⟨false⟩).Cas .seqCst .acquire 64 0x1008 0x12#64 0x34#64 B ∧
    B.Completed .big tr rs := by
  have hB := Cas.dword (e := .big) (c := ⟨false⟩) (s := .seqCst) (f := .acquire) (Alloc.std _) rfl
    (0x1008#32) 0x12#64 0x34#64 rfl
  obtain ⟨tr, rs, h⟩ := (progress .big _ _ (Backend.IsBlock.cas hB)).completed'
    (by simp [casdFrame]) (by simp [casdFrame])
  exact ⟨_, tr, rs, hB, h⟩

end Verif.Armv8
