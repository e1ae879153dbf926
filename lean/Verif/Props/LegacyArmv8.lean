/-
Properties of the Armv8 AArch32 back end for old compilers (src/arch_legacy/armv8.rs).
-/
import Verif.Proofs.LegacyArmv8
import Verif.Props.Armv8
import Verif.Core.Progress
set_option linter.unusedSimpArgs false
set_option maxRecDepth 4000
namespace Verif.LegacyArmv8
open Armv8 (Conf rd wr rdMon rmwMon pair_cmp word_facts loadOrd storeOrd rmwOrd)

open Armv8 (scMons rd_ord wr_ord wrd_ord rmw_ord cas_ord Size)

theorem good (e : Endian) (c : Conf) : Good (backend e c) scMons where
  load := by
    rintro o w a B (⟨al, po, p, hw, hf⟩ | ⟨al, hc, po, p, hf⟩)
    · exact (load_impl e al (word_facts hw).1 _ po p _ rfl).mono (fun _ h => h)
        (by rintro m m' rs M ⟨h, rfl⟩; exact ⟨h, rd_ord hf⟩)
    · exact (loadd_impl e al _ po p _ rfl).mono (fun _ h => h)
        (by rintro m m' rs M ⟨h, rfl⟩; exact ⟨h, rd_ord hf⟩)
  store := by
    rintro o w a v B (⟨al, pv, p, val, hw, hf⟩ | ⟨al, hc, pv, p, val, hf⟩)
    · exact (store_impl e al (word_facts hw).1 _ pv p v _ rfl).mono (fun _ h => h)
        (by rintro m m' rs M ⟨h, rfl⟩; exact ⟨h, wr_ord hf⟩)
    · exact (stored_impl e al _ pv p _ _ rfl).mono (fun _ h => h)
        (by rintro m m' rs M ⟨h, rfl⟩; exact ⟨h, wrd_ord _⟩)
  swap := by
    rintro o w a v B (⟨al, o, po, pv, p, val, hw, hb⟩ | ⟨al, o, hc, po, pv, p, val, hb⟩)
    · exact (swap_impl e al (word_facts hw).1 (word_facts hw).2 _ po pv p v hb _ rfl).mono (fun _ h => h)
        (by rintro m m' rs M ⟨h, rfl⟩; exact ⟨h, rmw_ord _⟩)
    · exact (swapd_impl e al _ po pv p _ hb _ rfl).mono (fun _ h => h)
        (by rintro m m' rs M ⟨h, rfl⟩; exact ⟨h, rmw_ord _⟩)
  cas := by
    rintro s f w a old new B (⟨al, po, pold, pnew, p, _, _, hw, hv, hb⟩ | ⟨al, hc, po, pold, pnew, p, _, _, hv, hb⟩)
    · exact (cas_impl e c al (word_facts hw).1 (word_facts hw).2 _ po pold pnew p _ _ hb _ rfl).mono (fun _ h => h)
        (by rintro m m' rs M ⟨⟨h, _⟩, rfl⟩; exact ⟨h.weak, cas_ord hv _⟩)
    · exact (casd_impl e c al _ po pold pnew p _ _ hb _ rfl).mono (fun _ h => h)
        (by rintro m m' rs M ⟨⟨h, _⟩, rfl⟩; exact ⟨h.weak, cas_ord hv _⟩)
  casWeak := by
    rintro s f w a old new B (⟨al, po, pold, pnew, p, _, _, hw, hv, hb⟩ | ⟨al, hc, po, pold, pnew, p, _, _, hv, hb⟩)
    · exact (weak_impl e c al (word_facts hw).1 (word_facts hw).2 _ po pold pnew p _ _ hb _ rfl).mono (fun _ h => h)
        (by rintro m m' rs M ⟨⟨h, _⟩, rfl⟩; exact ⟨h, cas_ord hv _⟩)
    · exact (weakd_impl e c al _ po pold pnew p _ _ hb _ rfl).mono (fun _ h => h)
        (by rintro m m' rs M ⟨⟨h, _⟩, rfl⟩; exact ⟨h, cas_ord hv _⟩)
  ord := by show ∀ M ∈ scMons, ∀ M' ∈ scMons, Ordered Pairs.none M M' = true; decide

set_option maxHeartbeats 4000000 in
theorem contract (e : Endian) (c : Conf) : (backend e c).ContractOK := by
  intro w B hB
  obtain ⟨k⟩ := c
  cases hB with
  | load h => obtain ⟨al, po, p, hw, hf⟩ | ⟨al, hc, po, p, hf⟩ := h <;> contract_tac
  | store h => obtain ⟨al, pv, p, val, hw, hf⟩ | ⟨al, hc, pv, p, val, hf⟩ := h <;> contract_tac
  | swap h => obtain ⟨al, o, po, pv, p, val, hw, hb⟩ | ⟨al, o, hc, po, pv, p, val, hb⟩ := h <;> contract_tac
  | cas h =>
    obtain ⟨al, po, pold, pnew, p, _, _, hw, hv, hb⟩ | ⟨al, hc, po, pold, pnew, p, _, _, hv, hb⟩ := h <;> cases k <;> contract_tac
  | casWeak h =>
    obtain ⟨al, po, pold, pnew, p, _, _, hw, hv, hb⟩ | ⟨al, hc, po, pold, pnew, p, _, _, hv, hb⟩ := h <;> cases k <;> contract_tac

theorem assumes (e : Endian) (c : Conf) : (backend e c).AssumesOK := by
  intro w B tr rs hB hr
  cases hB with
  | load h => obtain ⟨al, po, p, hw, hf⟩ | ⟨al, hc, po, p, hf⟩ := h <;> exact trivial
  | store h => obtain ⟨al, pv, p, val, hw, hf⟩ | ⟨al, hc, pv, p, val, hf⟩ := h <;> exact trivial
  | swap h => obtain ⟨al, o, po, pv, p, val, hw, hb⟩ | ⟨al, o, hc, po, pv, p, val, hb⟩ := h <;> exact trivial
  | cas h =>
    obtain ⟨al, po, pold, pnew, p, _, _, hw, hv, hb⟩ | ⟨al, hc, po, pold, pnew, p, _, _, hv, hb⟩ := h
    · obtain ⟨_, _, h⟩ := (cas_impl e c al (word_facts hw).1 (word_facts hw).2 _ po pold pnew p _ _ hb _ rfl).completed hr
      exact h.1.2
    · obtain ⟨_, _, h⟩ := (casd_impl e c al _ po pold pnew p _ _ hb _ rfl).completed hr
      exact h.1.2
  | casWeak h =>
    obtain ⟨al, po, pold, pnew, p, _, _, hw, hv, hb⟩ | ⟨al, hc, po, pold, pnew, p, _, _, hv, hb⟩ := h
    · obtain ⟨_, _, h⟩ := (weak_impl e c al (word_facts hw).1 (word_facts hw).2 _ po pold pnew p _ _ hb _ rfl).completed hr
      exact h.1.2
    · obtain ⟨_, _, h⟩ := (weakd_impl e c al _ po pold pnew p _ _ hb _ rfl).completed hr
      exact h.1.2

set_option maxHeartbeats 4000000 in
theorem progress (e : Endian) (c : Conf) : (backend e c).ProgressOK := by
  intro w B hB
  obtain ⟨k⟩ := c
  cases hB with
  | load h => obtain ⟨al, po, p, hw, hf⟩ | ⟨al, hc, po, p, hf⟩ := h <;> progress_straight
  | store h =>
    obtain ⟨al, pv, p, val, hw, hf⟩ | ⟨al, hc, pv, p, val, hf⟩ := h
    · progress_straight
    · progress_loop 30 1
  | swap h =>
    obtain ⟨al, o, po, pv, p, val, hw, hb⟩ | ⟨al, o, hc, po, pv, p, val, hb⟩ := h <;> progress_loop 30 1
  | cas h =>
    obtain ⟨al, po, pold, pnew, p, _, _, hw, hv, hb⟩ | ⟨al, hc, po, pold, pnew, p, _, _, hv, hb⟩ := h <;> cases k <;> progress_loop 40 2
  | casWeak h =>
    obtain ⟨al, po, pold, pnew, p, _, _, hw, hv, hb⟩ | ⟨al, hc, po, pold, pnew, p, _, _, hv, hb⟩ := h <;> cases k <;> progress_straight

theorem total (e : Endian) (c : Conf) : (backend e c).Total 32 (Size c) (Size c) where
  load o w p hw _ ho := by
    rcases hw with hw | ⟨rfl, hc⟩
    · cases o <;> simp [assertLoadOrdering] at ho <;> exact ⟨_, .word (Alloc.std _) 0#32 p hw rfl⟩
    · cases o <;> simp [assertLoadOrdering] at ho <;> exact ⟨_, .dword (Alloc.std _) hc 0#32 p rfl⟩
  store o w p v hw _ ho := by
    rcases hw with hw | ⟨rfl, hc⟩
    · cases o <;> simp [assertStoreOrdering] at ho <;> exact ⟨_, .word (Alloc.std _) 0#32 p v hw rfl⟩
    · exact ⟨_, .dword (Alloc.std _) hc 0#32 p v ho⟩
  swap o w p v hw _ := by
    rcases hw with hw | ⟨rfl, hc⟩
    · exact ⟨_, .word (Alloc.std _) o 0#32 1#32 p v hw (by decide)⟩
    · exact ⟨_, .dword (Alloc.std _) o hc 0#32 1#32 p v (by decide)⟩
  cas s f w p old new hw _ hv := by
    rcases hw with hw | ⟨rfl, hc⟩
    · exact ⟨_, .word (Alloc.std _) 0#32 1#32 2#32 p old new hw hv (by decide)⟩
    · exact ⟨_, .dword (Alloc.std _) hc 0#32 1#32 2#32 p old new hv (by decide)⟩
  casWeak s f w p old new hw _ hv := by
    rcases hw with hw | ⟨rfl, hc⟩
    · exact ⟨_, .word (Alloc.std _) 0#32 1#32 2#32 p old new hw hv (by decide)⟩
    · exact ⟨_, .dword (Alloc.std _) hc 0#32 1#32 2#32 p old new hv (by decide)⟩

/-! ### The properties -/

section Properties
variable (e : Endian) (c : Conf)

theorem C01_legacy_armv8 : (backend e c).LoadsAtomic := (good e c).loadsAtomic
theorem C02_legacy_armv8 : (backend e c).StoresAtomic := (good e c).storesAtomic
theorem C03_legacy_armv8 : (backend e c).SwapsAtomic := (good e c).swapsAtomic
theorem C05_legacy_armv8 : (backend e c).WeakCasAtomic := (good e c).weakCasAtomic
theorem C06_legacy_armv8 : (backend e c).NeighboursOK := (good e c).neighbours
theorem C11_legacy_armv8 : (backend e c).Total 32 (Size c) (Size c) := total e c
theorem C13_legacy_armv8 : (backend e c).AcquireOK := (good e c).acquireOK
theorem C14_legacy_armv8 : (backend e c).ReleaseOK := (good e c).releaseOK
theorem C15_legacy_armv8 : (backend e c).SeqCstOK := (good e c).seqCstOK
theorem C16_legacy_armv8 : (backend e c).FailureOK := (good e c).failureOK
theorem C17_legacy_armv8 : (backend e c).ContractOK := contract e c
theorem C19_legacy_armv8 : (backend e c).AssumesOK := assumes e c
theorem C20_legacy_armv8 : (backend e c).ProgressOK := progress e c

/-- C04 on Armv8 AArch32: `compare_exchange` is a strong CAS. -/
theorem C04_legacy_armv8 : (backend e c).CasAtomic := by
  rintro s f w a old new B (⟨al, po, pold, pnew, p, _, _, hw, hv, hb⟩ | ⟨al, hc, po, pold, pnew, p, _, _, hv, hb⟩)
  · exact (cas_impl e c al (word_facts hw).1 (word_facts hw).2 _ po pold pnew p _ _ hb _ rfl).atomic fun _ _ _ _ h => h.1.1
  · exact (casd_impl e c al _ po pold pnew p _ _ hb _ rfl).atomic fun _ _ _ _ h => h.1.1
end Properties

/-! ### The hypotheses are satisfiable: concrete blocks with completed runs -/

example : ∃ B tr rs, (backend .big ⟨false⟩).Cas .seqCst .acquire 64 0x1008 0x12#64 0x34#64 B ∧
    B.Completed .big tr rs := by
  have hB := Cas.dword (e := .big) (c := ⟨false⟩) (s := .seqCst) (f := .acquire) (Alloc.std _) rfl
    (0x7f00#32) (0x7f10#32) (0x7f20#32) (0x1008#32) 0x12#64 0x34#64 rfl (by decide)
  obtain ⟨tr, rs, h⟩ := (progress .big _ _ (Backend.IsBlock.cas hB)).completed'
    (by simp [casdFrame]) (by simp [casdFrame])
  exact ⟨_, tr, rs, hB, h⟩

end Verif.LegacyArmv8
