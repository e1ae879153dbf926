/-
Properties of the Armv6/Armv7 back end for old compilers (src/arch_legacy/arm.rs).
-/
import Verif.Proofs.LegacyArm
import Verif.Props.Arm
set_option linter.unusedSimpArgs false
set_option maxRecDepth 4000
namespace Verif.LegacyArm
open Arm (Conf CasProg WeakProg dmb casTable weakTable word_facts scMons rd_ord wr_ord wrd_ord rmw_ord cas_ord weak_ord
  cas_total Size)

theorem good (e : Endian) (c : Conf) : Good (backend e c) scMons where
  load := by
    rintro o w a B (⟨al, po, p, hw, hf⟩ | ⟨al, po, p, hf⟩)
    · exact (load_impl e c al (word_facts hw).1 _ po p _ rfl).mono (fun _ h => h)
        (by rintro m m' rs M ⟨h, rfl⟩; exact ⟨h, rd_ord hf⟩)
    · exact (loadd_impl e c al _ po p _ rfl).mono (fun _ h => h)
        (by rintro m m' rs M ⟨h, rfl⟩; exact ⟨h, rd_ord hf⟩)
  store := by
    rintro o w a v B (⟨al, pv, p, val, hw, hf⟩ | ⟨al, pv, p, val, hf⟩)
    · exact (store_impl e c al (word_facts hw).1 _ pv p v _ rfl).mono (fun _ h => h)
        (by rintro m m' rs M ⟨h, rfl⟩; exact ⟨h, wr_ord hf⟩)
    · exact (stored_impl e c al _ pv p _ _ rfl).mono (fun _ h => h)
        (by rintro m m' rs M ⟨h, rfl⟩; exact ⟨h, wrd_ord hf⟩)
  swap := by
    rintro o w a v B (⟨al, o, po, pv, p, val, hw, hd⟩ | ⟨al, o, po, pv, p, val, hd⟩)
    · exact (swap_impl e c al (word_facts hw).1 (word_facts hw).2 _ po pv p v hd _ rfl).mono (fun _ h => h)
        (by rintro m m' rs M ⟨h, rfl⟩; exact ⟨h, rmw_ord _⟩)
    · exact (swapd_impl e c al _ po pv p _ hd _ rfl).mono (fun _ h => h)
        (by rintro m m' rs M ⟨h, rfl⟩; exact ⟨h, rmw_ord _⟩)
  cas := by
    rintro s f w a old new B (⟨al, po, pold, pnew, p, _, _, hw, hd, hv, hg⟩ | ⟨al, po, pold, pnew, p, _, _, hd, hv, hg⟩)
    · exact (cas_impl e c al (word_facts hw).1 (word_facts hw).2 _ po pold pnew p _ _ hd _ rfl).mono (fun _ h => h)
        (by rintro m m' rs M ⟨⟨h, _⟩, hM⟩; exact ⟨h.weak, cas_ord hg _ M hM⟩)
    · exact (casd_impl e c al _ po pold pnew p _ _ hd _ rfl).mono (fun _ h => h)
        (by rintro m m' rs M ⟨⟨h, _⟩, hM⟩; exact ⟨h.weak, cas_ord hg _ M hM⟩)
  casWeak := by
    rintro s f w a old new B (⟨al, po, pold, pnew, p, _, _, hw, hd, hv, hg⟩ | ⟨al, po, pold, pnew, p, _, _, hd, hv, hg⟩)
    · exact (weak_impl e c al (word_facts hw).1 (word_facts hw).2 _ po pold pnew p _ _ hd _ rfl).mono (fun _ h => h)
        (by rintro m m' rs M ⟨⟨h, _⟩, hM⟩; exact ⟨h, weak_ord hg _ M hM⟩)
    · exact (weakd_impl e c al _ po pold pnew p _ _ hd _ rfl).mono (fun _ h => h)
        (by rintro m m' rs M ⟨⟨h, _⟩, hM⟩; exact ⟨h, weak_ord hg _ M hM⟩)
  ord := by show ∀ M ∈ scMons, ∀ M' ∈ scMons, Ordered Pairs.none M M' = true; decide

set_option maxHeartbeats 4000000 in
theorem contract (e : Endian) (c : Conf) : (backend e c).ContractOK := by
  intro w B hB
  obtain ⟨k, v⟩ := c
  cases hB with
  | load h => obtain ⟨al, po, p, hw, hf⟩ | ⟨al, po, p, hf⟩ := h <;> cases k <;> cases v <;> contract_tac
  | store h => obtain ⟨al, pv, p, val, hw, hf⟩ | ⟨al, pv, p, val, hf⟩ := h <;> cases k <;> cases v <;> contract_tac
  | swap h => obtain ⟨al, o, po, pv, p, val, hw, hd⟩ | ⟨al, o, po, pv, p, val, hd⟩ := h <;> cases k <;> cases v <;> contract_tac
  | cas h =>
    obtain @⟨al, s, f, w, g, po, pold, pnew, p, _, _, hw, hd, hv, hg⟩ | @⟨al, s, f, g, po, pold, pnew, p, _, _, hd, hv, hg⟩ := h <;> clear hg <;>
      cases g <;> cases k <;> cases v <;> contract_tac
  | casWeak h =>
    obtain @⟨al, s, f, w, g, po, pold, pnew, p, _, _, hw, hd, hv, hg⟩ | @⟨al, s, f, g, po, pold, pnew, p, _, _, hd, hv, hg⟩ := h <;> clear hg <;>
      cases g <;> cases k <;> cases v <;> contract_tac

theorem assumes (e : Endian) (c : Conf) : (backend e c).AssumesOK := by
  intro w B tr rs hB hr
  cases hB with
  | load h => obtain ⟨al, po, p, hw, hf⟩ | ⟨al, po, p, hf⟩ := h <;> exact trivial
  | store h => obtain ⟨al, pv, p, val, hw, hf⟩ | ⟨al, pv, p, val, hf⟩ := h <;> exact trivial
  | swap h => obtain ⟨al, o, po, pv, p, val, hw, hd⟩ | ⟨al, o, po, pv, p, val, hd⟩ := h <;> exact trivial
  | cas h =>
    obtain ⟨al, po, pold, pnew, p, _, _, hw, hd, hv, hg⟩ | ⟨al, po, pold, pnew, p, _, _, hd, hv, hg⟩ := h
    · obtain ⟨_, _, h⟩ := (cas_impl e c al (word_facts hw).1 (word_facts hw).2 _ po pold pnew p _ _ hd _ rfl).completed hr
      exact h.1.2
    · obtain ⟨_, _, h⟩ := (casd_impl e c al _ po pold pnew p _ _ hd _ rfl).completed hr
      exact h.1.2
  | casWeak h =>
    obtain ⟨al, po, pold, pnew, p, _, _, hw, hd, hv, hg⟩ | ⟨al, po, pold, pnew, p, _, _, hd, hv, hg⟩ := h
    · obtain ⟨_, _, h⟩ := (weak_impl e c al (word_facts hw).1 (word_facts hw).2 _ po pold pnew p _ _ hd _ rfl).completed hr
      exact h.1.2
    · obtain ⟨_, _, h⟩ := (weakd_impl e c al _ po pold pnew p _ _ hd _ rfl).completed hr
      exact h.1.2

set_option maxHeartbeats 4000000 in
theorem progress (e : Endian) (c : Conf) : (backend e c).ProgressOK := by
  intro w B hB
  obtain ⟨k, v⟩ := c
  cases hB with
  | load h => obtain ⟨al, po, p, hw, hf⟩ | ⟨al, po, p, hf⟩ := h <;> cases k <;> cases v <;> progress_straight
  | store h =>
    obtain ⟨al, pv, p, val, hw, hf⟩ | ⟨al, pv, p, val, hf⟩ := h
    · cases k <;> progress_straight
    · cases k <;> progress_loop 30 3
  | swap h =>
    obtain ⟨al, o, po, pv, p, val, hw, hd⟩ | ⟨al, o, po, pv, p, val, hd⟩ := h
    · cases k <;> progress_loop 30 3
    · cases k <;> progress_loop 30 3
  | cas h =>
    obtain @⟨al, s, f, w, g, po, pold, pnew, p, _, _, hw, hd, hv, hg⟩ | @⟨al, s, f, g, po, pold, pnew, p, _, _, hd, hv, hg⟩ := h <;> clear hg
    · cases g
      · cases k <;> cases v <;> progress_loop 40 2
      · cases k <;> cases v <;> progress_loop 40 7
      · cases k <;> cases v <;> progress_loop 40 7
    · cases g
      · cases k <;> cases v <;> progress_loop 40 2
      · cases k <;> cases v <;> progress_loop 40 9
      · cases k <;> cases v <;> progress_loop 40 9
  | casWeak h =>
    obtain @⟨al, s, f, w, g, po, pold, pnew, p, _, _, hw, hd, hv, hg⟩ | @⟨al, s, f, g, po, pold, pnew, p, _, _, hd, hv, hg⟩ := h <;> clear hg <;>
      cases g <;> cases k <;> cases v <;> progress_straight

theorem total (e : Endian) (c : Conf) : (backend e c).Total 32 Size Size where
  load o w p hw _ ho := by
    rcases hw with hw | rfl
    · cases o <;> simp [assertLoadOrdering] at ho <;> exact ⟨_, .word (Alloc.std _) 0#32 p hw rfl⟩
    · cases o <;> simp [assertLoadOrdering] at ho <;> exact ⟨_, .dword (Alloc.std _) 0#32 p rfl⟩
  store o w p v hw _ ho := by
    rcases hw with hw | rfl
    · cases o <;> simp [assertStoreOrdering] at ho <;> exact ⟨_, .word (Alloc.std _) 0#32 p v hw rfl⟩
    · cases o <;> simp [assertStoreOrdering] at ho <;> exact ⟨_, .dword (Alloc.std _) 0#32 p v rfl⟩
  swap o w p v hw _ := by
    rcases hw with hw | rfl
    · exact ⟨_, .word (Alloc.std _) o 0#32 8#32 p v hw (by decide)⟩
    · exact ⟨_, .dword (Alloc.std _) o 0#32 8#32 p v (by decide)⟩
  cas s f w p old new hw _ hv := by
    obtain ⟨g, hg⟩ := (cas_total hv).1
    rcases hw with hw | rfl
    · exact ⟨_, .word (Alloc.std _) 0#32 8#32 16#32 p old new hw (by decide) hv hg⟩
    · exact ⟨_, .dword (Alloc.std _) 0#32 8#32 16#32 p old new (by decide) hv hg⟩
  casWeak s f w p old new hw _ hv := by
    obtain ⟨g, hg⟩ := (cas_total hv).2
    rcases hw with hw | rfl
    · exact ⟨_, .word (Alloc.std _) 0#32 8#32 16#32 p old new hw (by decide) hv hg⟩
    · exact ⟨_, .dword (Alloc.std _) 0#32 8#32 16#32 p old new (by decide) hv hg⟩

/-! ### The properties -/

section Properties
variable (e : Endian) (c : Conf)

theorem C01_legacy_arm : (backend e c).LoadsAtomic := (good e c).loadsAtomic
theorem C02_legacy_arm : (backend e c).StoresAtomic := (good e c).storesAtomic
theorem C03_legacy_arm : (backend e c).SwapsAtomic := (good e c).swapsAtomic
theorem C05_legacy_arm : (backend e c).WeakCasAtomic := (good e c).weakCasAtomic
theorem C06_legacy_arm : (backend e c).NeighboursOK := (good e c).neighbours
theorem C11_legacy_arm : (backend e c).Total 32 Size Size := total e c
theorem C13_legacy_arm : (backend e c).AcquireOK := (good e c).acquireOK
theorem C14_legacy_arm : (backend e c).ReleaseOK := (good e c).releaseOK
theorem C15_legacy_arm : (backend e c).SeqCstOK := (good e c).seqCstOK
theorem C16_legacy_arm : (backend e c).FailureOK := (good e c).failureOK
theorem C17_legacy_arm : (backend e c).ContractOK := contract e c
theorem C19_legacy_arm : (backend e c).AssumesOK := assumes e c
theorem C20_legacy_arm : (backend e c).ProgressOK := progress e c

/-- C04 on Armv6/v7: `compare_exchange` is a strong CAS. -/
theorem C04_legacy_arm : (backend e c).CasAtomic := by
  rintro s f w a old new B (⟨al, po, pold, pnew, p, _, _, hw, hd, hv, hg⟩ | ⟨al, po, pold, pnew, p, _, _, hd, hv, hg⟩)
  · exact (cas_impl e c al (word_facts hw).1 (word_facts hw).2 _ po pold pnew p _ _ hd _ rfl).atomic fun _ _ _ _ h => h.1.1
  · exact (casd_impl e c al _ po pold pnew p _ _ hd _ rfl).atomic fun _ _ _ _ h => h.1.1
end Properties

/-! ### The hypotheses are satisfiable: concrete blocks with completed runs -/

example : ∃ B tr rs, (backend .big ⟨true, false⟩).Cas .seqCst .acquire 64 0x1008 0x12#64 0x34#64 B ∧
    B.Completed .big tr rs := by
  have hB := Cas.dword (e := .big) (c := ⟨true, false⟩) (s := .seqCst) (f := .acquire) (Alloc.std _)
    0x7000#32 0x7010#32 0x7020#32 (0x1008#32) 0x12#64 0x34#64 (by decide) rfl rfl
  obtain ⟨tr, rs, h⟩ := (progress .big _ _ (Backend.IsBlock.cas hB)).completed'
    (by simp [casdFrame]) (by simp [casdFrame])
  exact ⟨_, tr, rs, hB, h⟩

end Verif.LegacyArm
