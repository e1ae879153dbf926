/-
Properties of the Armv6/Armv7 back end (src/arch/arm.rs).
-/
import Verif.Proofs.Arm
import Verif.Core.Progress
set_option linter.unusedSimpArgs false
set_option maxRecDepth 4000
namespace Verif.Arm

/-- Monitors of SeqCst operations. -/
def scMons : List Mon :=
  [ (({} : Mon).onRd .plain).onFence dmb,
    ((({} : Mon).onFence dmb).onWr .plain).onFence dmb,
    rmwMon (dmb, dmb),
    (mon2.onWr .plain).onFence dmb,
    (mon3.onWr .plain).onFence dmb,
    mon2.onFence dmb,
    mon3.onFence dmb ]

theorem rd_ord {o : Ordering} {f : Pairs} (h : loadFence o = some f) :
    RdOrd Pairs.none scMons o ((({} : Mon).onRd .plain).onFence f) := by
  cases o <;> simp [loadFence] at h <;> subst h <;> decide +revert

theorem wr_ord {o : Ordering} {f : Pairs × Pairs} (h : storeFences o = some f) :
    WrOrd Pairs.none scMons o (((({} : Mon).onFence f.2).onWr .plain).onFence f.1) := by
  cases o <;> simp [storeFences] at h <;> subst h <;> decide +revert

theorem wrd_ord {o : Ordering} {f : Pairs × Pairs} (h : storeFences o = some f) :
    WrOrd Pairs.none scMons o (rmwMon f) := by
  cases o <;> simp [storeFences] at h <;> subst h <;> decide +revert

theorem rmw_ord (o : Ordering) : RmwOrd Pairs.none scMons o (rmwMon (swapFences o)) := by
  cases o <;> decide

theorem cas_ord {s f : Ordering} {g : CasProg} (h : casTable s f = some g) (ok : Bool) :
    ∀ M ∈ if ok then (casMons g).ok else (casMons g).fail, CasOrd Pairs.none scMons s f ok M := by
  cases s <;> cases f <;> simp [casTable] at h <;> subst h <;> cases ok <;> decide

theorem weak_ord {s f : Ordering} {g : WeakProg} (h : weakTable s f = some g) (ok : Bool) :
    ∀ M ∈ if ok then (weakMons g).ok else (weakMons g).fail, CasOrd Pairs.none scMons s f ok M := by
  cases s <;> cases f <;> simp [weakTable] at h <;> subst h <;> cases ok <;> decide

theorem good (e : Endian) (c : Conf) : Good (backend e c) scMons where
  load := by
    rintro o w a B (⟨al, p, hw, hf⟩ | ⟨al, p, hf⟩)
    · exact (load_impl e c al (word_facts hw).1 _ p _ rfl).mono (fun _ h => h)
        (by rintro m m' rs M ⟨h, rfl⟩; exact ⟨h, rd_ord hf⟩)
    · exact (loadd_impl e c al _ p _ rfl).mono (fun _ h => h)
        (by rintro m m' rs M ⟨h, rfl⟩; exact ⟨h, rd_ord hf⟩)
  store := by
    rintro o w a v B (⟨al, p, val, hw, hf⟩ | ⟨al, p, val, hf⟩)
    · exact (store_impl e c al _ p v _ rfl).mono (fun _ h => h)
        (by rintro m m' rs M ⟨h, rfl⟩; exact ⟨h, wr_ord hf⟩)
    · exact (stored_impl e c al _ p _ _ rfl).mono (fun _ h => h)
        (by rintro m m' rs M ⟨h, rfl⟩; exact ⟨h, wrd_ord hf⟩)
  swap := by
    rintro o w a v B (⟨al, o, p, val, hw⟩ | ⟨al, o, p, val⟩)
    · exact (swap_impl e c al (word_facts hw).1 (word_facts hw).2 _ p v _ rfl).mono (fun _ h => h)
        (by rintro m m' rs M ⟨h, rfl⟩; exact ⟨h, rmw_ord _⟩)
    · exact (swapd_impl e c al _ p _ _ rfl).mono (fun _ h => h)
        (by rintro m m' rs M ⟨h, rfl⟩; exact ⟨h, rmw_ord _⟩)
  cas := by
    rintro s f w a old new B (⟨al, p, _, _, hw, hv, hg⟩ | ⟨al, p, _, _, hv, hg⟩)
    · exact (cas_impl e c al (word_facts hw).1 (word_facts hw).2 _ p _ _ _ rfl).mono (fun _ h => h)
        (by rintro m m' rs M ⟨⟨h, _⟩, hM⟩; exact ⟨h.weak, cas_ord hg _ M hM⟩)
    · exact (casd_impl e c al _ p _ _ _ rfl).mono (fun _ h => h)
        (by rintro m m' rs M ⟨⟨h, _⟩, hM⟩; exact ⟨h.weak, cas_ord hg _ M hM⟩)
  casWeak := by
    rintro s f w a old new B (⟨al, p, _, _, hw, hv, hg⟩ | ⟨al, p, _, _, hv, hg⟩)
    · exact (weak_impl e c al (word_facts hw).1 (word_facts hw).2 _ p _ _ _ rfl).mono (fun _ h => h)
        (by rintro m m' rs M ⟨⟨h, _⟩, hM⟩; exact ⟨h, weak_ord hg _ M hM⟩)
    · exact (weakd_impl e c al _ p _ _ _ rfl).mono (fun _ h => h)
        (by rintro m m' rs M ⟨⟨h, _⟩, hM⟩; exact ⟨h, weak_ord hg _ M hM⟩)
  ord := by show ∀ M ∈ scMons, ∀ M' ∈ scMons, Ordered Pairs.none M M' = true; decide

set_option maxHeartbeats 4000000 in
theorem contract (e : Endian) (c : Conf) : (backend e c).ContractOK := by
  intro w B hB
  obtain ⟨k, v⟩ := c
  cases hB with
  | load h => obtain ⟨al, p, hw, hf⟩ | ⟨al, p, hf⟩ := h <;> cases k <;> cases v <;> contract_tac
  | store h => obtain ⟨al, p, val, hw, hf⟩ | ⟨al, p, val, hf⟩ := h <;> cases k <;> cases v <;> contract_tac
  | swap h => obtain ⟨al, o, p, val, hw⟩ | ⟨al, o, p, val⟩ := h <;> cases k <;> cases v <;> contract_tac
  | cas h =>
    obtain @⟨al, s, f, w, g, p, _, _, hw, hv, hg⟩ | @⟨al, s, f, g, p, _, _, hv, hg⟩ := h <;> clear hg <;>
      cases g <;> cases k <;> cases v <;> contract_tac
  | casWeak h =>
    obtain @⟨al, s, f, w, g, p, _, _, hw, hv, hg⟩ | @⟨al, s, f, g, p, _, _, hv, hg⟩ := h <;> clear hg <;>
      cases g <;> cases k <;> cases v <;> contract_tac

theorem assumes (e : Endian) (c : Conf) : (backend e c).AssumesOK := by
  intro w B tr rs hB hr
  cases hB with
  | load h => obtain ⟨al, p, hw, hf⟩ | ⟨al, p, hf⟩ := h <;> exact trivial
  | store h => obtain ⟨al, p, val, hw, hf⟩ | ⟨al, p, val, hf⟩ := h <;> exact trivial
  | swap h => obtain ⟨al, o, p, val, hw⟩ | ⟨al, o, p, val⟩ := h <;> exact trivial
  | cas h =>
    obtain ⟨al, p, _, _, hw, hv, hg⟩ | ⟨al, p, _, _, hv, hg⟩ := h
    · obtain ⟨_, _, h⟩ := (cas_impl e c al (word_facts hw).1 (word_facts hw).2 _ p _ _ _ rfl).completed hr
      exact h.1.2
    · obtain ⟨_, _, h⟩ := (casd_impl e c al _ p _ _ _ rfl).completed hr
      exact h.1.2
  | casWeak h =>
    obtain ⟨al, p, _, _, hw, hv, hg⟩ | ⟨al, p, _, _, hv, hg⟩ := h
    · obtain ⟨_, _, h⟩ := (weak_impl e c al (word_facts hw).1 (word_facts hw).2 _ p _ _ _ rfl).completed hr
      exact h.1.2
    · obtain ⟨_, _, h⟩ := (weakd_impl e c al _ p _ _ _ rfl).completed hr
      exact h.1.2

set_option maxHeartbeats 4000000 in
theorem progress (e : Endian) (c : Conf) : (backend e c).ProgressOK := by
  intro w B hB
  obtain ⟨k, v⟩ := c
  cases hB with
  | load h => obtain ⟨al, p, hw, hf⟩ | ⟨al, p, hf⟩ := h <;> cases k <;> cases v <;> progress_straight
  | store h =>
    obtain ⟨al, p, val, hw, hf⟩ | ⟨al, p, val, hf⟩ := h
    · cases k <;> progress_straight
    · cases k <;> progress_loop 30 2
  | swap h =>
    obtain ⟨al, o, p, val, hw⟩ | ⟨al, o, p, val⟩ := h
    · cases k <;> progress_loop 30 2
    · cases k <;> progress_loop 30 2
  | cas h =>
    obtain @⟨al, s, f, w, g, p, _, _, hw, hv, hg⟩ | @⟨al, s, f, g, p, _, _, hv, hg⟩ := h <;> clear hg
    · cases g
      · cases k <;> cases v <;> progress_loop 40 0
      · cases k <;> cases v <;> progress_loop 40 5
      · cases k <;> cases v <;> progress_loop 40 5
    · cases g
      · cases k <;> cases v <;> progress_loop 40 0
      · cases k <;> cases v <;> progress_loop 40 7
      · cases k <;> cases v <;> progress_loop 40 7
  | casWeak h =>
    obtain @⟨al, s, f, w, g, p, _, _, hw, hv, hg⟩ | @⟨al, s, f, g, p, _, _, hv, hg⟩ := h <;> clear hg <;>
      cases g <;> cases k <;> cases v <;> progress_straight

theorem cas_total {s f : Ordering} (h : assertCompareExchangeOrdering s f = .ok ()) :
    (∃ g, casTable s f = some g) ∧ ∃ g, weakTable s f = some g := by
  cases s <;> cases f <;> simp [assertCompareExchangeOrdering] at h <;> exact ⟨⟨_, rfl⟩, ⟨_, rfl⟩⟩

/-- Object sizes of the back end. -/
def Size (w : Nat) : Prop := (SubSize w ∨ w = 32) ∨ w = 64

theorem total (e : Endian) (c : Conf) : (backend e c).Total 32 Size Size where
  load o w p hw _ ho := by
    rcases hw with hw | rfl
    · cases o <;> simp [assertLoadOrdering] at ho <;> exact ⟨_, .word (Alloc.std _) p hw rfl⟩
    · cases o <;> simp [assertLoadOrdering] at ho <;> exact ⟨_, .dword (Alloc.std _) p rfl⟩
  store o w p v hw _ ho := by
    rcases hw with hw | rfl
    · cases o <;> simp [assertStoreOrdering] at ho <;> exact ⟨_, .word (Alloc.std _) p v hw rfl⟩
    · cases o <;> simp [assertStoreOrdering] at ho <;> exact ⟨_, .dword (Alloc.std _) p v rfl⟩
  swap o w p v hw _ := by
    rcases hw with hw | rfl
    · exact ⟨_, .word (Alloc.std _) o p v hw⟩
    · exact ⟨_, .dword (Alloc.std _) o p v⟩
  cas s f w p old new hw _ hv := by
    obtain ⟨g, hg⟩ := (cas_total hv).1
    rcases hw with hw | rfl
    · exact ⟨_, .word (Alloc.std _) p old new hw hv hg⟩
    · exact ⟨_, .dword (Alloc.std _) p old new hv hg⟩
  casWeak s f w p old new hw _ hv := by
    obtain ⟨g, hg⟩ := (cas_total hv).2
    rcases hw with hw | rfl
    · exact ⟨_, .word (Alloc.std _) p old new hw hv hg⟩
    · exact ⟨_, .dword (Alloc.std _) p old new hv hg⟩

/-! ### The properties -/

section Properties
variable (e : Endian) (c : Conf)

theorem C01_arm : (backend e c).LoadsAtomic := (good e c).loadsAtomic
theorem C02_arm : (backend e c).StoresAtomic := (good e c).storesAtomic
theorem C03_arm : (backend e c).SwapsAtomic := (good e c).swapsAtomic
theorem C05_arm : (backend e c).WeakCasAtomic := (good e c).weakCasAtomic
theorem C06_arm : (backend e c).NeighboursOK := (good e c).neighbours
theorem C11_arm : (backend e c).Total 32 Size Size := total e c
theorem C13_arm : (backend e c).AcquireOK := (good e c).acquireOK
theorem C14_arm : (backend e c).ReleaseOK := (good e c).releaseOK
theorem C15_arm : (backend e c).SeqCstOK := (good e c).seqCstOK
theorem C16_arm : (backend e c).FailureOK := (good e c).failureOK
theorem C17_arm : (backend e c).ContractOK := contract e c
theorem C19_arm : (backend e c).AssumesOK := assumes e c
theorem C20_arm : (backend e c).ProgressOK := progress e c

/-- C04 on Armv6/v7: `compare_exchange` is a strong CAS. -/
theorem C04_arm : (backend e c).CasAtomic := by
  rintro s f w a old new B (⟨al, p, _, _, hw, hv, hg⟩ | ⟨al, p, _, _, hv, hg⟩)
  · exact (cas_impl e c al (word_facts hw).1 (word_facts hw).2 _ p _ _ _ rfl).atomic fun _ _ _ _ h => h.1.1
  · exact (casd_impl e c al _ p _ _ _ rfl).atomic fun _ _ _ _ h => h.1.1
end Properties

/-! ### The hypotheses are satisfiable: concrete blocks with completed runs -/

example : ∃ B tr rs, (backend .big ⟨true, false⟩).Cas .seqCst .acquire 64 0x1008 0x12#64 0x34#64 B ∧
    B.Completed .big tr rs := by
  have hB := Cas.dword (e := .big) (c := ⟨true, false⟩) (s := .seqCst) (f := .acquire) (Alloc.std _)
    (0x1008#32) 0x12#64 0x34#64 rfl rfl
  obtain ⟨tr, rs, h⟩ := (progress .big _ _ (Backend.IsBlock.cas hB)).completed'
    (by simp [casdFrame]) (by simp [casdFrame])
  exact ⟨_, tr, rs, hB, h⟩

end Verif.Arm
