/-
Properties of the AArch64 back end for old compilers (src/arch_legacy/aarch64.rs).
-/
import Verif.Proofs.LegacyAArch64
import Verif.Props.AArch64
set_option linter.unusedSimpArgs false
set_option maxRecDepth 4000
namespace Verif.LegacyAArch64
open AArch64 (Conf Acq RO LdProg StProg rd rdx wr wrp rmwAcc lo ow dmbIsh dmbIshld ldarPairs noFence rmwOrd loadOrd
  storeOrd WSize word_facts lo_zext rdMon xMon amoMon amoRd word_cmp scMons ldMons stMon rd_ord wr_ord rmw_ord amo_ord
  cas_ord weak_ord casLse_ord casx_ord Size)

theorem rd128_ord {c : Conf} {o : Ordering} {f : LdProg} (h : load128 c o = some f) :
    ∀ M ∈ ldMons f, RdOrd Pairs.none scMons o M := by
  obtain ⟨x0, x1, x2, x3, x4, x5⟩ := c
  cases o <;> simp [load128] at h <;> cases x0 <;> cases x1 <;> cases x4 <;> simp at h <;> subst h <;> decide +revert

theorem wr128_ord {c : Conf} {o : Ordering} {f : StProg} (hv : assertStoreOrdering o = .ok ())
    (h : store128 c o = some f) : WrOrd Pairs.none scMons o (stMon f) := by
  obtain ⟨x0, x1, x2, x3, x4, x5⟩ := c
  cases o <;> simp [assertStoreOrdering] at hv <;> simp [store128] at h <;>
    cases x1 <;> cases x2 <;> cases x4 <;> cases x5 <;> simp at h <;> subst h <;> decide +revert

/-- What every compare-exchange block establishes. -/
theorem cas_all (e : Endian) (c : Conf) {s f w a old new B} (h : Cas e c s f w a old new B) :
    Implements e B.code B.pre
      (fun m m' rs M => (CasSpec e a w old new m m' (B.out rs) (B.ok rs) ∧ B.assumes rs) ∧
        CasOrd Pairs.none scMons s f (B.ok rs) M) := by
  obtain ⟨al, hc, po, pold, pnew, p, _, _, hw, hd, hv⟩ | ⟨al, hc, po, pold, pnew, p, _, _, hw, hd, hv⟩ | ⟨al, hc, po, pold, pnew, p, _, _, hd, hv⟩ |
    ⟨al, hc, po, pold, pnew, p, _, _, hd, hv⟩ := h
  · exact (casLse_impl e al hw _ po pold pnew p hd _ _ _ rfl).mono (fun _ h => h)
      (by rintro m m' rs M ⟨h, rfl⟩; exact ⟨h, casLse_ord c hv _⟩)
  · exact (cas_impl e al hw _ po pold pnew p hd _ _ _ rfl).mono (fun _ h => h)
      (by rintro m m' rs M ⟨h, rfl⟩; exact ⟨h, cas_ord c hv _⟩)
  · exact (casp_impl e al _ po pold pnew p hd _ _ _ rfl).mono (fun _ h => h)
      (by rintro m m' rs M ⟨h, rfl⟩; exact ⟨h, casLse_ord c hv _⟩)
  · exact (casx_impl e al _ po pold pnew p hd _ _ _ rfl).mono (fun _ h => h)
      (by rintro m m' rs M ⟨h, rfl⟩; exact ⟨h, casx_ord c hv _⟩)

/-- What every weak compare-exchange block establishes. -/
theorem weak_all (e : Endian) (c : Conf) {s f w a old new B} (h : CasWeak e c s f w a old new B) :
    Implements e B.code B.pre
      (fun m m' rs M => (WeakCasSpec e a w old new m m' (B.out rs) (B.ok rs) ∧ B.assumes rs) ∧
        CasOrd Pairs.none scMons s f (B.ok rs) M) := by
  obtain ⟨al, hc, po, pold, pnew, p, _, _, hw, hd, hv⟩ | ⟨hc, h⟩ := h
  · refine (weak_impl e al hw _ po pold pnew p hd _ _ _ rfl).mono (fun _ h => h) ?_
    rintro m m' rs M ⟨h, hM⟩
    refine ⟨h, ?_⟩
    split at hM
    · next hok => subst hM; rw [hok]; exact cas_ord c hv true
    · next hok =>
      rw [Bool.not_eq_true] at hok
      rw [hok]
      rcases hM with rfl | rfl
      · exact cas_ord c hv false
      · exact weak_ord c hv
  · exact (cas_all e c h).mono (fun _ h => h) (by rintro m m' rs M ⟨⟨h, h1⟩, h2⟩; exact ⟨⟨h.weak, h1⟩, h2⟩)

theorem good (e : Endian) (c : Conf) : Good (backend e c) scMons where
  load := by
    rintro o w a B (⟨al, po, p, hw, hf⟩ | ⟨al, po, p, hf⟩ | ⟨al, po, p, hf⟩ | ⟨al, po, p, hf⟩ | ⟨al, po, p, hf⟩)
    · exact (load_impl e al (word_facts hw).1 _ po p _ rfl).mono (fun _ h => h)
        (by rintro m m' rs M ⟨h, rfl⟩; exact ⟨h, rd_ord hf⟩)
    · exact (ldp_impl e al _ _ po p _ rfl).mono (fun _ h => h)
        (by rintro m m' rs M ⟨h, rfl⟩; exact ⟨h, rd128_ord hf _ (by simp [ldMons])⟩)
    · exact (ldar_impl e al _ _ po p _ rfl).mono (fun _ h => h)
        (by rintro m m' rs M ⟨h, rfl⟩; exact ⟨h, rd128_ord hf _ (by simp [ldMons])⟩)
    · exact (ldcasp_impl e al _ _ po p _ rfl).mono (fun _ h => h)
        (by rintro m m' rs M ⟨h, rfl | rfl⟩ <;> exact ⟨h, rd128_ord hf _ (by simp [ldMons])⟩)
    · exact (ldxp_impl e al _ _ po p _ rfl).mono (fun _ h => h)
        (by rintro m m' rs M ⟨h, rfl⟩; exact ⟨h, rd128_ord hf _ (by simp [ldMons])⟩)
  store := by
    rintro o w a v B (⟨al, pv, p, val, hw, hf⟩ | ⟨al, pv, p, val, hv, hf⟩ | ⟨al, pv, p, val, hv, hf⟩ |
      ⟨al, pv, p, val, hv, hf⟩)
    · exact (store_impl e al (word_facts hw).1 _ pv p v _ rfl).mono (fun _ h => h)
        (by rintro m m' rs M ⟨h, rfl⟩; exact ⟨h, wr_ord hf⟩)
    · exact (stp_impl e al _ _ _ pv p _ _ rfl).mono (fun _ h => h)
        (by rintro m m' rs M ⟨h, rfl⟩; exact ⟨h, wr128_ord hv hf⟩)
    · exact (stswpp_impl e al _ pv p _ _ rfl).mono (fun _ h => h)
        (by rintro m m' rs M ⟨h, rfl⟩; exact ⟨h, wr128_ord hv hf⟩)
    · exact (stxp_impl e al _ pv p _ _ rfl).mono (fun _ h => h)
        (by rintro m m' rs M ⟨h, rfl⟩; exact ⟨h, wr128_ord hv hf⟩)
  swap := by
    rintro o w a v B (⟨al, o, hc, po, pv, p, val, hw, hd⟩ | ⟨al, o, hc, po, pv, p, val, hw, hd⟩ | ⟨al, o, hc, po, pv, p, val, hd⟩ |
      ⟨al, o, hc, po, pv, p, val, hd⟩)
    · exact (swp_impl e al (word_facts hw).1 _ po pv p hd v _ rfl).mono (fun _ h => h)
        (by rintro m m' rs M ⟨h, rfl⟩; exact ⟨h, amo_ord c _⟩)
    · exact (swap_impl e al (word_facts hw).1 (word_facts hw).2 _ po pv p hd v _ rfl).mono (fun _ h => h)
        (by rintro m m' rs M ⟨h, rfl⟩; exact ⟨h, rmw_ord c _⟩)
    · exact (swpp_impl e al _ po pv p hd _ _ rfl).mono (fun _ h => h)
        (by rintro m m' rs M ⟨h, rfl⟩; exact ⟨h, amo_ord c _⟩)
    · exact (swapx_impl e al _ po pv p hd _ _ rfl).mono (fun _ h => h)
        (by rintro m m' rs M ⟨h, rfl⟩; exact ⟨h, rmw_ord c _⟩)
  cas := by
    intro s f w a old new B h
    exact (cas_all e c h).mono (fun _ h => h) (by rintro m m' rs M ⟨⟨h, _⟩, h2⟩; exact ⟨h.weak, h2⟩)
  casWeak := by
    intro s f w a old new B h
    exact (weak_all e c h).mono (fun _ h => h) (by rintro m m' rs M ⟨⟨h, _⟩, h2⟩; exact ⟨h, h2⟩)
  ord := by show ∀ M ∈ scMons, ∀ M' ∈ scMons, Ordered Pairs.none M M' = true; decide

set_option maxHeartbeats 4000000 in
theorem contract (e : Endian) (c : Conf) : (backend e c).ContractOK := by
  intro w B hB
  have hcas : ∀ {s f w a old new} {B : Block 64 w}, Cas e c s f w a old new B →
      Frame e B.code B.outs ∧ (B.keepsFlags = true → KeepsFlags e B.code) := by
    intro s f w a old new B h
    obtain ⟨al, hc, po, pold, pnew, p, _, _, hw, hd, hv⟩ | ⟨al, hc, po, pold, pnew, p, _, _, hw, hd, hv⟩ | ⟨al, hc, po, pold, pnew, p, _, _, hd, hv⟩ |
      ⟨al, hc, po, pold, pnew, p, _, _, hd, hv⟩ := h <;> contract_tac
  cases hB with
  | load h =>
    obtain ⟨al, po, p, hw, hf⟩ | ⟨al, po, p, hf⟩ | ⟨al, po, p, hf⟩ | ⟨al, po, p, hf⟩ | ⟨al, po, p, hf⟩ := h <;> contract_tac
  | store h =>
    obtain ⟨al, pv, p, val, hw, hf⟩ | ⟨al, pv, p, val, hv, hf⟩ | ⟨al, pv, p, val, hv, hf⟩ |
      ⟨al, pv, p, val, hv, hf⟩ := h <;> contract_tac
  | swap h =>
    obtain ⟨al, o, hc, po, pv, p, val, hw, hd⟩ | ⟨al, o, hc, po, pv, p, val, hw, hd⟩ | ⟨al, o, hc, po, pv, p, val, hd⟩ |
      ⟨al, o, hc, po, pv, p, val, hd⟩ := h <;> contract_tac
  | cas h => exact hcas h
  | casWeak h =>
    obtain ⟨al, hc, po, pold, pnew, p, _, _, hw, hd, hv⟩ | ⟨hc, h⟩ := h
    · contract_tac
    · exact hcas h

theorem assumes (e : Endian) (c : Conf) : (backend e c).AssumesOK := by
  intro w B tr rs hB hr
  cases hB with
  | load h =>
    obtain ⟨al, po, p, hw, hf⟩ | ⟨al, po, p, hf⟩ | ⟨al, po, p, hf⟩ | ⟨al, po, p, hf⟩ | ⟨al, po, p, hf⟩ := h <;> exact trivial
  | store h =>
    obtain ⟨al, pv, p, val, hw, hf⟩ | ⟨al, pv, p, val, hv, hf⟩ | ⟨al, pv, p, val, hv, hf⟩ |
      ⟨al, pv, p, val, hv, hf⟩ := h <;> exact trivial
  | swap h =>
    obtain ⟨al, o, hc, po, pv, p, val, hw, hd⟩ | ⟨al, o, hc, po, pv, p, val, hw, hd⟩ | ⟨al, o, hc, po, pv, p, val, hd⟩ |
      ⟨al, o, hc, po, pv, p, val, hd⟩ := h <;> exact trivial
  | cas h =>
    obtain ⟨_, _, h⟩ := (cas_all e c h).completed hr
    exact h.1.2
  | casWeak h =>
    obtain ⟨_, _, h⟩ := (weak_all e c h).completed hr
    exact h.1.2

set_option maxHeartbeats 4000000 in
theorem cas_progress (e : Endian) (c : Conf) {s f w a old new B} (h : Cas e c s f w a old new B) :
    B.Progress e := by
  obtain ⟨al, hc, po, pold, pnew, p, _, _, hw, hd, hv⟩ | ⟨al, hc, po, pold, pnew, p, _, _, hw, hd, hv⟩ | ⟨al, hc, po, pold, pnew, p, _, _, hd, hv⟩ |
    ⟨al, hc, po, pold, pnew, p, _, _, hd, hv⟩ := h
  · progress_straight
  · progress_loop 40 2
  · progress_straight
  · progress_loop 40 2

set_option maxHeartbeats 4000000 in
theorem progress (e : Endian) (c : Conf) : (backend e c).ProgressOK := by
  intro w B hB
  cases hB with
  | load h =>
    obtain ⟨al, po, p, hw, hf⟩ | ⟨al, po, p, hf⟩ | ⟨al, po, p, hf⟩ | ⟨al, po, p, hf⟩ | ⟨al, po, p, hf⟩ := h
    · progress_straight
    · progress_straight
    · progress_straight
    · progress_straight
    · progress_loop 30 0
  | store h =>
    obtain ⟨al, pv, p, val, hw, hf⟩ | ⟨al, pv, p, val, hv, hf⟩ | ⟨al, pv, p, val, hv, hf⟩ |
      ⟨al, pv, p, val, hv, hf⟩ := h
    · progress_straight
    · progress_straight
    · progress_straight
    · progress_loop 30 1
  | swap h =>
    obtain ⟨al, o, hc, po, pv, p, val, hw, hd⟩ | ⟨al, o, hc, po, pv, p, val, hw, hd⟩ | ⟨al, o, hc, po, pv, p, val, hd⟩ |
      ⟨al, o, hc, po, pv, p, val, hd⟩ := h
    · progress_straight
    · progress_loop 30 1
    · progress_straight
    · progress_loop 30 1
  | cas h => exact cas_progress e c h
  | casWeak h =>
    obtain ⟨al, hc, po, pold, pnew, p, _, _, hw, hd, hv⟩ | ⟨hc, h⟩ := h
    · progress_straight
    · exact cas_progress e c h

theorem total (e : Endian) (c : Conf) : (backend e c).Total 64 Size Size where
  load o w p hw _ ho := by
    rcases hw with hw | rfl
    · cases o <;> simp [assertLoadOrdering] at ho <;> exact ⟨_, .word (Alloc.std _) 0#64 p hw rfl⟩
    · have h : ∃ q, load128 c o = some q := by
        cases o <;> simp [assertLoadOrdering] at ho <;> simp only [load128] <;> split <;> exact ⟨_, rfl⟩
      obtain ⟨q, h⟩ := h
      cases q with
      | ldp a f => exact ⟨_, .ldp (Alloc.std _) 0#64 p h⟩
      | ldar a f => exact ⟨_, .ldar (Alloc.std _) 0#64 p h⟩
      | casp a f => exact ⟨_, .casp (Alloc.std _) 0#64 p h⟩
      | ldxp a f => exact ⟨_, .ldxp (Alloc.std _) 0#64 p h⟩
  store o w p v hw _ ho := by
    rcases hw with hw | rfl
    · cases o <;> simp [assertStoreOrdering] at ho <;> exact ⟨_, .word (Alloc.std _) 0#64 p v hw rfl⟩
    · have h : ∃ q, store128 c o = some q := by
        cases o <;> simp [assertStoreOrdering] at ho <;> simp only [store128] <;> split <;> exact ⟨_, rfl⟩
      obtain ⟨q, h⟩ := h
      cases q with
      | stp a f => exact ⟨_, .stp (Alloc.std _) 0#64 p v ho h⟩
      | swpp r => exact ⟨_, .swpp (Alloc.std _) 0#64 p v ho h⟩
      | stxp r => exact ⟨_, .stxp (Alloc.std _) 0#64 p v ho h⟩
  swap o w p v hw _ := by
    rcases hw with hw | rfl
    · cases hc : c.lse
      · exact ⟨_, .word (Alloc.std _) o hc 0#64 16#64 p v hw (by decide)⟩
      · exact ⟨_, .swp (Alloc.std _) o hc 0#64 16#64 p v hw (by decide)⟩
    · cases hc : c.lse128
      · exact ⟨_, .ldxp (Alloc.std _) o hc 0#64 16#64 p v (by decide)⟩
      · exact ⟨_, .swpp (Alloc.std _) o hc 0#64 16#64 p v (by decide)⟩
  cas s f w p old new hw _ hv := by
    rcases hw with hw | rfl
    · cases hc : c.lse
      · exact ⟨_, .word (Alloc.std _) hc 0#64 16#64 32#64 p old new hw (by decide) hv⟩
      · exact ⟨_, .lse (Alloc.std _) hc 0#64 16#64 32#64 p old new hw (by decide) hv⟩
    · cases hc : c.lse
      · exact ⟨_, .ldxp (Alloc.std _) hc 0#64 16#64 32#64 p old new (by decide) hv⟩
      · exact ⟨_, .casp (Alloc.std _) hc 0#64 16#64 32#64 p old new (by decide) hv⟩
  casWeak s f w p old new hw _ hv := by
    rcases hw with hw | rfl
    · cases hc : c.lse
      · exact ⟨_, .word (Alloc.std _) hc 0#64 16#64 32#64 p old new hw (by decide) hv⟩
      · exact ⟨_, .strong (.inl hc) (.lse (Alloc.std _) hc 0#64 16#64 32#64 p old new hw (by decide) hv)⟩
    · cases hc : c.lse
      · exact ⟨_, .strong (.inr rfl) (.ldxp (Alloc.std _) hc 0#64 16#64 32#64 p old new (by decide) hv)⟩
      · exact ⟨_, .strong (.inr rfl) (.casp (Alloc.std _) hc 0#64 16#64 32#64 p old new (by decide) hv)⟩

/-! ### The properties -/

section Properties
variable (e : Endian) (c : Conf)

theorem C01_legacy_aarch64 : (backend e c).LoadsAtomic := (good e c).loadsAtomic
theorem C02_legacy_aarch64 : (backend e c).StoresAtomic := (good e c).storesAtomic
theorem C03_legacy_aarch64 : (backend e c).SwapsAtomic := (good e c).swapsAtomic
theorem C05_legacy_aarch64 : (backend e c).WeakCasAtomic := (good e c).weakCasAtomic
theorem C06_legacy_aarch64 : (backend e c).NeighboursOK := (good e c).neighbours
theorem C11_legacy_aarch64 : (backend e c).Total 64 Size Size := total e c
theorem C13_legacy_aarch64 : (backend e c).AcquireOK := (good e c).acquireOK
theorem C14_legacy_aarch64 : (backend e c).ReleaseOK := (good e c).releaseOK
theorem C15_legacy_aarch64 : (backend e c).SeqCstOK := (good e c).seqCstOK
theorem C16_legacy_aarch64 : (backend e c).FailureOK := (good e c).failureOK
theorem C17_legacy_aarch64 : (backend e c).ContractOK := contract e c
theorem C19_legacy_aarch64 : (backend e c).AssumesOK := assumes e c
theorem C20_legacy_aarch64 : (backend e c).ProgressOK := progress e c

/-- C04 on AArch64: `compare_exchange` is a strong CAS. -/
theorem C04_legacy_aarch64 : (backend e c).CasAtomic := fun _ _ _ _ _ _ _ h =>
  (cas_all e c h).atomic fun _ _ _ _ h => h.1.1
end Properties

/-! ### The hypotheses are satisfiable: concrete blocks with completed runs -/

example : ∃ B tr rs, (backend .big ⟨false, false, false, false, false, false⟩).Cas .seqCst .acquire 128 0x1010
    0x12#128 0x34#128 B ∧ B.Completed .big tr rs := by
  have hB := Cas.ldxp (e := .big) (c := ⟨false, false, false, false, false, false⟩) (s := .seqCst)
    (f := .acquire) (Alloc.std _) rfl 0x7000#64 0x7010#64 0x7020#64 (0x1010#64) 0x12#128 0x34#128
    (by decide) rfl
  obtain ⟨tr, rs, h⟩ := (progress .big _ _ (Backend.IsBlock.cas hB)).completed'
    (by simp [casxBlock]) (by simp [casxBlock])
  exact ⟨_, tr, rs, hB, h⟩

end Verif.LegacyAArch64
