/-
Properties of the LoongArch back end for old compilers (src/arch_legacy/loongarch.rs).
-/
import Verif.Proofs.LegacyLoongArch
import Verif.Core.Progress
set_option linter.unusedSimpArgs false
namespace Verif.LegacyLoongArch
open LoongArch (rmwMon failMon noFence dbar16 dbar18 dbar20 dbar1792)
variable {W : Nat}

/-- monitor of `amswap_db` -/
abbrev amoMon : Mon := (({} : Mon).onRd { full := true }).onWr { full := true }

/-- Monitors of SeqCst operations. -/
def scMons : List Mon :=
  [ (({} : Mon).onRd .plain).onFence dbar16,
    amoMon,
    ((({} : Mon).onFence dbar16).onWr .plain).onFence dbar16,
    rmwMon ]

theorem rd_ord {o : Ordering} {f : Pairs} (h : loadFence o = some f) :
    RdOrd Pairs.none scMons o ((({} : Mon).onRd .plain).onFence f) := by
  cases o <;> simp [loadFence] at h <;> subst h <;> decide +revert

theorem wr_ord {o : Ordering} {b : Bool} (h : storeAmo o = some b) :
    WrOrd Pairs.none scMons o (if b then amoMon else ({} : Mon).onWr .plain) := by
  cases o <;> simp [storeAmo] at h <;> subst h <;> decide +revert

theorem sub_wr_ord {o : Ordering} {f : Pairs × Pairs} (h : subStoreFences o = some f) :
    WrOrd Pairs.none scMons o (((({} : Mon).onFence f.2).onWr .plain).onFence f.1) := by
  cases o <;> simp [subStoreFences] at h <;> subst h <;> decide +revert

theorem amo_ord (o : Ordering) : RmwOrd Pairs.none scMons o amoMon := by cases o <;> decide
theorem rmw_ord (o : Ordering) : RmwOrd Pairs.none scMons o rmwMon := by cases o <;> decide

theorem cas_ord {s f : Ordering} {ff : Pairs} (hv : failFence f = some ff) (ok : Bool) :
    CasOrd Pairs.none scMons s f ok (if ok then rmwMon else failMon ff) := by
  cases s <;> cases f <;> simp [failFence] at hv <;> subst hv <;> cases ok <;> decide

theorem cas_exact (e : Endian) (hW : 32 ≤ W) {s f w a old new} {B : Block W w}
    (h : Cas e s f w a old new B) : Implements e B.code B.pre fun m m' rs M =>
      (CasSpec e a w old new m m' (B.out rs) (B.ok rs) ∧ B.assumes rs) ∧ CasOrd Pairs.none scMons s f (B.ok rs) M := by
  obtain ⟨al, _, po, pold, pnew, p, _, _, hw, hv, hb⟩ | ⟨al, _, po, pold, pnew, p, _, _, hw, hv, hal, hb⟩ := h
  · exact (cas_impl e al hw.mod8 (hw.le hW) hw.pos _ po pold pnew p old new hb _ rfl).mono (fun _ h => h)
      (by rintro m m' rs M ⟨h, rfl⟩; exact ⟨h, cas_ord hv _⟩)
  · exact (sub_cas_impl e al hW hw _ po pold pnew p hal old new hb _ rfl).mono (fun _ h => h)
      (by rintro m m' rs M ⟨h, rfl⟩; exact ⟨h, cas_ord hv _⟩)

theorem good (e : Endian) (hW : 32 ≤ W) : Good (backend e W) scMons where
  load := by
    rintro o w a B ⟨al, po, p, hw, hf⟩
    exact (load_impl e al (size_le hW hw) _ po p _ rfl).mono (fun _ h => h)
      (by rintro m m' rs M ⟨h, rfl⟩; exact ⟨h, rd_ord hf⟩)
  store := by
    rintro o w a v B (⟨al, pv, p, val, hw, hf⟩ | ⟨al, pv, p, val, hw, hf⟩)
    · exact (store_impl e al (hw.le hW) _ pv p v _ rfl).mono (fun _ h => h)
        (by rintro m m' rs M ⟨h, rfl⟩; exact ⟨h, wr_ord hf⟩)
    · exact (sub_store_impl e al (size_le hW (.inl hw)) _ pv p v _ rfl).mono (fun _ h => h)
        (by rintro m m' rs M ⟨h, rfl⟩; exact ⟨h, sub_wr_ord hf⟩)
  swap := by
    rintro o w a v B (⟨al, o, po, pv, p, val, hw, hb⟩ | ⟨al, o, po, pv, p, val, hw, hal, hb⟩)
    · exact (swap_impl e al (hw.le hW) po pv p v hb _ rfl).mono (fun _ h => h)
        (by rintro m m' rs M ⟨h, rfl⟩; exact ⟨h, amo_ord _⟩)
    · exact (sub_swap_impl e al hW hw po pv p hal v hb _ rfl).mono (fun _ h => h)
        (by rintro m m' rs M ⟨h, rfl⟩; exact ⟨h, rmw_ord _⟩)
  cas := fun _ _ _ _ _ _ _ h => (cas_exact e hW h).mono (fun _ h => h) fun _ _ _ _ h => ⟨h.1.1.weak, h.2⟩
  casWeak := fun _ _ _ _ _ _ _ h => (cas_exact e hW h).mono (fun _ h => h) fun _ _ _ _ h => ⟨h.1.1.weak, h.2⟩
  ord := by show ∀ M ∈ scMons, ∀ M' ∈ scMons, Ordered Pairs.none M M' = true; decide

theorem contract (e : Endian) : (backend e W).ContractOK := by
  have hcas : ∀ {s f w a old new B}, Cas (W := W) e s f w a old new B →
      Frame e B.code B.outs ∧ (B.keepsFlags = true → KeepsFlags e B.code) := by
    rintro s f w a old new B (⟨al, _, po, pold, pnew, p, _, _, hw, hv, hb⟩ |
      ⟨al, _, po, pold, pnew, p, _, _, hw, hv, hal, hb⟩) <;> contract_tac
  intro w B hB
  cases hB with
  | load h => obtain ⟨al, po, p, hw, hf⟩ := h; contract_tac
  | store h =>
    obtain @⟨al, o, b, w, pv, p, val, hw, hf⟩ | ⟨al, pv, p, val, hw, hf⟩ := h
    · cases b <;> contract_tac
    · contract_tac
  | swap h => obtain ⟨al, o, po, pv, p, val, hw, hb⟩ | ⟨al, o, po, pv, p, val, hw, hal, hb⟩ := h <;> contract_tac
  | cas h => exact hcas h
  | casWeak h => exact hcas h

theorem assumes (e : Endian) (hW : 32 ≤ W) : (backend e W).AssumesOK := by
  have hcas : ∀ {s f w a old new B}, Cas (W := W) e s f w a old new B → ∀ tr rs,
      B.Completed e tr rs → B.assumes rs := by
    intro s f w a old new B h tr rs hr
    obtain ⟨_, _, h⟩ := (cas_exact e hW h).completed hr
    exact h.1.2
  intro w B tr rs hB hr
  cases hB with
  | load h => obtain ⟨al, po, p, hw, hf⟩ := h; exact trivial
  | store h => obtain ⟨al, pv, p, val, hw, hf⟩ | ⟨al, pv, p, val, hw, hf⟩ := h <;> exact trivial
  | swap h => obtain ⟨al, o, po, pv, p, val, hw, hb⟩ | ⟨al, o, po, pv, p, val, hw, hal, hb⟩ := h <;> exact trivial
  | cas h => exact hcas h tr rs hr
  | casWeak h => exact hcas h tr rs hr

theorem progress (e : Endian) (hW : 32 ≤ W) : (backend e W).ProgressOK := by
  have hW' : W ≠ 0 := by omega
  have hcas : ∀ {s f w a old new B}, Cas (W := W) e s f w a old new B → B.Progress e := by
    rintro s f w a old new B (⟨al, _, po, pold, pnew, p, _, _, hw, hv, hb⟩ |
      ⟨al, _, po, pold, pnew, p, _, _, hw, hv, hal, hb⟩)
    · progress_loop 20 2 with hW'
    · progress_loop 30 8 with hW'
  intro w B hB
  cases hB with
  | load h => obtain ⟨al, po, p, hw, hf⟩ := h; progress_straight
  | store h =>
    obtain @⟨al, o, b, w, pv, p, val, hw, hf⟩ | ⟨al, pv, p, val, hw, hf⟩ := h
    · cases b <;> progress_straight
    · progress_straight
  | swap h =>
    obtain ⟨al, o, po, pv, p, val, hw, hb⟩ | ⟨al, o, po, pv, p, val, hw, hal, hb⟩ := h
    · progress_straight
    · progress_loop 20 5 with hW'
  | cas h => exact hcas h
  | casWeak h => exact hcas h

theorem cas_total (e : Endian) (hW : 32 ≤ W) (s f w) (p : BitVec W) (old new : BitVec w)
    (hw : SubSize w ∨ WordSize W w)
    (hal : p.toNat % (w / 8) = 0) (hv : assertCompareExchangeOrdering s f = .ok ()) :
    ∃ B, Cas (W := W) e s f w p.toNat old new B := by
  obtain ⟨ff, hf⟩ : ∃ ff, failFence f = some ff := by
    cases f <;> simp [assertCompareExchangeOrdering] at hv <;> exact ⟨_, rfl⟩
  rcases hw with hw | hw
  · exact ⟨_, .sub (Alloc.std _) s 0#W 1#W 2#W p old new hw hf (.native hal) (buffers hW).2⟩
  · exact ⟨_, .word (Alloc.std _) s 0#W 1#W 2#W p old new hw hf (buffers hW).2⟩

theorem total (e : Endian) (hW : 32 ≤ W) :
    (backend e W).Total W (fun w => SubSize w ∨ WordSize W w) (fun w => SubSize w ∨ WordSize W w) where
  load o w p hw _ ho := by
    cases o <;> simp [assertLoadOrdering] at ho <;> exact ⟨_, .mk (Alloc.std _) 0#W p hw rfl⟩
  store o w p v hw _ ho := by
    rcases hw with hw | hw <;> cases o <;> simp [assertStoreOrdering] at ho
    all_goals first | exact ⟨_, .sub (Alloc.std _) 0#W p v hw rfl⟩ | exact ⟨_, .word (Alloc.std _) 0#W p v hw rfl⟩
  swap o w p v hw hal := by
    rcases hw with hw | hw
    · exact ⟨_, .sub (Alloc.std _) o 0#W 1#W p v hw (.native hal) (buffers hW).1⟩
    · exact ⟨_, .word (Alloc.std _) o 0#W 1#W p v hw (buffers hW).1⟩
  cas s f w p old new hw hal hv := cas_total e hW s f w p old new hw hal hv
  casWeak s f w p old new hw hal hv := cas_total e hW s f w p old new hw hal hv

/-! ### The properties -/

section Properties
variable (e : Endian)

theorem good' : Good (backend e 64) scMons := good e (by decide)
theorem C01_legacy_loongarch : (backend e 64).LoadsAtomic := (good' e).loadsAtomic
theorem C02_legacy_loongarch : (backend e 64).StoresAtomic := (good' e).storesAtomic
theorem C03_legacy_loongarch : (backend e 64).SwapsAtomic := (good' e).swapsAtomic
/-- The old back end loads `old` with the sign-extending `ld.w`, so even the 32-bit strong `compare_exchange` is exact
(unlike src/arch/loongarch.rs). -/
theorem C04_legacy_loongarch : (backend e 64).CasAtomic :=
  fun _ _ _ _ _ _ _ h => (cas_exact e (by decide) h).atomic fun _ _ _ _ h => h.1.1
theorem C05_legacy_loongarch : (backend e 64).WeakCasAtomic := (good' e).weakCasAtomic
theorem C06_legacy_loongarch : (backend e 64).NeighboursOK := (good' e).neighbours
theorem C13_legacy_loongarch : (backend e 64).AcquireOK := (good' e).acquireOK
theorem C14_legacy_loongarch : (backend e 64).ReleaseOK := (good' e).releaseOK
theorem C15_legacy_loongarch : (backend e 64).SeqCstOK := (good' e).seqCstOK
theorem C16_legacy_loongarch : (backend e 64).FailureOK := (good' e).failureOK
theorem C17_legacy_loongarch : (backend e 64).ContractOK := contract e
theorem C19_legacy_loongarch : (backend e 64).AssumesOK := assumes e (by decide)
theorem C20_legacy_loongarch : (backend e 64).ProgressOK := progress e (by decide)
theorem C11_legacy_loongarch : (backend e 64).Total 64 (fun w => SubSize w ∨ WordSize 64 w)
    (fun w => SubSize w ∨ WordSize 64 w) := total e (by decide)
end Properties

example : ∃ B tr rs, (backend .little 64).Cas .seqCst .acquire 16 0x1002 0x12#16 0x34#16 B ∧
    B.Completed .little tr rs := by
  have hB := Cas.sub (W := 64) (e := .little) (f := .acquire) (Alloc.std _) .seqCst (0x7fff0000#64) (0x7fff0010#64)
    (0x7fff0020#64) (0x1002#64) 0x12#16 0x34#16 (.inr rfl) rfl (.native rfl) (by decide)
  obtain ⟨tr, rs, h⟩ := (progress .little (by decide) _ (Backend.IsBlock.cas hB)).completed'
    (by simp [subCasBlock]) (by simp [subCasBlock])
  exact ⟨_, tr, rs, hB, h⟩

end Verif.LegacyLoongArch
