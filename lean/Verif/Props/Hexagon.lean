/-
Properties of the Hexagon back end (src/arch/hexagon.rs).
-/
import Verif.Proofs.Hexagon
import Verif.Core.Progress
set_option linter.unusedSimpArgs false
set_option maxRecDepth 4000
namespace Verif.Hexagon

/-- Monitors of SeqCst operations. -/
def scMons : List Mon := [ rdMon, wrMon, rmwMon ]

theorem rd_ord (o : Ordering) : RdOrd Pairs.full scMons o rdMon := by cases o <;> decide
theorem wr_ord (o : Ordering) : WrOrd Pairs.full scMons o wrMon := by cases o <;> decide
theorem rmw_ord (o : Ordering) : RmwOrd Pairs.full scMons o rmwMon := by cases o <;> decide
theorem cas_ord (s f : Ordering) (ok : Bool) :
    CasOrd Pairs.full scMons s f ok (if ok then rmwMon else rdMon) := by
  cases s <;> cases f <;> cases ok <;> decide

theorem cas_all {s f w a old new} {B : Block 32 w} (h : Cas s f w a old new B) :
    Implements .little B.code B.pre
      (fun m m' rs M => (CasSpec .little a w old new m m' (B.out rs) (B.ok rs) ∧ B.assumes rs) ∧
        M = if B.ok rs then rmwMon else rdMon) := by
  obtain ⟨al, _, _, p, _, _, hv⟩ | ⟨al, _, _, p, _, _, hw, hv, hal⟩ | ⟨al, _, _, p, _, _, hv⟩ := h
  · exact cas_impl al p _ _ _ rfl
  · exact sub_cas_impl al hw p hal _ _ _ rfl
  · exact casd_impl al p _ _ _ rfl

theorem good : Good backend scMons where
  load := by
    rintro o w a B (⟨al, p, hw, hv⟩ | ⟨al, p, hv⟩)
    · exact (load_impl al (word_facts hw).1 p _ rfl).mono (fun _ h => h)
        (by rintro m m' rs M ⟨h, rfl⟩; exact ⟨h, rd_ord _⟩)
    · exact (loadd_impl al p _ rfl).mono (fun _ h => h)
        (by rintro m m' rs M ⟨h, rfl⟩; exact ⟨h, rd_ord _⟩)
  store := by
    rintro o w a v B (⟨al, p, _, hw, hv⟩ | ⟨al, p, _, hv⟩)
    · exact (store_impl al p _ _ rfl).mono (fun _ h => h)
        (by rintro m m' rs M ⟨h, rfl⟩; exact ⟨h, wr_ord _⟩)
    · exact (stored_impl al p _ _ rfl).mono (fun _ h => h)
        (by rintro m m' rs M ⟨h, rfl⟩; exact ⟨h, wr_ord _⟩)
  swap := by
    rintro o w a v B (⟨al, _, p, _⟩ | ⟨al, _, p, _, hw, hal⟩ | ⟨al, _, p, _⟩)
    · exact (swap_impl al p _ _ rfl).mono (fun _ h => h)
        (by rintro m m' rs M ⟨h, rfl⟩; exact ⟨h, rmw_ord _⟩)
    · exact (sub_swap_impl al hw p hal _ _ rfl).mono (fun _ h => h)
        (by rintro m m' rs M ⟨h, rfl⟩; exact ⟨h, rmw_ord _⟩)
    · exact (swapd_impl al p _ _ rfl).mono (fun _ h => h)
        (by rintro m m' rs M ⟨h, rfl⟩; exact ⟨h, rmw_ord _⟩)
  cas := by
    intro s f w a old new B h
    exact (cas_all h).mono (fun _ h => h) (by rintro m m' rs M ⟨⟨h, _⟩, rfl⟩; exact ⟨h.weak, cas_ord _ _ _⟩)
  casWeak := by
    intro s f w a old new B h
    exact (cas_all h).mono (fun _ h => h) (by rintro m m' rs M ⟨⟨h, _⟩, rfl⟩; exact ⟨h.weak, cas_ord _ _ _⟩)
  ord := by show ∀ M ∈ scMons, ∀ M' ∈ scMons, Ordered Pairs.full M M' = true; decide

set_option maxHeartbeats 4000000 in
theorem contract : backend.ContractOK := by
  have hcas : ∀ {s f w a old new} {B : Block 32 w}, Cas s f w a old new B →
      Frame .little B.code B.outs ∧ (B.keepsFlags = true → KeepsFlags .little B.code) := by
    rintro s f w a old new B (⟨al, _, _, p, _, _, hv⟩ | ⟨al, _, _, p, _, _, hw, hv, hal⟩ | ⟨al, _, _, p, _, _, hv⟩) <;>
      contract_tac
  intro w B hB
  cases hB with
  | load h => obtain ⟨al, p, hw, hv⟩ | ⟨al, p, hv⟩ := h <;> contract_tac
  | store h => obtain ⟨al, p, _, hw, hv⟩ | ⟨al, p, _, hv⟩ := h <;> contract_tac
  | swap h => obtain ⟨al, _, p, _⟩ | ⟨al, _, p, _, hw, hal⟩ | ⟨al, _, p, _⟩ := h <;> contract_tac
  | cas h => exact hcas h
  | casWeak h => exact hcas h

theorem assumes : backend.AssumesOK := by
  have hcas : ∀ {s f w a old new} {B : Block 32 w}, Cas s f w a old new B → ∀ tr rs,
      B.Completed .little tr rs → B.assumes rs := by
    intro s f w a old new B h tr rs hr
    obtain ⟨_, _, h⟩ := (cas_all h).completed hr
    exact h.1.2
  intro w B tr rs hB hr
  cases hB with
  | load h => obtain ⟨al, p, hw, hv⟩ | ⟨al, p, hv⟩ := h <;> exact trivial
  | store h => obtain ⟨al, p, _, hw, hv⟩ | ⟨al, p, _, hv⟩ := h <;> exact trivial
  | swap h => obtain ⟨al, _, p, _⟩ | ⟨al, _, p, _, hw, hal⟩ | ⟨al, _, p, _⟩ := h <;> exact trivial
  | cas h => exact hcas h tr rs hr
  | casWeak h => exact hcas h tr rs hr

set_option maxHeartbeats 4000000 in
theorem progress : backend.ProgressOK := by
  have hcas : ∀ {s f w a old new} {B : Block 32 w}, Cas s f w a old new B → B.Progress .little := by
    rintro s f w a old new B (⟨al, _, _, p, _, _, hv⟩ | ⟨al, _, _, p, _, _, hw, hv, hal⟩ | ⟨al, _, _, p, _, _, hv⟩)
    · progress_loop 30 0
    · progress_loop 40 2
    · progress_loop 40 0
  intro w B hB
  cases hB with
  | load h => obtain ⟨al, p, hw, hv⟩ | ⟨al, p, hv⟩ := h <;> progress_straight
  | store h => obtain ⟨al, p, _, hw, hv⟩ | ⟨al, p, _, hv⟩ := h <;> progress_straight
  | swap h =>
    obtain ⟨al, _, p, _⟩ | ⟨al, _, p, _, hw, hal⟩ | ⟨al, _, p, _⟩ := h
    · progress_loop 30 0
    · progress_loop 30 1
    · progress_loop 30 0
  | cas h => exact hcas h
  | casWeak h => exact hcas h

/-- Object sizes of the back end. -/
def Size (w : Nat) : Prop := SubSize w ∨ w = 32 ∨ w = 64

theorem cas_total (s f w) (p : BitVec 32) (old new : BitVec w) (hw : Size w)
    (hal : p.toNat % (w / 8) = 0) (hv : assertCompareExchangeOrdering s f = .ok ()) :
    ∃ B : Block 32 w, Cas s f w p.toNat old new B := by
  rcases hw with hw | rfl | rfl
  · exact ⟨_, .sub (Alloc.std _) s f p old new hw hv hal⟩
  · exact ⟨_, .word (Alloc.std _) s f p old new hv⟩
  · exact ⟨_, .dword (Alloc.std _) s f p old new hv⟩

theorem total : backend.Total 32 Size Size where
  load o w p hw _ ho := by
    rcases hw with hw | rfl | rfl
    · exact ⟨_, .word (Alloc.std _) p (.inl hw) ho⟩
    · exact ⟨_, .word (Alloc.std _) p (.inr rfl) ho⟩
    · exact ⟨_, .dword (Alloc.std _) p ho⟩
  store o w p v hw _ ho := by
    rcases hw with hw | rfl | rfl
    · exact ⟨_, .word (Alloc.std _) p v (.inl hw) ho⟩
    · exact ⟨_, .word (Alloc.std _) p v (.inr rfl) ho⟩
    · exact ⟨_, .dword (Alloc.std _) p v ho⟩
  swap o w p v hw hal := by
    rcases hw with hw | rfl | rfl
    · exact ⟨_, .sub (Alloc.std _) o p v hw hal⟩
    · exact ⟨_, .word (Alloc.std _) o p v⟩
    · exact ⟨_, .dword (Alloc.std _) o p v⟩
  cas s f w p old new hw hal hv := cas_total s f w p old new hw hal hv
  casWeak s f w p old new hw hal hv := cas_total s f w p old new hw hal hv

/-! ### The properties -/

theorem C01_hexagon : backend.LoadsAtomic := good.loadsAtomic
theorem C02_hexagon : backend.StoresAtomic := good.storesAtomic
theorem C03_hexagon : backend.SwapsAtomic := good.swapsAtomic
theorem C04_hexagon : backend.CasAtomic := fun _ _ _ _ _ _ _ h => (cas_all h).atomic fun _ _ _ _ h => h.1.1
theorem C05_hexagon : backend.WeakCasAtomic := good.weakCasAtomic
theorem C06_hexagon : backend.NeighboursOK := good.neighbours
theorem C11_hexagon : backend.Total 32 Size Size := total
theorem C13_hexagon : backend.AcquireOK := good.acquireOK
theorem C14_hexagon : backend.ReleaseOK := good.releaseOK
theorem C15_hexagon : backend.SeqCstOK := good.seqCstOK
theorem C16_hexagon : backend.FailureOK := good.failureOK
theorem C17_hexagon : backend.ContractOK := contract
theorem C19_hexagon : backend.AssumesOK := assumes
theorem C20_hexagon : backend.ProgressOK := progress

/-! ### The hypotheses are satisfiable: concrete blocks with completed runs -/

example : ∃ B tr rs, backend.Cas .seqCst .acquire 16 0x1002 0x12#16 0x34#16 B ∧
    B.Completed .little tr rs := by
  have hB := Cas.sub (Alloc.std _) .seqCst .acquire (0x1002#32) 0x12#16 0x34#16 (.inr rfl) rfl rfl
  obtain ⟨tr, rs, h⟩ := (progress _ (Backend.IsBlock.cas hB)).completed'
    (by simp [subCasBlock]) (by simp [subCasBlock])
  exact ⟨_, tr, rs, hB, h⟩

example : ∃ B tr rs, backend.Swap .acqRel 64 0x1008 0x12#64 B ∧ B.Completed .little tr rs := by
  have hB := Swap.dword (Alloc.std _) .acqRel (0x1008#32) 0x12#64
  obtain ⟨tr, rs, h⟩ := (progress _ (Backend.IsBlock.swap hB)).completed'
    (by simp [swapdBlock]) (by simp [swapdBlock])
  exact ⟨_, tr, rs, hB, h⟩

end Verif.Hexagon
