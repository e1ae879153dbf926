/-
Properties of the s390x back end (src/arch/s390x.rs).
-/
import Verif.Proofs.S390x
import Verif.Core.Progress
set_option linter.unusedSimpArgs false
set_option maxRecDepth 4000
namespace Verif.S390x

/-- Monitors of SeqCst operations. -/
def scMons : List Mon := [ ldMon, stMon Pairs.full, rmwMon, failMon ]

theorem rd_ord (o : Ordering) : RdOrd imp scMons o ldMon := by cases o <;> decide
theorem wr_ord {o : Ordering} {f : Pairs} (h : storeOrd o = some f) : WrOrd imp scMons o (stMon f) := by
  cases o <;> simp [storeOrd] at h <;> subst h <;> decide
theorem rmw_ord (o : Ordering) : RmwOrd imp scMons o rmwMon := by cases o <;> decide
theorem cas_ord (s f : Ordering) (ok : Bool) : CasOrd imp scMons s f ok (if ok then rmwMon else failMon) := by
  cases s <;> cases f <;> cases ok <;> decide
theorem cas_ord' (s f : Ordering) {ok : Bool} {M : Mon} (h : if ok = true then M = rmwMon else M = ldMon ∨ M = failMon) :
    CasOrd imp scMons s f ok M := by
  cases ok
  · rcases h with rfl | rfl <;> cases s <;> cases f <;> decide
  · have h : M = rmwMon := h
    subst h; exact cas_ord s f true

/-- What every compare-exchange block establishes. -/
theorem cas_all {s f w a old new} {B : Block 64 w} (h : Cas s f w a old new B) :
    Implements .big B.code B.pre
      (fun m m' rs M => CasSpec .big a w old new m m' (B.out rs) (B.ok rs) ∧ CasOrd imp scMons s f (B.ok rs) M) := by
  obtain ⟨al, _, _, p, _, _, hw⟩ | ⟨al, _, _, p, _, _, hw, hal⟩ | ⟨al, _, _, p, _, _⟩ := h
  · exact (cas_impl al hw p _ _ _ rfl).mono (fun _ h => h)
      (by rintro m m' rs M ⟨h, rfl⟩; exact ⟨h, cas_ord _ _ _⟩)
  · exact (sub_cas_impl al hw p hal _ _ _ rfl).mono (fun _ h => h)
      (by rintro m m' rs M ⟨h, hM⟩; exact ⟨h, cas_ord' _ _ hM⟩)
  · exact (casq_impl al p _ _ _ rfl).mono (fun _ h => h)
      (by rintro m m' rs M ⟨h, rfl⟩; exact ⟨h, cas_ord _ _ _⟩)

theorem good : Good backend scMons where
  load := by
    rintro o w a B (⟨al, o, p, hw⟩ | ⟨al, o, p⟩)
    · exact (load_impl al hw p _ rfl).mono (fun _ h => h)
        (by rintro m m' rs M ⟨h, rfl⟩; exact ⟨h, rd_ord _⟩)
    · exact (lq_impl al p _ rfl).mono (fun _ h => h)
        (by rintro m m' rs M ⟨h, rfl⟩; exact ⟨h, rd_ord _⟩)
  store := by
    rintro o w a v B (⟨al, p, val, hw, hf⟩ | ⟨al, p, val, hf⟩)
    · exact (store_impl al _ p v _ rfl).mono (fun _ h => h)
        (by rintro m m' rs M ⟨h, rfl⟩; exact ⟨h, wr_ord hf⟩)
    · exact (stq_impl al _ p _ _ rfl).mono (fun _ h => h)
        (by rintro m m' rs M ⟨h, rfl⟩; exact ⟨h, wr_ord hf⟩)
  swap := by
    rintro o w a v B (⟨al, o, p, val, hw⟩ | ⟨al, o, p, val, hw, hal⟩ | ⟨al, o, p, val⟩)
    · exact (swap_impl al hw p v _ rfl).mono (fun _ h => h)
        (by rintro m m' rs M ⟨h, rfl⟩; exact ⟨h, rmw_ord _⟩)
    · exact (sub_swap_impl al hw p hal v _ rfl).mono (fun _ h => h)
        (by rintro m m' rs M ⟨h, rfl⟩; exact ⟨h, rmw_ord _⟩)
    · exact (swapq_impl al p _ _ rfl).mono (fun _ h => h)
        (by rintro m m' rs M ⟨h, rfl⟩; exact ⟨h, rmw_ord _⟩)
  cas := by
    intro s f w a old new B h
    exact (cas_all h).mono (fun _ h => h) (by rintro m m' rs M ⟨h, h2⟩; exact ⟨h.weak, h2⟩)
  casWeak := by
    intro s f w a old new B h
    exact (cas_all h).mono (fun _ h => h) (by rintro m m' rs M ⟨h, h2⟩; exact ⟨h.weak, h2⟩)
  ord := by show ∀ M ∈ scMons, ∀ M' ∈ scMons, Ordered imp M M' = true; decide

set_option maxHeartbeats 4000000 in
theorem contract : backend.ContractOK := by
  intro w B hB
  cases hB with
  | load h => obtain ⟨al, o, p, hw⟩ | ⟨al, o, p⟩ := h <;> contract_tac
  | store h => obtain ⟨al, p, val, hw, hf⟩ | ⟨al, p, val, hf⟩ := h <;> contract_tac
  | swap h => obtain ⟨al, o, p, val, hw⟩ | ⟨al, o, p, val, hw, hal⟩ | ⟨al, o, p, val⟩ := h <;> contract_tac
  | cas h =>
    obtain ⟨al, _, _, p, _, _, hw⟩ | ⟨al, _, _, p, _, _, hw, hal⟩ | ⟨al, _, _, p, _, _⟩ := h <;> contract_tac
  | casWeak h =>
    obtain ⟨al, _, _, p, _, _, hw⟩ | ⟨al, _, _, p, _, _, hw, hal⟩ | ⟨al, _, _, p, _, _⟩ := h <;> contract_tac

/-- This back end has no `assert_unchecked`. -/
theorem assumes : backend.AssumesOK := by
  intro w B tr rs hB hr
  cases hB with
  | load h => obtain ⟨al, o, p, hw⟩ | ⟨al, o, p⟩ := h <;> exact trivial
  | store h => obtain ⟨al, p, val, hw, hf⟩ | ⟨al, p, val, hf⟩ := h <;> exact trivial
  | swap h => obtain ⟨al, o, p, val, hw⟩ | ⟨al, o, p, val, hw, hal⟩ | ⟨al, o, p, val⟩ := h <;> exact trivial
  | cas h =>
    obtain ⟨al, _, _, p, _, _, hw⟩ | ⟨al, _, _, p, _, _, hw, hal⟩ | ⟨al, _, _, p, _, _⟩ := h <;> exact trivial
  | casWeak h =>
    obtain ⟨al, _, _, p, _, _, hw⟩ | ⟨al, _, _, p, _, _, hw, hal⟩ | ⟨al, _, _, p, _, _⟩ := h <;> exact trivial

theorem sub_cas_progress (al : Alloc subCasKind) {w : Nat} (p : BitVec 64) (old new : BitVec w) :
    (subCasBlock al w p old new).Progress .big := by
  have key : ∀ rs m resv, (rs.r (al .prev)).setWidth 32 = load .big m (rs.r (al .dst)).toNat 32 →
      qwp .big (subCasBlock al w p old new).code 12 1 rs m resv := by
    intro rs m resv h
    simp [asm, cmpCC_lh, h]
  refine Block.progress_of 20 [1] (by simp [asm]) ?_
  rintro hd (_ | ⟨_, ⟨⟩⟩) rs m resv
  show qwp _ _ (12 + 8) _ _ _ _
  rcases Decidable.em (load .big m (rs.r (al .dst)).toNat 32 = (rs.r (al .prev)).setWidth 32) with h | h
  · simp [asm, h, cmpCC_lh]
  generalize hk : 12 = k at key ⊢
  simp [asm, h, cmpCC_lh]
  intro _
  exact key _ _ _ (by simp [asm, h, ldVal_32])

theorem swap_progress (al : Alloc swapKind) {w : Nat} (hw : WordSize 64 w) (p : BitVec 64) (val : BitVec w) :
    (swapBlock al w p val).Progress .big := by
  have key : ∀ rs m resv, (rs.r (al .out)).setWidth w = load .big m (rs.r (al .dst)).toNat w →
      qwp .big (swapBlock al w p val).code 4 1 rs m resv := by
    intro rs m resv h
    simp [asm, h]
  refine Block.progress_of 6 [1] (by simp [asm]) ?_
  rintro hd (_ | ⟨_, ⟨⟩⟩) rs m resv
  show qwp _ _ (4 + 2) _ _ _ _
  rcases Decidable.em (load .big m (rs.r (al .dst)).toNat w = (rs.r (al .out)).setWidth w) with h | h
  · simp [asm, h]
  generalize hk : 4 = k at key ⊢
  simp [asm, h]
  exact key _ _ _ (by simp [asm, h, ldVal_low (.inr hw)])

theorem sub_swap_progress (al : Alloc subSwapKind) {w : Nat} (p : BitVec 64) (val : BitVec w) :
    (subSwapBlock al w p val).Progress .big := by
  have key : ∀ rs m resv, (rs.r (al .prev)).setWidth 32 = load .big m (rs.r (al .dst)).toNat 32 →
      qwp .big (subSwapBlock al w p val).code 8 1 rs m resv := by
    intro rs m resv h
    simp [asm, h]
  refine Block.progress_of 13 [1] (by simp [asm]) ?_
  rintro hd (_ | ⟨_, ⟨⟩⟩) rs m resv
  show qwp _ _ (8 + 5) _ _ _ _
  rcases Decidable.em (load .big m (rs.r (al .dst)).toNat 32 = (rs.r (al .prev)).setWidth 32) with h | h
  · simp [asm, h]
  generalize hk : 8 = k at key ⊢
  simp [asm, h]
  exact key _ _ _ (by simp [asm, h, ldVal_32])

theorem swapq_progress (al : Alloc swapqKind) (p : BitVec 64) (val : BitVec 128) :
    (swapqBlock al p val).Progress .big := by
  have key : ∀ rs m resv,
      joinHL 128 (rs.r (al .prev_hi)) (rs.r (al .prev_lo)) = load .big m (rs.r (al .dst)).toNat 128 →
      qwp .big (swapqBlock al p val).code 4 2 rs m resv := by
    intro rs m resv h
    simp [asm, h]
  refine Block.progress_of 6 [2] (by simp [asm]) ?_
  rintro hd (_ | ⟨_, ⟨⟩⟩) rs m resv
  show qwp _ _ (4 + 2) _ _ _ _
  rcases Decidable.em (load .big m (rs.r (al .dst)).toNat 128 =
    joinHL 128 (rs.r (al .prev_hi)) (rs.r (al .prev_lo))) with h | h
  · simp [asm, h]
  generalize hk : 4 = k at key ⊢
  simp [asm, h]
  exact key _ _ _ (by simp [asm, h, joinHL_halves])

set_option maxHeartbeats 4000000 in
theorem progress : backend.ProgressOK := by
  intro w B hB
  have hcas : ∀ {s f w a old new} {B : Block 64 w}, Cas s f w a old new B → B.Progress .big := by
    intro s f w a old new B h
    obtain ⟨al, _, _, p, _, _, hw⟩ | ⟨al, _, _, p, _, _, hw, hal⟩ | ⟨al, _, _, p, _, _⟩ := h
    · progress_straight
    · exact sub_cas_progress al p old new
    · progress_straight
  cases hB with
  | load h => obtain ⟨al, o, p, hw⟩ | ⟨al, o, p⟩ := h <;> progress_straight
  | store h => obtain ⟨al, p, val, hw, hf⟩ | ⟨al, p, val, hf⟩ := h <;> progress_straight
  | swap h =>
    obtain ⟨al, o, p, val, hw⟩ | ⟨al, o, p, val, hw, hal⟩ | ⟨al, o, p, val⟩ := h
    · exact swap_progress al hw p _
    · exact sub_swap_progress al p _
    · exact swapq_progress al p _
  | cas h => exact hcas h
  | casWeak h => exact hcas h

/-- Object sizes of the back end. -/
def Size (w : Nat) : Prop := (SubSize w ∨ WordSize 64 w) ∨ w = 128

theorem total : backend.Total 64 Size Size where
  load o w p hw _ ho := by
    rcases hw with hw | rfl
    · exact ⟨_, .word (Alloc.std _) o p hw⟩
    · exact ⟨_, .quad (Alloc.std _) o p⟩
  store o w p v hw _ ho := by
    rcases hw with hw | rfl
    · cases o <;> simp [assertStoreOrdering] at ho <;> exact ⟨_, .word (Alloc.std _) p v hw rfl⟩
    · cases o <;> simp [assertStoreOrdering] at ho <;> exact ⟨_, .quad (Alloc.std _) p v rfl⟩
  swap o w p v hw hal := by
    rcases hw with (hw | hw) | rfl
    · exact ⟨_, .sub (Alloc.std _) o p v hw hal⟩
    · exact ⟨_, .word (Alloc.std _) o p v hw⟩
    · exact ⟨_, .quad (Alloc.std _) o p v⟩
  cas s f w p old new hw hal hv := by
    rcases hw with (hw | hw) | rfl
    · exact ⟨_, .sub (Alloc.std _) s f p old new hw hal⟩
    · exact ⟨_, .word (Alloc.std _) s f p old new hw⟩
    · exact ⟨_, .quad (Alloc.std _) s f p old new⟩
  casWeak s f w p old new hw hal hv := by
    rcases hw with (hw | hw) | rfl
    · exact ⟨_, .sub (Alloc.std _) s f p old new hw hal⟩
    · exact ⟨_, .word (Alloc.std _) s f p old new hw⟩
    · exact ⟨_, .quad (Alloc.std _) s f p old new⟩

/-! ### The properties -/

theorem C01_s390x : backend.LoadsAtomic := good.loadsAtomic
theorem C02_s390x : backend.StoresAtomic := good.storesAtomic
theorem C03_s390x : backend.SwapsAtomic := good.swapsAtomic
theorem C04_s390x : backend.CasAtomic := fun _ _ _ _ _ _ _ h => (cas_all h).atomic fun _ _ _ _ h => h.1
theorem C05_s390x : backend.WeakCasAtomic := good.weakCasAtomic
theorem C06_s390x : backend.NeighboursOK := good.neighbours
theorem C11_s390x : backend.Total 64 Size Size := total
theorem C13_s390x : backend.AcquireOK := good.acquireOK
theorem C14_s390x : backend.ReleaseOK := good.releaseOK
theorem C15_s390x : backend.SeqCstOK := good.seqCstOK
theorem C16_s390x : backend.FailureOK := good.failureOK
theorem C17_s390x : backend.ContractOK := contract
theorem C19_s390x : backend.AssumesOK := assumes
theorem C20_s390x : backend.ProgressOK := progress

/-- C32 on s390x: the boolean computed from the result of `ipm` is true exactly if the condition code is 0,
whatever the program mask and the old register content are. -/
theorem C32_s390x (r : BitVec 64) (pm : BitVec 4) (cc : BitVec 2) : extractCC (ipmVal r pm cc) = (cc == 0#2) :=
  extractCC_ipm r pm cc

/-! ### The hypotheses are satisfiable: concrete blocks with completed runs -/

example : ∃ B tr rs, backend.Cas .seqCst .acquire 8 0x1003 0x12#8 0x34#8 B ∧ B.Completed .big tr rs := by
  have hB := Cas.sub (Alloc.std _) .seqCst .acquire (0x1003#64) 0x12#8 0x34#8 (.inl rfl) (by decide)
  obtain ⟨tr, rs, h⟩ := (progress _ (Backend.IsBlock.cas hB)).completed'
    (by simp [subCasBlock]) (by simp [subCasBlock])
  exact ⟨_, tr, rs, hB, h⟩

end Verif.S390x
