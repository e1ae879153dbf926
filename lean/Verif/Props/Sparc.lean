/-
Properties of the SPARC back end (src/arch/sparc.rs).
-/
import Verif.Proofs.Sparc
import Verif.Core.Progress
set_option linter.unusedSimpArgs false
set_option maxRecDepth 4000
namespace Verif.Sparc
variable {W : Nat}

/-- Monitors of SeqCst operations. -/
def scMons (v9 : Bool) : List Mon :=
  if v9 then
    [ ldMon (membar 5, membar 3), stMon (membar 10, membar 12), rmwMon (membar 15, membar 15),
      ldMon (membar 15, membar 15) ]
  else
    [ ldMon (stbar, ldstub), stMon (stbar.union ldstub, stbar), rmwMon (stbar, stbar.union ldstub),
      ldMon (stbar, stbar.union ldstub) ]

theorem rd_ord {v9 : Bool} {o : Ordering} {f : Pairs × Pairs} (h : loadFences v9 o = some f) :
    RdOrd (imp v9) (scMons v9) o (ldMon f) := by
  cases o <;> simp [loadFences] at h <;> subst h <;> decide +revert
theorem wr_ord {v9 : Bool} {o : Ordering} {f : Pairs × Pairs} (h : storeFences v9 o = some f) :
    WrOrd (imp v9) (scMons v9) o (stMon f) := by
  cases o <;> simp [storeFences] at h <;> subst h <;> decide +revert
theorem rmw_ord (v9 : Bool) (o : Ordering) : RmwOrd (imp v9) (scMons v9) o (rmwMon (rmwFences v9 o)) := by
  cases o <;> cases v9 <;> decide
theorem cas_ord (v9 : Bool) {s f : Ordering} (hv : assertCompareExchangeOrdering s f = .ok ()) (ok : Bool) :
    CasOrd (imp v9) (scMons v9) s f ok (if ok then rmwMon (rmwFences v9 (upgradeSuccessOrdering s f))
      else ldMon (rmwFences v9 (upgradeSuccessOrdering s f))) := by
  cases s <;> cases f <;> simp [assertCompareExchangeOrdering] at hv <;> cases ok <;> cases v9 <;> decide

/-- What every compare-exchange block establishes. -/
theorem cas_all (hW : 32 ≤ W) {v9 s f w a old new} {B : Block W w} (h : Cas v9 s f w a old new B) :
    Implements .big B.code B.pre
      (fun m m' rs M => (CasSpec .big a w old new m m' (B.out rs) (B.ok rs) ∧ B.assumes rs) ∧
        CasOrd (imp v9) (scMons v9) s f (B.ok rs) M) := by
  obtain ⟨al, _, _, p, _, _, hw, hv⟩ | ⟨al, _, _, p, _, _, hw, hv, hal⟩ := h
  · exact (cas_impl v9 al hW hw _ p _ _ _ rfl).mono (fun _ h => h)
      (by rintro m m' rs M ⟨h, rfl⟩; exact ⟨h, cas_ord v9 hv _⟩)
  · exact (sub_cas_impl v9 al hW hw _ p hal _ _ _ rfl).mono (fun _ h => h)
      (by rintro m m' rs M ⟨h, rfl⟩; exact ⟨h, cas_ord v9 hv _⟩)

theorem good (hW : 32 ≤ W) (v9 : Bool) : Good (backend W v9) (scMons v9) where
  load := by
    rintro o w a B ⟨al, p, hw, hf⟩
    exact (load_impl al (size_le hW hw) _ p _ rfl).mono (fun _ h => h)
      (by rintro m m' rs M ⟨h, rfl⟩; exact ⟨h, rd_ord hf⟩)
  store := by
    rintro o w a v B ⟨al, p, val, hw, hf⟩
    exact (store_impl al _ p v _ rfl).mono (fun _ h => h)
      (by rintro m m' rs M ⟨h, rfl⟩; exact ⟨h, wr_ord hf⟩)
  swap := by
    rintro o w a v B (⟨al, o, p, val, hw⟩ | ⟨al, o, p, val, hw, hal⟩)
    · exact (swap_impl al hW hw _ p v _ rfl).mono (fun _ h => h)
        (by rintro m m' rs M ⟨h, rfl⟩; exact ⟨h, rmw_ord _ _⟩)
    · exact (sub_swap_impl al hW hw _ p hal v _ rfl).mono (fun _ h => h)
        (by rintro m m' rs M ⟨h, rfl⟩; exact ⟨h, rmw_ord _ _⟩)
  cas := fun _ _ _ _ _ _ _ h => (cas_all hW h).mono (fun _ h => h)
    (by rintro m m' rs M ⟨h, h2⟩; exact ⟨h.1.weak, h2⟩)
  casWeak := fun _ _ _ _ _ _ _ h => (cas_all hW h).mono (fun _ h => h)
    (by rintro m m' rs M ⟨h, h2⟩; exact ⟨h.1.weak, h2⟩)
  ord := by
    show ∀ M ∈ scMons v9, ∀ M' ∈ scMons v9, Ordered (imp v9) M M' = true
    cases v9 <;> decide

set_option maxHeartbeats 4000000 in
theorem contract (v9 : Bool) : (backend W v9).ContractOK := by
  have hcas : ∀ {s f w a old new} {B : Block W w}, Cas v9 s f w a old new B →
      Frame .big B.code B.outs ∧ (B.keepsFlags = true → KeepsFlags .big B.code) := by
    rintro s f w a old new B (⟨al, _, _, p, _, _, hw, hv⟩ | ⟨al, _, _, p, _, _, hw, hv, hal⟩) <;>
      cases v9 <;> contract_tac
  intro w B hB
  cases hB with
  | load h => obtain ⟨al, p, hw, hf⟩ := h; contract_tac
  | store h => obtain ⟨al, p, val, hw, hf⟩ := h; contract_tac
  | swap h => obtain ⟨al, o, p, val, hw⟩ | ⟨al, o, p, val, hw, hal⟩ := h <;> contract_tac
  | cas h => exact hcas h
  | casWeak h => exact hcas h

theorem assumes (hW : 32 ≤ W) (v9 : Bool) : (backend W v9).AssumesOK := by
  have hcas : ∀ {s f w a old new} {B : Block W w}, Cas v9 s f w a old new B → ∀ tr rs,
      B.Completed .big tr rs → B.assumes rs := by
    intro s f w a old new B h tr rs hr
    obtain ⟨_, _, h⟩ := (cas_all hW h).completed hr
    exact h.1.2
  intro w B tr rs hB hr
  cases hB with
  | load h => obtain ⟨al, p, hw, hf⟩ := h; exact trivial
  | store h => obtain ⟨al, p, val, hw, hf⟩ := h; exact trivial
  | swap h => obtain ⟨al, o, p, val, hw⟩ | ⟨al, o, p, val, hw, hal⟩ := h <;> exact trivial
  | cas h => exact hcas h tr rs hr
  | casWeak h => exact hcas h tr rs hr

theorem swap_progress (al : Alloc swapKind) (hW : 32 ≤ W) {w : Nat} (hw : WordSize W w) (f : Pairs × Pairs)
    (p : BitVec W) (val : BitVec w) : (swapBlock al w f p val).Progress .big := by
  obtain rfl | ⟨rfl, rfl⟩ := hw
  · have key : ∀ rs m resv, (rs.r (al .out)).setWidth 32 = load .big m (rs.r (al .dst)).toNat 32 →
        qwp .big (swapBlock al 32 f p val).code 10 2 rs m resv := by
      intro rs m resv h
      simp [asm, h, hW]
    refine Block.progress_of 15 [2] (by simp [asm]) ?_
    rintro hd (_ | ⟨_, ⟨⟩⟩) rs m resv
    show qwp _ _ (10 + 5) _ _ _ _
    rcases Decidable.em (load .big m (rs.r (al .dst)).toNat 32 = (rs.r (al .out)).setWidth 32) with h | h
    · simp [asm, h, hW]
    generalize hk : 10 = k at key ⊢
    simp [asm, h, hW]
    exact key _ _ _ (by simp [asm, h, hW])
  · have key : ∀ rs m resv, rs.r (al .out) = load .big m (rs.r (al .dst)).toNat 64 →
        qwp .big (swapBlock al 64 f p val).code 10 2 rs m resv := by
      intro rs m resv h
      simp [asm, h]
    refine Block.progress_of 15 [2] (by simp [asm]) ?_
    rintro hd (_ | ⟨_, ⟨⟩⟩) rs m resv
    show qwp _ _ (10 + 5) _ _ _ _
    rcases Decidable.em (load .big m (rs.r (al .dst)).toNat 64 = rs.r (al .out)) with h | h
    · simp [asm, h]
    generalize hk : 10 = k at key ⊢
    simp [asm, h]
    exact key _ _ _ (by simp [asm, h])

theorem sub_swap_progress (al : Alloc subSwapKind) (hW : 32 ≤ W) {w : Nat} (f : Pairs × Pairs)
    {P : Nat} (p : BitVec P) (val : BitVec w) : (subSwapBlock (W := W) al w f p val).Progress .big := by
  have key : ∀ rs m resv, (rs.r (al .out)).setWidth 32 = load .big m (rs.r (al .dst)).toNat 32 →
      qwp .big (subSwapBlock (W := W) al w f p val).code 12 4 rs m resv := by
    intro rs m resv h
    simp [asm, h, hW]
  refine Block.progress_of 18 [4] (by simp [asm]) ?_
  rintro hd (_ | ⟨_, ⟨⟩⟩) rs m resv
  show qwp _ _ (12 + 6) _ _ _ _
  rcases Decidable.em (load .big m (rs.r (al .dst)).toNat 32 = (rs.r (al .out)).setWidth 32) with h | h
  · simp [asm, h, hW]
  generalize hk : 12 = k at key ⊢
  simp [asm, h, hW]
  simp [asm, hW] at key
  refine key _ _ _ ?_; simp [asm, hW]

theorem sub_cas_progress (v9 : Bool) (al : Alloc subCasKind) (hW : 32 ≤ W) {w : Nat} (f : Pairs × Pairs)
    {P : Nat} (p : BitVec P) (old new : BitVec w) : (subCasBlock (W := W) v9 al w f p old new).Progress .big := by
  have key : ∀ rs m resv, (rs.r (al .out)).setWidth 32 = load .big m (rs.r (al .dst)).toNat 32 →
      qwp .big (subCasBlock (W := W) v9 al w f p old new).code 18 5 rs m resv := by
    intro rs m resv h
    rcases Decidable.em ((rs.r (al .old)).setWidth 32 =
      (load .big m (rs.r (al .dst)).toNat 32) &&& (rs.r (al .mask)).setWidth 32) with h2 | h2 <;>
    cases v9 <;> simp [asm, h, h2, hW]
  refine Block.progress_of 27 [5] (by cases v9 <;> simp [asm]) ?_ (by cases v9 <;> exact Nat.le_of_ble_eq_true rfl)
  rintro hd (_ | ⟨_, ⟨⟩⟩) rs m resv
  show qwp _ _ (18 + 9) _ _ _ _
  rcases Decidable.em ((rs.r (al .old)).setWidth 32 =
      (rs.r (al .out)).setWidth 32 &&& (rs.r (al .mask)).setWidth 32) with h2 | h2
  · rcases Decidable.em (load .big m (rs.r (al .dst)).toNat 32 = (rs.r (al .out)).setWidth 32) with h | h
    · cases v9 <;> simp [asm, h, h2, hW]
    generalize hk : 18 = k at key ⊢
    cases v9
    all_goals
      simp [asm, h, h2, hW]
      simp [asm, hW] at key
      refine key _ _ _ ?_; simp [asm, hW]
  · cases v9 <;> simp [asm, h2, hW]

set_option maxHeartbeats 4000000 in
theorem progress (hW : 32 ≤ W) (v9 : Bool) : (backend W v9).ProgressOK := by
  have hcas : ∀ {s f w a old new} {B : Block W w}, Cas v9 s f w a old new B → B.Progress .big := by
    rintro s f w a old new B (⟨al, _, _, p, _, _, hw, hv⟩ | ⟨al, _, _, p, _, _, hw, hv, hal⟩)
    · cases v9 <;> progress_straight
    · exact sub_cas_progress v9 al hW _ p _ _
  intro w B hB
  cases hB with
  | load h => obtain ⟨al, p, hw, hf⟩ := h; progress_straight
  | store h => obtain ⟨al, p, val, hw, hf⟩ := h; progress_straight
  | swap h =>
    obtain ⟨al, o, p, val, hw⟩ | ⟨al, o, p, val, hw, hal⟩ := h
    · exact swap_progress al hW hw _ p _
    · exact sub_swap_progress al hW _ p _
  | cas h => exact hcas h
  | casWeak h => exact hcas h

/-- Object sizes of the back end. -/
def Size (W w : Nat) : Prop := SubSize w ∨ WordSize W w

theorem cas_total (v9 : Bool) (s f w) (p : BitVec W) (old new : BitVec w) (hw : Size W w)
    (hal : p.toNat % (w / 8) = 0) (hv : assertCompareExchangeOrdering s f = .ok ()) :
    ∃ B : Block W w, Cas v9 s f w p.toNat old new B := by
  rcases hw with hw | hw
  · exact ⟨_, .sub (Alloc.std _) s f p old new hw hv (.native hal)⟩
  · exact ⟨_, .word (Alloc.std _) s f p old new hw hv⟩

theorem total (v9 : Bool) : (backend W v9).Total W (Size W) (Size W) where
  load o w p hw _ ho := by
    cases o <;> simp [assertLoadOrdering] at ho <;> exact ⟨_, .mk (Alloc.std _) p hw rfl⟩
  store o w p v hw _ ho := by
    cases o <;> simp [assertStoreOrdering] at ho <;> exact ⟨_, .mk (Alloc.std _) p v hw rfl⟩
  swap o w p v hw hal := by
    rcases hw with hw | hw
    · exact ⟨_, .sub (Alloc.std _) o p v hw (.native hal)⟩
    · exact ⟨_, .word (Alloc.std _) o p v hw⟩
  cas s f w p old new hw hal hv := cas_total v9 s f w p old new hw hal hv
  casWeak s f w p old new hw hal hv := cas_total v9 s f w p old new hw hal hv

/-! ### The properties -/

section Properties
variable (hW : W = 32 ∨ W = 64) (v9 : Bool)
include hW

theorem le_W : 32 ≤ W := by omega
theorem good' : Good (backend W v9) (scMons v9) := good (le_W hW) v9
theorem C01_sparc : (backend W v9).LoadsAtomic := (good' hW v9).loadsAtomic
theorem C02_sparc : (backend W v9).StoresAtomic := (good' hW v9).storesAtomic
theorem C03_sparc : (backend W v9).SwapsAtomic := (good' hW v9).swapsAtomic
theorem C04_sparc : (backend W v9).CasAtomic := fun _ _ _ _ _ _ _ h =>
  (cas_all (le_W hW) h).atomic fun _ _ _ _ h => h.1.1
theorem C05_sparc : (backend W v9).WeakCasAtomic := (good' hW v9).weakCasAtomic
theorem C06_sparc : (backend W v9).NeighboursOK := (good' hW v9).neighbours
theorem C13_sparc : (backend W v9).AcquireOK := (good' hW v9).acquireOK
theorem C14_sparc : (backend W v9).ReleaseOK := (good' hW v9).releaseOK
theorem C15_sparc : (backend W v9).SeqCstOK := (good' hW v9).seqCstOK
theorem C16_sparc : (backend W v9).FailureOK := (good' hW v9).failureOK
theorem C17_sparc : (backend W v9).ContractOK := contract v9
theorem C19_sparc : (backend W v9).AssumesOK := assumes (le_W hW) v9
theorem C20_sparc : (backend W v9).ProgressOK := progress (le_W hW) v9
theorem C11_sparc : (backend W v9).Total W (Size W) (Size W) := total v9
end Properties

/-! ### The hypotheses are satisfiable: concrete blocks with completed runs -/

example : ∃ B tr rs, (backend 32 false).Cas .seqCst .acquire 16 0x1002 0x12#16 0x34#16 B ∧
    B.Completed .big tr rs := by
  have hB := Cas.sub (W := 32) (v9 := false) (Alloc.std _) .seqCst .acquire (0x1002#32) 0x12#16 0x34#16 (.inr rfl) rfl (.native rfl)
  obtain ⟨tr, rs, h⟩ := (progress (by decide) false _ (Backend.IsBlock.cas hB)).completed'
    (by simp [subCasBlock]) (by simp [subCasBlock])
  exact ⟨_, tr, rs, hB, h⟩

example : ∃ B tr rs, (backend 64 true).Swap .acqRel 64 0x1008 0x12#64 B ∧ B.Completed .big tr rs := by
  have hB := Swap.word (v9 := true) (Alloc.std _) .acqRel (0x1008#64) 0x12#64 (.inr ⟨rfl, rfl⟩)
  obtain ⟨tr, rs, h⟩ := (progress (by decide) true _ (Backend.IsBlock.swap hB)).completed'
    (by simp [swapBlock]) (by simp [swapBlock])
  exact ⟨_, tr, rs, hB, h⟩

end Verif.Sparc
