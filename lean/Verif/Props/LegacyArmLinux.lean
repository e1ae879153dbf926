/-
Properties of the pre-v6 Arm Linux back end for old compilers (src/arch_legacy/arm_linux.rs).
-/
import Verif.Proofs.LegacyArmLinux
import Verif.Props.ArmLinux
set_option linter.unusedSimpArgs false
set_option maxRecDepth 4000
namespace Verif.LegacyArmLinux
open ArmLinux (Conf KUSER_CMPXCHG KUSER_MEMORY_BARRIER KUSER_CMPXCHG64 assertHasKuserCmpxchg64 ldr ldr4 str ea4 hit hit64
  bufVal spur fullAcc rdMon rmwMon sub sub_facts bitPos_lt extract_masked scMons rmw_ord rmw_rd rmw_wr cas_ord size_le32
  has64 join_loads ea4_eq spur_false Size)

/-- What every compare-exchange block establishes. -/
theorem cas_all {e c s f w a old new} {B : Block 32 w} (h : Cas e c s f w a old new B) :
    Implements e B.code B.pre
      (fun m m' rs M => (CasSpec e a w old new m m' (B.out rs) (B.ok rs) ∧ B.assumes rs) ∧ M = rmwMon) := by
  obtain ⟨al, _, _, po, pold, pnew, p, _, _, hd⟩ | ⟨al, _, _, po, pold, pnew, p, _, _, hw, hal, hd⟩ | ⟨al, _, _, p, po, pold, pnew, _, _, hd, hk, hal⟩ := h
  · exact cas_impl e c al po pold pnew p _ _ hd _ rfl
  · exact sub_cas_impl e c al hw po pold pnew p hal _ _ hd _ rfl
  · exact casd_impl e c al po pold pnew p hd _ _ _ rfl

theorem good (e : Endian) (c : Conf) : Good (backend e c) scMons where
  load := by
    rintro o w a B (⟨al, po, p, hw⟩ | ⟨al, po, p, hw, ho⟩ | ⟨al, _, p, po, hk, hal⟩)
    · exact (load_impl e al (size_le32 hw) po p _ rfl).mono (fun _ h => h)
        (by rintro m m' rs M ⟨h, rfl⟩; exact ⟨h, by change RdOrd Pairs.none _ _ _; decide⟩)
    · exact (loadAcq_impl e al (size_le32 hw) po p _ rfl).mono (fun _ h => h)
        (by rintro m m' rs M ⟨h, rfl⟩; refine ⟨h, ?_⟩; change RdOrd Pairs.none _ _ _; rcases ho with rfl | rfl <;> decide)
    · exact (loadd_impl e c al po p _ rfl).mono (fun _ h => h)
        (by rintro m m' rs M ⟨h, rfl⟩; exact ⟨h, rmw_rd o⟩)
  store := by
    rintro o w a v B (⟨al, pv, p, val, hw⟩ | ⟨al, pv, p, val, hw⟩ | ⟨al, pv, p, val, hw⟩ | ⟨al, _, p, po, pv, val, hne, hk, hal⟩)
    · exact (store_impl e al (size_le32 hw) pv p v _ rfl).mono (fun _ h => h)
        (by rintro m m' rs M ⟨h, rfl⟩; exact ⟨h, by change WrOrd Pairs.none _ _ _; decide⟩)
    · exact (storeRel_impl e al (size_le32 hw) false pv p v _ rfl).mono (fun _ h => h)
        (by rintro m m' rs M ⟨h, rfl⟩; exact ⟨h, by change WrOrd Pairs.none _ _ _; decide⟩)
    · exact (storeRel_impl e al (size_le32 hw) true pv p v _ rfl).mono (fun _ h => h)
        (by rintro m m' rs M ⟨h, rfl⟩; exact ⟨h, by change WrOrd Pairs.none _ _ _; decide⟩)
    · exact (swapd_impl e c al po pv p hne _ _ rfl).mono (fun _ h => h)
        (by rintro m m' rs M ⟨h, rfl⟩; exact ⟨h.2, rmw_wr o⟩)
  swap := by
    rintro o w a v B (⟨al, _, po, pv, p, val, hd⟩ | ⟨al, _, po, pv, p, val, hw, hal, hd⟩ | ⟨al, _, p, po, pv, val, hne, hk, hal⟩)
    · exact (swap_impl e c al po pv p _ hd _ rfl).mono (fun _ h => h)
        (by rintro m m' rs M ⟨h, rfl⟩; exact ⟨h, rmw_ord o⟩)
    · exact (sub_swap_impl e c al hw po pv p hal _ hd _ rfl).mono (fun _ h => h)
        (by rintro m m' rs M ⟨h, rfl⟩; exact ⟨h, rmw_ord o⟩)
    · exact (swapd_impl e c al po pv p hne _ _ rfl).mono (fun _ h => h)
        (by rintro m m' rs M ⟨h, rfl⟩; exact ⟨h, rmw_ord o⟩)
  cas := fun _ _ _ _ _ _ _ h => (cas_all h).mono (fun _ h => h)
    (by rintro m m' rs M ⟨h, rfl⟩; exact ⟨h.1.weak, cas_ord _ _ _⟩)
  casWeak := fun _ _ _ _ _ _ _ h => (cas_all h).mono (fun _ h => h)
    (by rintro m m' rs M ⟨h, rfl⟩; exact ⟨h.1.weak, cas_ord _ _ _⟩)
  ord := by
    show ∀ M ∈ scMons, ∀ M' ∈ scMons, Ordered Pairs.none M M' = true
    decide

/-! ### Register contract -/

theorem storeRelBlock_frame (al : Alloc storeRelKind) {w : Nat} (sc : Bool) (pv p : BitVec 32) (val : BitVec w) :
    ∀ i ∈ (storeRelBlock al w sc pv p val).code, i.Frame (storeRelBlock al w sc pv p val).outs := by
  cases sc <;> frame_tac
set_option maxHeartbeats 4000000 in
theorem swapBlock_frame (c : Conf) (al : Alloc swapKind) (po pv p val : BitVec 32) :
    ∀ i ∈ (swapBlock c al po pv p val).code, i.Frame (swapBlock c al po pv p val).outs := by frame_tac
set_option maxHeartbeats 4000000 in
theorem casBlock_frame (c : Conf) (al : Alloc casKind) (po pold pnew p old new : BitVec 32) :
    ∀ i ∈ (casBlock c al po pold pnew p old new).code, i.Frame (casBlock c al po pold pnew p old new).outs := by frame_tac
set_option maxHeartbeats 4000000 in
theorem subSwapBlock_frame (e : Endian) (c : Conf) (al : Alloc subSwapKind) {w : Nat} (po pv p : BitVec 32) (val : BitVec w) :
    ∀ i ∈ (subSwapBlock e c al w po pv p val).code, i.Frame (subSwapBlock e c al w po pv p val).outs := by frame_tac
set_option maxHeartbeats 4000000 in
theorem subCasBlock_frame (e : Endian) (c : Conf) (al : Alloc subCasKind) {w : Nat} (po pold pnew p : BitVec 32) (old new : BitVec w) :
    ∀ i ∈ (subCasBlock e c al w po pold pnew p old new).code, i.Frame (subCasBlock e c al w po pold pnew p old new).outs := by frame_tac
set_option maxHeartbeats 4000000 in
theorem loaddBlock_frame (e : Endian) (c : Conf) (al : Alloc loaddKind) (po p : BitVec 32) :
    ∀ i ∈ (loaddBlock e c al po p).code, i.Frame (loaddBlock e c al po p).outs := by frame_tac
set_option maxHeartbeats 4000000 in
theorem swapdBlock_frame (e : Endian) (c : Conf) (al : Alloc swapdKind) (po pv p : BitVec 32) (val : BitVec 64) :
    ∀ i ∈ (swapdBlock e c al po pv p val).code, i.Frame (swapdBlock e c al po pv p val).outs := by frame_tac
set_option maxHeartbeats 4000000 in
theorem casdBlock_frame (e : Endian) (c : Conf) (al : Alloc casdKind) (po pold pnew p : BitVec 32) (old new : BitVec 64) :
    ∀ i ∈ (casdBlock e c al po pold pnew p old new).code, i.Frame (casdBlock e c al po pold pnew p old new).outs := by frame_tac

set_option maxHeartbeats 4000000 in
theorem contract (e : Endian) (c : Conf) : (backend e c).ContractOK := by
  have hcas : ∀ {s f w a old new} {B : Block 32 w}, Cas e c s f w a old new B →
      Frame e B.code B.outs ∧ (B.keepsFlags = true → KeepsFlags e B.code) := by
    rintro s f w a old new B (⟨al, _, _, po, pold, pnew, p, _, _, hd⟩ | ⟨al, _, _, po, pold, pnew, p, _, _, hw, hal, hd⟩ |
      ⟨al, _, _, p, po, pold, pnew, _, _, hd, hk, hal⟩)
    · exact ⟨frame_of (casBlock_frame _ _ _ _ _ _ _ _), fun h => by cases h⟩
    · exact ⟨frame_of (subCasBlock_frame _ _ _ _ _ _ _ _ _), fun h => by cases h⟩
    · exact ⟨frame_of (casdBlock_frame _ _ _ _ _ _ _ _ _), fun h => by cases h⟩
  intro w B hB
  cases hB with
  | load h =>
    obtain ⟨al, po, p, hw⟩ | ⟨al, po, p, hw, ho⟩ | ⟨al, _, p, po, hk, hal⟩ := h
    · contract_tac
    · contract_tac
    · exact ⟨frame_of (loaddBlock_frame _ _ _ _ _), fun h => by cases h⟩
  | store h =>
    obtain ⟨al, pv, p, val, hw⟩ | ⟨al, pv, p, val, hw⟩ | ⟨al, pv, p, val, hw⟩ | ⟨al, _, p, po, pv, val, hne, hk, hal⟩ := h
    · contract_tac
    · contract_tac
    · contract_tac
    · exact ⟨frame_of (swapdBlock_frame _ _ _ _ _ _ _), fun h => by cases h⟩
  | swap h =>
    obtain ⟨al, _, po, pv, p, val, hd⟩ | ⟨al, _, po, pv, p, val, hw, hal, hd⟩ | ⟨al, _, p, po, pv, val, hne, hk, hal⟩ := h
    · exact ⟨frame_of (swapBlock_frame _ _ _ _ _ _), fun h => by cases h⟩
    · exact ⟨frame_of (subSwapBlock_frame _ _ _ _ _ _ _), fun h => by cases h⟩
    · exact ⟨frame_of (swapdBlock_frame _ _ _ _ _ _ _), fun h => by cases h⟩
  | cas h => exact hcas h
  | casWeak h => exact hcas h

theorem assumes (e : Endian) (c : Conf) : (backend e c).AssumesOK := by
  have hcas : ∀ {s f w a old new} {B : Block 32 w}, Cas e c s f w a old new B → ∀ tr rs,
      B.Completed e tr rs → B.assumes rs := by
    intro s f w a old new B h tr rs hr
    obtain ⟨_, _, h⟩ := (cas_all h).completed hr
    exact h.1.2
  intro w B tr rs hB hr
  cases hB with
  | load h => obtain ⟨al, po, p, hw⟩ | ⟨al, po, p, hw, ho⟩ | ⟨al, _, p, po, hk, hal⟩ := h <;> exact trivial
  | store h =>
    obtain ⟨al, pv, p, val, hw⟩ | ⟨al, pv, p, val, hw⟩ | ⟨al, pv, p, val, hw⟩ | ⟨al, _, p, po, pv, val, hne, hk, hal⟩ := h <;>
      exact trivial
  | swap h =>
    obtain ⟨al, _, po, pv, p, val, hd⟩ | ⟨al, _, po, pv, p, val, hw, hal, hd⟩ | ⟨al, _, p, po, pv, val, hne, hk, hal⟩ := h <;> exact trivial
  | cas h => exact hcas h tr rs hr
  | casWeak h => exact hcas h tr rs hr

/-! ### Progress -/

theorem swap_progress (e : Endian) (v : Int) (al : Alloc swapKind) (po pv p val : BitVec 32) :
    (swapBlock ⟨v, false⟩ al po pv p val).Progress e := by
  refine Block.progress_of_frame 14 [1] (by simp [asm]) (swapBlock_frame _ _ _ _ _ _) ?_
  rintro rs0 hp hd (_ | ⟨_, ⟨⟩⟩) rs hfr m resv
  have hf : rs.r (al .fn_ptr) = KUSER_CMPXCHG :=
    (hfr _ (Alloc.not_outs (fun o' => by cases o' <;> decide))).trans (by simp [asm] at hp; exact hp.2.2.2.2)
  simp [asm, hit, hf, spur_false]

theorem storeRel_progress (e : Endian) (al : Alloc storeRelKind) {w : Nat} (sc : Bool) (pv p : BitVec 32)
    (val : BitVec w) : (storeRelBlock al w sc pv p val).Progress e := by
  have hk : ∀ rs0 rs : RS 32, (storeRelBlock al w sc pv p val).pre rs0 →
      (∀ j, ¬ (j ≠ al .fn_ptr) → rs.r j = rs0.r j) → rs.r (al .fn_ptr) = KUSER_MEMORY_BARRIER := by
    intro rs0 rs hp hfr
    simp [asm] at hp
    exact (hfr (al .fn_ptr) (fun h => h rfl)).trans hp.2.2.1
  have hfrm : ∀ i ∈ (storeRelBlock al w sc pv p val).code, i.Frame (fun j => j ≠ al .fn_ptr) := by
    cases sc <;> frame_tac
  show ({ storeRelBlock al w sc pv p val with outs := fun j => j ≠ al .fn_ptr } : Block 32 w).Progress e
  cases sc
  · refine Block.progress_of_frame 10 [1] (by simp [asm]) hfrm ?_
    rintro rs0 hp hd (_ | ⟨_, ⟨⟩⟩) rs hfr m resv
    have hf := hk rs0 rs hp hfr
    simp [asm, hf]
  · refine Block.progress_of_frame 11 [1, 5] (by simp [asm]) hfrm ?_
    rintro rs0 hp hd hh rs hfr m resv
    have hf := hk rs0 rs hp hfr
    simp only [List.mem_cons, List.not_mem_nil, or_false] at hh
    rcases hh with rfl | rfl <;> simp [asm, hf]

theorem cas_progress (e : Endian) (v : Int) (al : Alloc casKind) (po pold pnew p old new : BitVec 32) :
    (casBlock ⟨v, false⟩ al po pold pnew p old new).Progress e := by
  refine Block.progress_of_frame 20 [2] (by simp [asm]) (casBlock_frame _ _ _ _ _ _ _ _) ?_
  rintro rs0 hp hd (_ | ⟨_, ⟨⟩⟩) rs hfr m resv
  have hf : rs.r (al .fn_ptr) = KUSER_CMPXCHG :=
    (hfr _ (Alloc.not_outs (fun o' => by cases o' <;> decide))).trans (by simp [asm] at hp; exact hp.2.2.2.2.2.2)
  rcases Decidable.em (load e m (rs.r (al .dst)).toNat 32 = rs.r (al .old)) with h | h
  · simp [asm, hit, hf, spur_false, h]
  · simp [asm, hit, hf, spur_false, h]

theorem sub_swap_progress (e : Endian) (v : Int) (al : Alloc subSwapKind) {w : Nat} (po pv p : BitVec 32)
    (val : BitVec w) : (subSwapBlock e ⟨v, false⟩ al w po pv p val).Progress e := by
  refine Block.progress_of_frame 16 [3] (by simp [asm]) (subSwapBlock_frame _ _ _ _ _ _ _) ?_
  rintro rs0 hp hd (_ | ⟨_, ⟨⟩⟩) rs hfr m resv
  have hf : rs.r (al .fn_ptr) = KUSER_CMPXCHG :=
    (hfr _ (Alloc.not_outs (fun o' => by cases o' <;> decide))).trans (by simp [asm] at hp; exact hp.2.2.2.2.2.2.2)
  simp [asm, hit, hf, spur_false]

theorem sub_cas_progress (e : Endian) (v : Int) (al : Alloc subCasKind) {w : Nat} (po pold pnew p : BitVec 32)
    (old new : BitVec w) : (subCasBlock e ⟨v, false⟩ al w po pold pnew p old new).Progress e := by
  refine Block.progress_of_frame 26 [6] (by simp [asm]) (subCasBlock_frame _ _ _ _ _ _ _ _ _) ?_
  rintro rs0 hp hd (_ | ⟨_, ⟨⟩⟩) rs hfr m resv
  have hf : rs.r (al .fn_ptr) = KUSER_CMPXCHG :=
    (hfr _ (Alloc.not_outs (fun o' => by cases o' <;> decide))).trans (by simp [asm] at hp; exact hp.2.2.2.2.2.2.2.2)
  rcases Decidable.em (load e m (rs.r (al .dst)).toNat 32 &&& rs.r (al .mask) = rs.r (al .old)) with h | h
  · simp [asm, hit, hf, spur_false, h]
  · simp [asm, hit, hf, spur_false, h]

theorem loadd_progress (e : Endian) (v : Int) (al : Alloc loaddKind) (po p : BitVec 32) (hal : p.toNat % 8 = 0) :
    (loaddBlock e ⟨v, false⟩ al po p).Progress e := by
  refine Block.progress_of_frame 12 [0] (by simp [asm]) (loaddBlock_frame _ _ _ _ _) ?_
  rintro rs0 hp hd (_ | ⟨_, ⟨⟩⟩) rs hfr m resv
  simp [asm] at hp
  have hj := (join_loads e m p.toNat).symm
  have he := fun b => ea4_eq hal (b := b)
  have h1 : rs.r (al .fn_ptr) = KUSER_CMPXCHG64 :=
    (hfr _ (Alloc.not_outs (fun o' => by cases o' <;> decide))).trans hp.2.2
  have h2 : rs.r (al .src) = p := (hfr _ (Alloc.not_outs (fun o' => by cases o' <;> decide))).trans hp.1
  have h3 : rs.r (al .x1) = po := (hfr _ (Alloc.not_outs (fun o' => by cases o' <;> decide))).trans hp.2.1
  simp [asm, hit64, bufVal, h1, h2, h3, spur_false, hj, he]

theorem swapd_progress (e : Endian) (v : Int) (al : Alloc swapdKind) (po pv p : BitVec 32) (val : BitVec 64)
    (hal : p.toNat % 8 = 0) : (swapdBlock e ⟨v, false⟩ al po pv p val).Progress e := by
  refine Block.progress_of_frame 12 [0] (by simp [asm]) (swapdBlock_frame _ _ _ _ _ _ _) ?_
  rintro rs0 hp hd (_ | ⟨_, ⟨⟩⟩) rs hfr m resv
  simp [asm] at hp
  have hj := (join_loads e m p.toNat).symm
  have he := fun b => ea4_eq hal (b := b)
  have h1 : rs.r (al .fn_ptr) = KUSER_CMPXCHG64 :=
    (hfr _ (Alloc.not_outs (fun o' => by cases o' <;> decide))).trans hp.2.2.2.2.2
  have h2 : rs.r (al .dst) = p := (hfr _ (Alloc.not_outs (fun o' => by cases o' <;> decide))).trans hp.1
  have h3 : rs.r (al .out_ptr) = po := (hfr _ (Alloc.not_outs (fun o' => by cases o' <;> decide))).trans hp.2.2.1
  simp [asm, hit64, bufVal, h1, h2, h3, spur_false, hj, he]

theorem casd_progress (e : Endian) (v : Int) (al : Alloc casdKind) (po pold pnew p : BitVec 32) (old new : BitVec 64)
    (hal : p.toNat % 8 = 0) : (casdBlock e ⟨v, false⟩ al po pold pnew p old new).Progress e := by
  refine Block.progress_of_frame 30 [2] (by simp [asm]) (casdBlock_frame _ _ _ _ _ _ _ _ _) ?_
  rintro rs0 hp hd (_ | ⟨_, ⟨⟩⟩) rs hfr m resv
  simp [asm] at hp
  have hj := (join_loads e m p.toNat).symm
  have he := fun b => ea4_eq hal (b := b)
  have h1 : rs.r (al .fn_ptr) = KUSER_CMPXCHG64 :=
    (hfr _ (Alloc.not_outs (fun o' => by cases o' <;> decide))).trans hp.2.2.2.2.2.2.2.2
  have h2 : rs.r (al .dst) = p := (hfr _ (Alloc.not_outs (fun o' => by cases o' <;> decide))).trans hp.1
  have h3 : rs.r (al .out_ptr) = po := (hfr _ (Alloc.not_outs (fun o' => by cases o' <;> decide))).trans hp.2.2.1
  rcases Decidable.em ((load e m p.toNat 32 ^^^ rs.r (al .old_lo) ||| load e m (p.toNat + 4) 32 ^^^ rs.r (al .old_hi))
    = 0#32) with h | h
  · simp [-BitVec.or_eq_zero_iff, asm, hit64, bufVal, h1, h2, h3, h, spur_false, hj, he]
  · simp [-BitVec.or_eq_zero_iff, asm, hit64, bufVal, h1, h2, h3, h, spur_false, hj, he]

theorem progress (e : Endian) (v : Int) : (backend e ⟨v, false⟩).ProgressOK := by
  have hcas : ∀ {s f w a old new} {B : Block 32 w}, Cas e ⟨v, false⟩ s f w a old new B → B.Progress e := by
    rintro s f w a old new B (⟨al, _, _, po, pold, pnew, p, _, _, hd⟩ | ⟨al, _, _, po, pold, pnew, p, _, _, hw, hal, hd⟩ |
      ⟨al, _, _, p, po, pold, pnew, _, _, hd, hk, hal⟩)
    · exact cas_progress e v al po pold pnew p _ _
    · exact sub_cas_progress e v al po pold pnew p _ _
    · exact casd_progress e v al po pold pnew p _ _ hal
  intro w B hB
  cases hB with
  | load h =>
    obtain ⟨al, po, p, hw⟩ | ⟨al, po, p, hw, ho⟩ | ⟨al, _, p, po, hk, hal⟩ := h
    · progress_straight
    · progress_straight
    · exact loadd_progress e v al po p hal
  | store h =>
    obtain ⟨al, pv, p, val, hw⟩ | ⟨al, pv, p, val, hw⟩ | ⟨al, pv, p, val, hw⟩ | ⟨al, _, p, po, pv, val, hne, hk, hal⟩ := h
    · progress_straight
    · exact storeRel_progress e al false pv p _
    · exact storeRel_progress e al true pv p _
    · exact swapd_progress e v al po pv p val hal
  | swap h =>
    obtain ⟨al, _, po, pv, p, val, hd⟩ | ⟨al, _, po, pv, p, val, hw, hal, hd⟩ | ⟨al, _, p, po, pv, val, hne, hk, hal⟩ := h
    · exact swap_progress e v al po pv p _
    · exact sub_swap_progress e v al po pv p _
    · exact swapd_progress e v al po pv p _ hal
  | cas h => exact hcas h
  | casWeak h => exact hcas h

theorem cas_total (e : Endian) (c : Conf) (s f w) (p : BitVec 32) (old new : BitVec w) (hw : Size c w)
    (hal : p.toNat % (w / 8) = 0) : ∃ B : Block 32 w, Cas e c s f w p.toNat old new B := by
  rcases hw with hw | rfl | ⟨rfl, hv⟩
  · exact ⟨_, .sub (Alloc.std _) s f 0#32 8#32 16#32 p old new hw hal ⟨by decide, by decide, by decide⟩⟩
  · exact ⟨_, .word (Alloc.std _) s f 0#32 8#32 16#32 p old new ⟨by decide, by decide, by decide⟩⟩
  · exact ⟨_, .dword (Alloc.std _) s f p 0#32 8#32 16#32 old new ⟨by decide, by decide, by decide⟩ (has64 hv) hal⟩

theorem total (e : Endian) (c : Conf) : (backend e c).Total 32 (Size c) (Size c) where
  load o w p hw hal ho := by
    rcases hw with hw | rfl | ⟨rfl, hv⟩
    · cases o <;> simp [assertLoadOrdering] at ho
      · exact ⟨_, .relaxed (Alloc.std _) 0#32 p (.inl hw)⟩
      · exact ⟨_, .acquire (Alloc.std _) 0#32 p (.inl hw) (.inl rfl)⟩
      · exact ⟨_, .acquire (Alloc.std _) 0#32 p (.inl hw) (.inr rfl)⟩
    · cases o <;> simp [assertLoadOrdering] at ho
      · exact ⟨_, .relaxed (Alloc.std _) 0#32 p (.inr rfl)⟩
      · exact ⟨_, .acquire (Alloc.std _) 0#32 p (.inr rfl) (.inl rfl)⟩
      · exact ⟨_, .acquire (Alloc.std _) 0#32 p (.inr rfl) (.inr rfl)⟩
    · exact ⟨_, .dword (Alloc.std _) o p 0#32 (has64 hv) hal⟩
  store o w p v hw hal ho := by
    rcases hw with hw | rfl | ⟨rfl, hv⟩
    · cases o <;> simp [assertStoreOrdering] at ho
      · exact ⟨_, .relaxed (Alloc.std _) 0#32 p v (.inl hw)⟩
      · exact ⟨_, .release (Alloc.std _) 0#32 p v (.inl hw)⟩
      · exact ⟨_, .seqCst (Alloc.std _) 0#32 p v (.inl hw)⟩
    · cases o <;> simp [assertStoreOrdering] at ho
      · exact ⟨_, .relaxed (Alloc.std _) 0#32 p v (.inr rfl)⟩
      · exact ⟨_, .release (Alloc.std _) 0#32 p v (.inr rfl)⟩
      · exact ⟨_, .seqCst (Alloc.std _) 0#32 p v (.inr rfl)⟩
    · exact ⟨_, .dword (Alloc.std _) o p 0#32 8#32 v (by decide) (has64 hv) hal⟩
  swap o w p v hw hal := by
    rcases hw with hw | rfl | ⟨rfl, hv⟩
    · exact ⟨_, .sub (Alloc.std _) o 0#32 8#32 p v hw hal (by decide)⟩
    · exact ⟨_, .word (Alloc.std _) o 0#32 8#32 p v (by decide)⟩
    · exact ⟨_, .dword (Alloc.std _) o p 0#32 8#32 v (by decide) (has64 hv) hal⟩
  cas s f w p old new hw hal _ := cas_total e c s f w p old new hw hal
  casWeak s f w p old new hw hal _ := cas_total e c s f w p old new hw hal

/-! ### The properties -/

section Properties
variable (e : Endian) (c : Conf)

theorem C01_legacy_arm_linux : (backend e c).LoadsAtomic := (good e c).loadsAtomic
theorem C02_legacy_arm_linux : (backend e c).StoresAtomic := (good e c).storesAtomic
theorem C03_legacy_arm_linux : (backend e c).SwapsAtomic := (good e c).swapsAtomic
theorem C04_legacy_arm_linux : (backend e c).CasAtomic := fun _ _ _ _ _ _ _ h =>
  (cas_all h).atomic fun _ _ _ _ h => h.1.1
theorem C05_legacy_arm_linux : (backend e c).WeakCasAtomic := (good e c).weakCasAtomic
theorem C06_legacy_arm_linux : (backend e c).NeighboursOK := (good e c).neighbours
theorem C13_legacy_arm_linux : (backend e c).AcquireOK := (good e c).acquireOK
theorem C14_legacy_arm_linux : (backend e c).ReleaseOK := (good e c).releaseOK
theorem C15_legacy_arm_linux : (backend e c).SeqCstOK := (good e c).seqCstOK
theorem C16_legacy_arm_linux : (backend e c).FailureOK := (good e c).failureOK
theorem C17_legacy_arm_linux : (backend e c).ContractOK := contract e c
theorem C19_legacy_arm_linux : (backend e c).AssumesOK := assumes e c
/-- Progress assumes that the kernel helper, running alone, does not fail spuriously. -/
theorem C20_legacy_arm_linux (v : Int) : (backend e ⟨v, false⟩).ProgressOK := progress e v
theorem C11_legacy_arm_linux : (backend e c).Total 32 (Size c) (Size c) := total e c

/-- C33. All operations are atomic (strong compare_exchange included), even if the kernel helpers fail spuriously. -/
theorem C33_legacy_atomic : (backend e c).LoadsAtomic ∧ (backend e c).StoresAtomic ∧ (backend e c).SwapsAtomic ∧
    (backend e c).CasAtomic ∧ (backend e c).WeakCasAtomic :=
  ⟨C01_legacy_arm_linux e c, C02_legacy_arm_linux e c, C03_legacy_arm_linux e c, C04_legacy_arm_linux e c, C05_legacy_arm_linux e c⟩

/-- C33. A 64-bit operation only runs its assembly if the kernel has helper version 5 or later (otherwise it
panics first). -/
theorem C33_legacy_version (B : Block 32 64) (h : (backend e c).IsBlock B) : 5 ≤ c.version := by
  have key : assertHasKuserCmpxchg64 c = .ok () := by
    have no : ∀ {w : Nat}, w = 64 → ¬ (SubSize w ∨ w = 32) := by
      rintro w rfl h; rcases h with (h | h) | h <;> cases h
    have hcas : ∀ {s f w a old new} {B : Block 32 w}, w = 64 → Cas e c s f w a old new B →
        assertHasKuserCmpxchg64 c = .ok () := by
      rintro s f w a old new B h64 (⟨al, _, _, po, pold, pnew, p, _, _, hd⟩ | ⟨al, _, _, po, pold, pnew, p, _, _, hw, hal, hd⟩ |
        ⟨al, _, _, p, po, pold, pnew, _, _, hd, hk, hal⟩)
      · cases h64
      · exact absurd (.inl hw) (no h64)
      · exact hk
    have hload : ∀ {o w a} {B : Block 32 w}, w = 64 → Load e c o w a B → assertHasKuserCmpxchg64 c = .ok () := by
      rintro o w a B h64 (⟨al, po, p, hw⟩ | ⟨al, po, p, hw, ho⟩ | ⟨al, _, p, po, hk, hal⟩)
      · exact absurd hw (no h64)
      · exact absurd hw (no h64)
      · exact hk
    have hstore : ∀ {o w a v} {B : Block 32 w}, w = 64 → Store e c o w a v B →
        assertHasKuserCmpxchg64 c = .ok () := by
      rintro o w a v B h64 (⟨al, pv, p, val, hw⟩ | ⟨al, pv, p, val, hw⟩ | ⟨al, pv, p, val, hw⟩ |
        ⟨al, _, p, po, pv, val, hne, hk, hal⟩)
      · exact absurd hw (no h64)
      · exact absurd hw (no h64)
      · exact absurd hw (no h64)
      · exact hk
    have hswap : ∀ {o w a v} {B : Block 32 w}, w = 64 → Swap e c o w a v B →
        assertHasKuserCmpxchg64 c = .ok () := by
      rintro o w a v B h64 (⟨al, _, po, pv, p, val, hd⟩ | ⟨al, _, po, pv, p, val, hw, hal, hd⟩ | ⟨al, _, p, po, pv, val, hne, hk, hal⟩)
      · cases h64
      · exact absurd (.inl hw) (no h64)
      · exact hk
    cases h with
    | load h => exact hload rfl h
    | store h => exact hstore rfl h
    | swap h => exact hswap rfl h
    | cas h => exact hcas rfl h
    | casWeak h => exact hcas rfl h
  unfold assertHasKuserCmpxchg64 at key
  split at key
  · cases key
  · omega

/-- C33. With an older kernel the 64-bit operations panic, and no 64-bit access happens. -/
theorem C33_legacy_old_kernel (h : c.version < 5) : assertHasKuserCmpxchg64 c = .panic ∧
    ∀ B : Block 32 64, ¬ (backend e c).IsBlock B :=
  ⟨if_pos h, fun B hB => by have := C33_legacy_version e c B hB; omega⟩
end Properties

/-! ### The hypotheses are satisfiable: concrete blocks with completed runs -/

example : ∃ B tr rs, (backend .little ⟨5, false⟩).Cas .seqCst .acquire 64 0x1008 0x12#64 0x34#64 B ∧
    B.Completed .little tr rs := by
  have hB := Cas.dword (e := .little) (c := ⟨5, false⟩) (Alloc.std _) .seqCst .acquire (0x1008#32) 0x7000#32
    0x7008#32 0x7010#32 0x12#64 0x34#64 ⟨by decide, by decide, by decide⟩ rfl rfl
  obtain ⟨tr, rs, h⟩ := (progress .little 5 _ (Backend.IsBlock.cas hB)).completed'
    (by simp [casdBlock]) (by simp [casdBlock])
  exact ⟨_, tr, rs, hB, h⟩

example : ∃ B tr rs, (backend .big ⟨3, false⟩).Swap .acqRel 16 0x1002 0x12#16 B ∧ B.Completed .big tr rs := by
  have hB := Swap.sub (e := .big) (c := ⟨3, false⟩) (Alloc.std _) .acqRel 0x7000#32 0x7008#32 (0x1002#32) 0x12#16 (.inr rfl) rfl (by decide)
  obtain ⟨tr, rs, h⟩ := (progress .big 3 _ (Backend.IsBlock.swap hB)).completed'
    (by simp [subSwapBlock]) (by simp [subSwapBlock])
  exact ⟨_, tr, rs, hB, h⟩

end Verif.LegacyArmLinux
