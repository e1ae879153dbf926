/-
Properties of the x86 and x86_64 back ends (src/arch/x86.rs).

The 128-bit blocks of x86_64 use `rbx`, which they do not declare, and restore it: C17 is stated at the end of the
block (`ContractDone`).
-/
import Verif.Proofs.X86
import Verif.Core.Progress
set_option linter.unusedSimpArgs false
set_option maxRecDepth 4000
namespace Verif.X86

/-- Monitors of SeqCst operations. -/
def scMons : List Mon := [ rdMon, wrFMon, rmwMon, failMon ]

theorem rd_ord (o : Ordering) : RdOrd imp scMons o rdMon := by cases o <;> decide
theorem rdx_ord (o : Ordering) {M : Mon} (h : M = rmwMon ∨ M = failMon) : RdOrd imp scMons o M := by
  rcases h with rfl | rfl <;> cases o <;> decide
theorem wr_ord (o : Ordering) (h : storeArm o = some false) : WrOrd imp scMons o wrMon := by
  cases o <;> first | decide | cases h
theorem wrx_ord (o : Ordering) : WrOrd imp scMons o rmwMon := by cases o <;> decide
theorem wrf_ord {o : Ordering} {sc : Bool} (h : storeArm o = some sc) :
    WrOrd imp scMons o (if sc then wrFMon else wrMon) := by
  cases o <;> cases h <;> decide
theorem rmw_ord (o : Ordering) : RmwOrd imp scMons o rmwMon := by cases o <;> decide
theorem cas_ord (s f : Ordering) (ok : Bool) : CasOrd imp scMons s f ok (if ok then rmwMon else failMon) := by
  cases s <;> cases f <;> cases ok <;> decide
theorem sc_ord : ∀ M ∈ scMons, ∀ M' ∈ scMons, Ordered imp M M' = true := by decide

theorem Size.le32 {w : Nat} (h : Size 32 w) : w ≤ 32 := size_le (by decide) h
theorem Size.le64 {w : Nat} (h : Size 64 w) : w ≤ 64 := size_le (by decide) h

theorem SwapSpec.toStore {e : Endian} {a w : Nat} {v out : BitVec w} {m m' : Mem} (h : SwapSpec e a w v m m' out) :
    StoreSpec e a w v m m' := h.2

theorem cas_all32 (c : Conf32) : ∀ s f w a old new B, Cas32 c s f w a old new B →
    Implements .little B.code B.pre (fun m m' rs M =>
      (CasSpec .little a w old new m m' (B.out rs) (B.ok rs) ∧ B.assumes rs) ∧
      CasOrd imp scMons s f (B.ok rs) M) := by
  rintro s f w a old new B (⟨al, _, _, p, _, _, hw, h⟩ | ⟨al, _, _, p, _, _, h⟩)
  · exact (cas_impl al (by decide) hw.le32 p _ _ _ rfl).mono (fun _ h => h)
      (by rintro m m' rs M ⟨h, rfl⟩; exact ⟨h, cas_ord _ _ _⟩)
  · exact (cx8Cas_impl al p _ _ _ rfl).mono (fun _ h => h)
      (by rintro m m' rs M ⟨h, rfl⟩; exact ⟨h, cas_ord _ _ _⟩)

theorem cas_all64 (c : Conf64) : ∀ s f w a old new B, Cas64 c s f w a old new B →
    Implements .little B.code B.pre (fun m m' rs M =>
      (CasSpec .little a w old new m m' (B.out rs) (B.ok rs) ∧ B.assumes rs) ∧
      CasOrd imp scMons s f (B.ok rs) M) := by
  rintro s f w a old new B (⟨al, _, _, p, _, _, hw⟩ | ⟨al, _, _, hb, p, _, _, h⟩)
  · exact (cas_impl al (by decide) hw.le64 p _ _ _ rfl).mono (fun _ h => h)
      (by rintro m m' rs M ⟨h, rfl⟩; exact ⟨h, cas_ord _ _ _⟩)
  · exact (cx16Cas_impl al hb p _ _ _ rfl).impl.mono (fun _ h => h)
      (by rintro m m' rs M ⟨h, rfl⟩; exact ⟨h, cas_ord _ _ _⟩)

theorem good32 (c : Conf32) : Good (backend32 c) scMons where
  load := by
    rintro o w a B (⟨al, _, p, hw⟩ | ⟨al, _, p, h, hc⟩ | ⟨al, _, p, h, hc2, hc⟩ | ⟨al, _, p, h, hc, hx⟩ |
      ⟨al, _, p, h, hc, hx⟩)
    · exact (load_impl al hw.le32 p _ rfl).mono (fun _ h => h)
        (by rintro m m' rs M ⟨h, rfl⟩; exact ⟨h, rd_ord _⟩)
    · exact (sseLoad_impl al p _ rfl).mono (fun _ h => h)
        (by rintro m m' rs M ⟨h, rfl⟩; exact ⟨h, rd_ord _⟩)
    · exact (sseLoad_impl al p _ rfl).mono (fun _ h => h)
        (by rintro m m' rs M ⟨h, rfl⟩; exact ⟨h, rd_ord _⟩)
    · exact (x87Load_impl al c.rc p _ rfl).mono (fun _ h => h)
        (by rintro m m' rs M ⟨h, rfl⟩; exact ⟨h, rd_ord _⟩)
    · exact (cx8Load_impl al p _ rfl).mono (fun _ h => h)
        (by rintro m m' rs M ⟨h, hM⟩; exact ⟨h, rdx_ord _ hM⟩)
  store := by
    rintro o w a v B (⟨al, p, _, hw, ho⟩ | ⟨al, p, _, hw, ho⟩ | ⟨al, p, _, h, hc, ho⟩ | ⟨al, p, _, h, hc, hx, ho⟩ |
      ⟨al, _, p, _, h, hc, hx⟩)
    · exact (store_impl al p _ _ rfl).mono (fun _ h => h)
        (by rintro m m' rs M ⟨h, rfl⟩; exact ⟨h, wr_ord _ ho⟩)
    · exact (swap_impl al hw.le32 p _ _ rfl).mono (fun _ h => h)
        (by rintro m m' rs M ⟨h, rfl⟩; exact ⟨h.2, wrx_ord _⟩)
    · exact (sseStore_impl al _ p _ _ rfl).mono (fun _ h => h)
        (by rintro m m' rs M ⟨h, rfl⟩; exact ⟨h, wrf_ord ho⟩)
    · exact (x87Store_impl al c.rc _ p _ _ rfl).mono (fun _ h => h)
        (by rintro m m' rs M ⟨h, rfl⟩; exact ⟨h, wrf_ord ho⟩)
    · exact (cx8Swap_impl al p _ _ rfl).mono (fun _ h => h)
        (by rintro m m' rs M ⟨h, rfl⟩; exact ⟨h.2, wrx_ord _⟩)
  swap := by
    rintro o w a v B (⟨al, _, p, _, hw⟩ | ⟨al, _, p, _, h⟩)
    · exact (swap_impl al hw.le32 p _ _ rfl).mono (fun _ h => h)
        (by rintro m m' rs M ⟨h, rfl⟩; exact ⟨h, rmw_ord _⟩)
    · exact (cx8Swap_impl al p _ _ rfl).mono (fun _ h => h)
        (by rintro m m' rs M ⟨h, rfl⟩; exact ⟨h, rmw_ord _⟩)
  cas := fun s f w a old new B hB => (cas_all32 c s f w a old new B hB).mono (fun _ h => h)
      (by rintro m m' rs M ⟨h, h'⟩; exact ⟨h.1.weak, h'⟩)
  casWeak := fun s f w a old new B hB => (cas_all32 c s f w a old new B hB).mono (fun _ h => h)
      (by rintro m m' rs M ⟨h, h'⟩; exact ⟨h.1.weak, h'⟩)
  ord := sc_ord

theorem good64 (c : Conf64) : Good (backend64 c) scMons where
  load := by
    rintro o w a B (⟨al, _, p, hw⟩ | ⟨al, _, hb, p, h⟩)
    · exact (load_impl al hw.le64 p _ rfl).mono (fun _ h => h)
        (by rintro m m' rs M ⟨h, rfl⟩; exact ⟨h, rd_ord _⟩)
    · exact (cx16Load_impl al hb p _ rfl).impl.mono (fun _ h => h)
        (by rintro m m' rs M ⟨h, hM⟩; exact ⟨h, rdx_ord _ hM⟩)
  store := by
    rintro o w a v B (⟨al, p, _, hw, ho⟩ | ⟨al, p, _, hw, ho⟩ | ⟨al, _, hb, p, _, h⟩)
    · exact (store_impl al p _ _ rfl).mono (fun _ h => h)
        (by rintro m m' rs M ⟨h, rfl⟩; exact ⟨h, wr_ord _ ho⟩)
    · exact (swap_impl al hw.le64 p _ _ rfl).mono (fun _ h => h)
        (by rintro m m' rs M ⟨h, rfl⟩; exact ⟨h.2, wrx_ord _⟩)
    · exact (cx16Swap_impl al hb p _ _ rfl).impl.mono (fun _ h => h)
        (by rintro m m' rs M ⟨h, rfl⟩; exact ⟨h.2, wrx_ord _⟩)
  swap := by
    rintro o w a v B (⟨al, _, p, _, hw⟩ | ⟨al, _, hb, p, _, h⟩)
    · exact (swap_impl al hw.le64 p _ _ rfl).mono (fun _ h => h)
        (by rintro m m' rs M ⟨h, rfl⟩; exact ⟨h, rmw_ord _⟩)
    · exact (cx16Swap_impl al hb p _ _ rfl).impl.mono (fun _ h => h)
        (by rintro m m' rs M ⟨h, rfl⟩; exact ⟨h, rmw_ord _⟩)
  cas := fun s f w a old new B hB => (cas_all64 c s f w a old new B hB).mono (fun _ h => h)
      (by rintro m m' rs M ⟨h, h'⟩; exact ⟨h.1.weak, h'⟩)
  casWeak := fun s f w a old new B hB => (cas_all64 c s f w a old new B hB).mono (fun _ h => h)
      (by rintro m m' rs M ⟨h, h'⟩; exact ⟨h.1.weak, h'⟩)
  ord := sc_ord

set_option maxHeartbeats 4000000 in
theorem contract32 (c : Conf32) : (backend32 c).ContractOK := by
  intro w B hB
  have hcas : ∀ {s f w a old new} {B : Block 32 w}, Cas32 c s f w a old new B →
      Frame .little B.code B.outs ∧ (B.keepsFlags = true → KeepsFlags .little B.code) := by
    rintro s f w a old new B (⟨al, _, _, p, _, _, hw, h⟩ | ⟨al, _, _, p, _, _, h⟩)
    · contract_tac
    · contract_tac
  cases hB with
  | load h =>
    obtain ⟨al, _, p, hw⟩ | ⟨al, _, p, h, hc⟩ | ⟨al, _, p, h, hc2, hc⟩ | ⟨al, _, p, h, hc, hx⟩ |
      ⟨al, _, p, h, hc, hx⟩ := h
    · contract_tac
    · contract_tac
    · contract_tac
    · contract_tac
    · contract_tac
  | store h =>
    obtain ⟨al, p, _, hw, ho⟩ | ⟨al, p, _, hw, ho⟩ | @⟨al, _, sc, p, _, h, hc, ho⟩ | @⟨al, _, sc, p, _, h, hc, hx, ho⟩ |
      ⟨al, _, p, _, h, hc, hx⟩ := h
    · contract_tac
    · contract_tac
    · cases sc <;> contract_tac
    · cases sc <;> contract_tac
    · contract_tac
  | swap h =>
    obtain ⟨al, _, p, _, hw⟩ | ⟨al, _, p, _, h⟩ := h
    · contract_tac
    · contract_tac
  | cas h => exact hcas h
  | casWeak h => exact hcas h

/-- A block that uses and restores `rbx`. -/
theorem done16 {B : Block 64 128} {b : Nat} {T : Prop} {post : Mem → Mem → RS 64 → Mon → Prop}
    (h : Impl16 B b T post) (hf : Frame .little B.code (fun j => B.outs j ∨ j = b)) (hT : T → B.outs b)
    (hk : B.keepsFlags = false) :
    ∀ (c0 : Cfg 64) tr c, c0.pc = 0 → B.pre c0.rs → Run .little B.code c0 tr c → c.pc = B.code.length →
      (∀ j, ¬ B.outs j → c.rs.r j = c0.rs.r j) ∧
      (B.keepsFlags = true → c.rs.z = c0.rs.z ∧ c.rs.cc = c0.rs.cc) := by
  intro c0 tr c h1 h2 h3 h4
  refine ⟨fun j hj => ?_, fun h => by rw [hk] at h; cases h⟩
  by_cases hjb : j = b
  · subst hjb
    exact h.restored (fun t => hj (hT t)) h1 h2 h3 h4
  · exact hf c0 tr c h3 j (by simp [hj, hjb])

/-- A block that satisfies the contract in every run satisfies it at the end. -/
theorem done_of {w : Nat} {B : Block 64 w}
    (hc : Frame .little B.code B.outs ∧ (B.keepsFlags = true → KeepsFlags .little B.code)) :
    ∀ (c0 : Cfg 64) tr c, c0.pc = 0 → B.pre c0.rs → Run .little B.code c0 tr c → c.pc = B.code.length →
      (∀ j, ¬ B.outs j → c.rs.r j = c0.rs.r j) ∧
      (B.keepsFlags = true → c.rs.z = c0.rs.z ∧ c.rs.cc = c0.rs.cc) :=
  fun c0 tr c _ _ hr _ => ⟨fun j hj => hc.1 c0 tr c hr j hj, fun hk => hc.2 hk c0 tr c hr⟩

set_option maxHeartbeats 4000000 in
theorem contract64 (c : Conf64) : (backend64 c).ContractDone := by
  intro w B hB
  have hcas : ∀ {s f w a old new} {B : Block 64 w}, Cas64 c s f w a old new B →
      ∀ (c0 : Cfg 64) tr c, c0.pc = 0 → B.pre c0.rs → Run .little B.code c0 tr c → c.pc = B.code.length →
      (∀ j, ¬ B.outs j → c.rs.r j = c0.rs.r j) ∧
      (B.keepsFlags = true → c.rs.z = c0.rs.z ∧ c.rs.cc = c0.rs.cc) := by
    rintro s f w a old new B (⟨al, _, _, p, _, _, hw⟩ | ⟨al, _, _, hb, p, _, _, h⟩)
    · exact done_of (by contract_tac)
    · exact done16 (cx16Cas_impl al hb p _ _ _ rfl) (frame_of (by frame_tac)) (fun h => ⟨.rbx_tmp, rfl, h⟩) rfl
  cases hB with
  | load h =>
    obtain ⟨al, _, p, hw⟩ | ⟨al, _, hb, p, h⟩ := h
    · exact done_of (by contract_tac)
    · exact done16 (cx16Load_impl al hb p _ rfl) (frame_of (by frame_tac)) (fun h => ⟨.rbx_tmp, rfl, h⟩) rfl
  | store h =>
    obtain ⟨al, p, _, hw, ho⟩ | ⟨al, p, _, hw, ho⟩ | ⟨al, _, hb, p, _, h⟩ := h
    · exact done_of (by contract_tac)
    · exact done_of (by contract_tac)
    · exact done16 (cx16Swap_impl al hb p _ _ rfl) (frame_of (by frame_tac)) (fun h => ⟨.rbx_tmp, rfl, h⟩) rfl
  | swap h =>
    obtain ⟨al, _, p, _, hw⟩ | ⟨al, _, hb, p, _, h⟩ := h
    · exact done_of (by contract_tac)
    · exact done16 (cx16Swap_impl al hb p _ _ rfl) (frame_of (by frame_tac)) (fun h => ⟨.rbx_tmp, rfl, h⟩) rfl
  | cas h => exact hcas h
  | casWeak h => exact hcas h

theorem assumes32 (c : Conf32) : (backend32 c).AssumesOK := by
  intro w B tr rs hB hr
  have hcas : ∀ {s f w a old new} {B : Block 32 w}, Cas32 c s f w a old new B →
      B.Completed .little tr rs → B.assumes rs := by
    intro s f w a old new B h hr
    obtain ⟨_, _, h⟩ := (cas_all32 c s f w a old new B h).completed hr
    exact h.1.2
  cases hB with
  | load h => rcases h with _ | _ | _ | _ | _ <;> trivial
  | store h => rcases h with _ | _ | _ | _ | _ <;> trivial
  | swap h => rcases h with _ | _ <;> trivial
  | cas h => exact hcas h hr
  | casWeak h => exact hcas h hr

theorem assumes64 (c : Conf64) : (backend64 c).AssumesOK := by
  intro w B tr rs hB hr
  have hcas : ∀ {s f w a old new} {B : Block 64 w}, Cas64 c s f w a old new B →
      B.Completed .little tr rs → B.assumes rs := by
    intro s f w a old new B h hr
    obtain ⟨_, _, h⟩ := (cas_all64 c s f w a old new B h).completed hr
    exact h.1.2
  cases hB with
  | load h => rcases h with _ | _ <;> trivial
  | store h => rcases h with _ | _ | _ <;> trivial
  | swap h => rcases h with _ | _ <;> trivial
  | cas h => exact hcas h hr
  | casWeak h => exact hcas h hr

theorem cx8Swap_progress (al : Alloc cx8SwapKind) (p : BitVec 32) (val : BitVec 64) :
    (cx8SwapBlock al p val).Progress .little := by
  have key : ∀ rs m resv,
      joinHL 64 (rs.r (al .prev_hi)) (rs.r (al .prev_lo)) = load .little m (rs.r (al .dst)).toNat 64 →
      qwp .little (cx8SwapBlock al p val).code 4 2 rs m resv := by
    intro rs m resv h
    simp [asm, h]
  refine Block.progress_of 6 [2] (by simp [asm]) ?_
  rintro hd (_ | ⟨_, ⟨⟩⟩) rs m resv
  show qwp _ _ (4 + 2) _ _ _ _
  rcases Decidable.em (load .little m (rs.r (al .dst)).toNat 64 =
    joinHL 64 (rs.r (al .prev_hi)) (rs.r (al .prev_lo))) with h | h
  · simp [asm, h]
  generalize hk : 4 = k at key ⊢
  simp [asm, h]
  simp [asm] at key
  exact key _ _ _ (by simp [asm, h, joinHL_halves])

theorem cx16Swap_progress (al : Alloc cx16SwapKind) (b : Nat) {P : Nat} (p : BitVec P) (val : BitVec 128) :
    (cx16SwapBlock al b p val).Progress .little := by
  have key : ∀ rs m resv,
      joinHL 128 (rs.r (al .prev_hi)) (rs.r (al .prev_lo)) = load .little m ((rs.r (al .dst)).toNat % 2 ^ P) 128 →
      qwp .little (cx16SwapBlock al b p val).code 4 3 rs m resv := by
    intro rs m resv h
    simp [asm, h]
  refine Block.progress_of 6 [3] (by simp [asm]) ?_
  rintro hd (_ | ⟨_, ⟨⟩⟩) rs m resv
  show qwp _ _ (4 + 2) _ _ _ _
  rcases Decidable.em (load .little m ((rs.r (al .dst)).toNat % 2 ^ P) 128 =
    joinHL 128 (rs.r (al .prev_hi)) (rs.r (al .prev_lo))) with h | h
  · simp [asm, h]
  generalize hk : 4 = k at key ⊢
  simp [asm, h]
  simp [asm] at key
  exact key _ _ _ (by simp [asm, h, joinHL_halves])

theorem progress32 (c : Conf32) : (backend32 c).ProgressOK := by
  intro w B hB
  have hcas : ∀ {s f w a old new} {B : Block 32 w}, Cas32 c s f w a old new B → B.Progress .little := by
    rintro s f w a old new B (⟨al, _, _, p, _, _, hw, h⟩ | ⟨al, _, _, p, _, _, h⟩)
    · progress_straight
    · progress_straight
  cases hB with
  | load h =>
    obtain ⟨al, _, p, hw⟩ | ⟨al, _, p, h, hc⟩ | ⟨al, _, p, h, hc2, hc⟩ | ⟨al, _, p, h, hc, hx⟩ |
      ⟨al, _, p, h, hc, hx⟩ := h <;> progress_straight
  | store h =>
    obtain ⟨al, p, _, hw, ho⟩ | ⟨al, p, _, hw, ho⟩ | @⟨al, _, sc, p, _, h, hc, ho⟩ | @⟨al, _, sc, p, _, h, hc, hx, ho⟩ |
      ⟨al, _, p, _, h, hc, hx⟩ := h
    · progress_straight
    · progress_straight
    · cases sc <;> progress_straight
    · cases sc <;> progress_straight
    · exact cx8Swap_progress al p _
  | swap h =>
    obtain ⟨al, _, p, _, hw⟩ | ⟨al, _, p, _, h⟩ := h
    · progress_straight
    · exact cx8Swap_progress al p _
  | cas h => exact hcas h
  | casWeak h => exact hcas h

theorem progress64 (c : Conf64) : (backend64 c).ProgressOK := by
  intro w B hB
  have hcas : ∀ {s f w a old new} {B : Block 64 w}, Cas64 c s f w a old new B → B.Progress .little := by
    rintro s f w a old new B (⟨al, _, _, p, _, _, hw⟩ | ⟨al, _, _, hb, p, _, _, h⟩)
    · progress_straight
    · progress_straight
  cases hB with
  | load h => obtain ⟨al, _, p, hw⟩ | ⟨al, _, hb, p, h⟩ := h <;> progress_straight
  | store h =>
    obtain ⟨al, p, _, hw, ho⟩ | ⟨al, p, _, hw, ho⟩ | ⟨al, _, hb, p, _, h⟩ := h
    · progress_straight
    · progress_straight
    · exact cx16Swap_progress al _ p _
  | swap h =>
    obtain ⟨al, _, p, _, hw⟩ | ⟨al, _, hb, p, _, h⟩ := h
    · progress_straight
    · exact cx16Swap_progress al _ p _
  | cas h => exact hcas h
  | casWeak h => exact hcas h

/-- Object sizes of the 32-bit back end: 64 bits need cmpxchg8b (src/arch/cfgs/x86.rs). -/
def Size32 (c : Conf32) (w : Nat) : Prop := Size 32 w ∨ (w = 64 ∧ c.noCmpxchg8b = false)
/-- Object sizes with compare_exchange on the 32-bit back end. -/
def CasSize32 (c : Conf32) (w : Nat) : Prop := Size32 c w ∧ c.noCmpxchg = false
/-- Object sizes of the 64-bit back end. -/
def Size64 (c : Conf64) (w : Nat) : Prop := Size 64 w ∨ (w = 128 ∧ c.cmpxchg16b = true)

/-- The standard allocation, with `rbx` in a further register. -/
theorem rbx_std (kind : Op → Kind) : Rbx (Alloc.std kind) 1000 where
  ne o _ _ := by show o.ctorIdx ≠ 1000; cases o <;> decide

theorem total32 (c : Conf32) : (backend32 c).Total 32 (Size32 c) (CasSize32 c) where
  load o w p hw _ ho := by
    rcases hw with hw | ⟨rfl, h⟩
    · exact ⟨_, .word (Alloc.std _) o p hw⟩
    · cases h2 : c.sse2
      · cases hs : c.sse
        · cases hx : c.x87
          · exact ⟨_, .cx8 (Alloc.std _) o p h hs hx⟩
          · exact ⟨_, .x87 (Alloc.std _) o p h hs hx⟩
        · exact ⟨_, .sse (Alloc.std _) o p h h2 hs⟩
      · exact ⟨_, .sse2 (Alloc.std _) o p h h2⟩
  store o w p v hw _ ho := by
    obtain ⟨sc, hsc⟩ : ∃ sc, storeArm o = some sc := by
      cases o <;> first | exact ⟨_, rfl⟩ | cases ho
    rcases hw with hw | ⟨rfl, h⟩
    · cases sc
      · exact ⟨_, .mov (Alloc.std _) p v hw hsc⟩
      · exact ⟨_, .xchg (Alloc.std _) p v hw hsc⟩
    · cases hs : c.sse
      · cases hx : c.x87
        · exact ⟨_, .cx8 (Alloc.std _) o p v h hs hx⟩
        · exact ⟨_, .x87 (Alloc.std _) p v h hs hx hsc⟩
      · exact ⟨_, .sse (Alloc.std _) p v h hs hsc⟩
  swap o w p v hw _ := by
    rcases hw with ⟨hw | ⟨rfl, h⟩, _⟩
    · exact ⟨_, .word (Alloc.std _) o p v hw⟩
    · exact ⟨_, .cx8 (Alloc.std _) o p v h⟩
  cas s f w p old new hw _ hv := by
    rcases hw with ⟨hw | ⟨rfl, h⟩, hc⟩
    · exact ⟨_, .word (Alloc.std _) s f p old new hw hc⟩
    · exact ⟨_, .cx8 (Alloc.std _) s f p old new h⟩
  casWeak s f w p old new hw _ hv := by
    rcases hw with ⟨hw | ⟨rfl, h⟩, hc⟩
    · exact ⟨_, .word (Alloc.std _) s f p old new hw hc⟩
    · exact ⟨_, .cx8 (Alloc.std _) s f p old new h⟩

/-- swap is available on every x86, also without cmpxchg -/
theorem swapTotal32 (c : Conf32) : ∀ o w (p : BitVec 32) v, Size32 c w → p.toNat % (w / 8) = 0 →
    ∃ B, (backend32 c).Swap o w p.toNat v B := by
  intro o w p v hw _
  rcases hw with hw | ⟨rfl, h⟩
  · exact ⟨_, .word (Alloc.std _) o p v hw⟩
  · exact ⟨_, .cx8 (Alloc.std _) o p v h⟩

theorem total64 (c : Conf64) : (backend64 c).Total c.P (Size64 c) (Size64 c) where
  load o w p hw _ ho := by
    rcases hw with hw | ⟨rfl, h⟩
    · exact ⟨_, .word (Alloc.std _) o p hw⟩
    · exact ⟨_, .cx16 (Alloc.std _) o (rbx_std _) p h⟩
  store o w p v hw _ ho := by
    obtain ⟨sc, hsc⟩ : ∃ sc, storeArm o = some sc := by
      cases o <;> first | exact ⟨_, rfl⟩ | cases ho
    rcases hw with hw | ⟨rfl, h⟩
    · cases sc
      · exact ⟨_, .mov (Alloc.std _) p v hw hsc⟩
      · exact ⟨_, .xchg (Alloc.std _) p v hw hsc⟩
    · exact ⟨_, .cx16 (Alloc.std _) o (rbx_std _) p v h⟩
  swap o w p v hw _ := by
    rcases hw with hw | ⟨rfl, h⟩
    · exact ⟨_, .word (Alloc.std _) o p v hw⟩
    · exact ⟨_, .cx16 (Alloc.std _) o (rbx_std _) p v h⟩
  cas s f w p old new hw _ hv := by
    rcases hw with hw | ⟨rfl, h⟩
    · exact ⟨_, .word (Alloc.std _) s f p old new hw⟩
    · exact ⟨_, .cx16 (Alloc.std _) s f (rbx_std _) p old new h⟩
  casWeak s f w p old new hw _ hv := by
    rcases hw with hw | ⟨rfl, h⟩
    · exact ⟨_, .word (Alloc.std _) s f p old new hw⟩
    · exact ⟨_, .cx16 (Alloc.std _) s f (rbx_std _) p old new h⟩

/-! ### The properties -/

section Properties32
variable (c : Conf32)
theorem C01_x86 : (backend32 c).LoadsAtomic := (good32 c).loadsAtomic
theorem C02_x86 : (backend32 c).StoresAtomic := (good32 c).storesAtomic
theorem C03_x86 : (backend32 c).SwapsAtomic := (good32 c).swapsAtomic
theorem C04_x86 : (backend32 c).CasAtomic := fun s f w a old new B hB =>
  (cas_all32 c s f w a old new B hB).atomic fun _ _ _ _ h => h.1.1
theorem C05_x86 : (backend32 c).WeakCasAtomic := (good32 c).weakCasAtomic
theorem C06_x86 : (backend32 c).NeighboursOK := (good32 c).neighbours
theorem C11_x86 : (backend32 c).Total 32 (Size32 c) (CasSize32 c) := total32 c
theorem C11_x86_swap : ∀ o w (p : BitVec 32) v, Size32 c w → p.toNat % (w / 8) = 0 →
    ∃ B, (backend32 c).Swap o w p.toNat v B := swapTotal32 c
theorem C13_x86 : (backend32 c).AcquireOK := (good32 c).acquireOK
theorem C14_x86 : (backend32 c).ReleaseOK := (good32 c).releaseOK
theorem C15_x86 : (backend32 c).SeqCstOK := (good32 c).seqCstOK
theorem C16_x86 : (backend32 c).FailureOK := (good32 c).failureOK
theorem C17_x86 : (backend32 c).ContractOK := contract32 c
theorem C19_x86 : (backend32 c).AssumesOK := assumes32 c
theorem C20_x86 : (backend32 c).ProgressOK := progress32 c
end Properties32

section Properties64
variable (c : Conf64)
theorem C01_x86_64 : (backend64 c).LoadsAtomic := (good64 c).loadsAtomic
theorem C02_x86_64 : (backend64 c).StoresAtomic := (good64 c).storesAtomic
theorem C03_x86_64 : (backend64 c).SwapsAtomic := (good64 c).swapsAtomic
theorem C04_x86_64 : (backend64 c).CasAtomic := fun s f w a old new B hB =>
  (cas_all64 c s f w a old new B hB).atomic fun _ _ _ _ h => h.1.1
theorem C05_x86_64 : (backend64 c).WeakCasAtomic := (good64 c).weakCasAtomic
theorem C06_x86_64 : (backend64 c).NeighboursOK := (good64 c).neighbours
theorem C11_x86_64 : (backend64 c).Total c.P (Size64 c) (Size64 c) := total64 c
theorem C13_x86_64 : (backend64 c).AcquireOK := (good64 c).acquireOK
theorem C14_x86_64 : (backend64 c).ReleaseOK := (good64 c).releaseOK
theorem C15_x86_64 : (backend64 c).SeqCstOK := (good64 c).seqCstOK
theorem C16_x86_64 : (backend64 c).FailureOK := (good64 c).failureOK
theorem C17_x86_64 : (backend64 c).ContractDone := contract64 c
theorem C19_x86_64 : (backend64 c).AssumesOK := assumes64 c
theorem C20_x86_64 : (backend64 c).ProgressOK := progress64 c
end Properties64

/-- C37. Moving a 64-bit integer through an x87 register (`fild`, then `fistp`) does not change it, in any
rounding mode; so uninitialised or arbitrary bits survive a 64-bit load or store on i586. -/
theorem C37_x87_exact (rc : Round) (x : BitVec 64) : fistpVal rc (fildVal x) = x := fistp_fild rc x

/-- `fild` is exact: the extended number denotes the integer, i.e. value * 2^63 = ± sig * 2^(exp - 16383). -/
theorem C37_fild_value (x : BitVec 64) (hx : x ≠ 0#64) :
    x.toInt * 2 ^ 63 = (if (fildVal x).sign = 1#1 then -1 else 1) *
      ((fildVal x).sig.toNat : Int) * 2 ^ ((fildVal x).exp.toNat - 16383) ∧ (fildVal x).sig.msb = true := fild_value x hx

/-! ### The hypotheses are satisfiable: concrete blocks with completed runs -/

example : ∃ B tr rs, (backend32 ⟨false, false, true, false, false, .up⟩).Store .seqCst 64 0x1008 (-3) B ∧
    B.Completed .little tr rs := by
  have hB := Store32.x87 (c := ⟨false, false, true, false, false, .up⟩) (Alloc.std _) (o := .seqCst) (sc := true)
    (0x1008#32) (-3) rfl rfl rfl rfl
  obtain ⟨tr, rs, h⟩ := (progress32 _ _ (Backend.IsBlock.store hB)).completed'
    (by simp [x87StoreBlock]) (by simp [x87StoreBlock])
  exact ⟨_, tr, rs, hB, h⟩

example : ∃ B tr rs, (backend64 ⟨64, .inr rfl, true⟩).Cas .seqCst .seqCst 128 0x1010 3 4 B ∧
    B.Completed .little tr rs := by
  have hB := Cas64.cx16 (c := ⟨64, .inr rfl, true⟩) (Alloc.std _) .seqCst .seqCst (rbx_std _) (0x1010#64) 3 4 rfl
  obtain ⟨tr, rs, h⟩ := (progress64 _ _ (Backend.IsBlock.cas hB)).completed'
    (by simp [cx16CasBlock]) (by simp [cx16CasBlock])
  exact ⟨_, tr, rs, hB, h⟩

end Verif.X86
