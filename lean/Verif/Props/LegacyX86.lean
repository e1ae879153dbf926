/-
Properties of the x86 and x86_64 back ends for old compilers (src/arch_legacy/x86.rs).

The cmpxchg8b / cmpxchg16b blocks use `esi` / `rbx`, which they do not declare, and restore it: C17 is stated at the end
of the block (`ContractDone`).
-/
import Verif.Proofs.LegacyX86
import Verif.Props.X86
set_option linter.unusedSimpArgs false
set_option maxRecDepth 4000
namespace Verif.LegacyX86
open X86 (Rbx Size imp storeArm Conf64 locked part rdMon wrMon wrFMon rmwMon failMon scMons rd_ord rdx_ord wrf_ord
  wrx_ord wr_ord rmw_ord cas_ord sc_ord rbx_std Size64)

/-- stores of word size: `mov`, or `xchg` for SeqCst -/
theorem wrs_ord {o : Ordering} {sc : Bool} (h : storeArm o = some sc) :
    WrOrd imp scMons o (if sc then rmwMon else wrMon) := by
  cases sc
  · exact wr_ord o h
  · exact wrx_ord o

theorem cas_all32 (c : Conf32) : ∀ s f w a old new B, Cas32 c s f w a old new B →
    Implements .little B.code B.pre (fun m m' rs M =>
      (CasSpec .little a w old new m m' (B.out rs) (B.ok rs) ∧ B.assumes rs) ∧
      CasOrd imp scMons s f (B.ok rs) M) := by
  rintro s f w a old new B (⟨al, _, _, po, pold, pnew, p, _, _, hw, h, hd⟩ | ⟨al, _, _, hb, po, pold, pnew, p, _, _, h, hd⟩)
  · exact (cas_impl al (by decide) hw.le32 po pold pnew p _ _ hd _ rfl).mono (fun _ h => h)
      (by rintro m m' rs M ⟨h, rfl⟩; exact ⟨h, cas_ord _ _ _⟩)
  · exact (cx8Cas_impl al hb po pold pnew p _ _ hd _ rfl).impl.mono (fun _ h => h)
      (by rintro m m' rs M ⟨h, rfl⟩; exact ⟨h, cas_ord _ _ _⟩)

theorem cas_all64 (c : Conf64) : ∀ s f w a old new B, Cas64 c s f w a old new B →
    Implements .little B.code B.pre (fun m m' rs M =>
      (CasSpec .little a w old new m m' (B.out rs) (B.ok rs) ∧ B.assumes rs) ∧
      CasOrd imp scMons s f (B.ok rs) M) := by
  rintro s f w a old new B (⟨al, _, _, po, pold, pnew, p, _, _, hw, hd⟩ | ⟨al, _, _, hb, po, pold, pnew, p, _, _, h, hd⟩)
  · exact (cas_impl al (by decide) hw.le64 po pold pnew p _ _ hd _ rfl).mono (fun _ h => h)
      (by rintro m m' rs M ⟨h, rfl⟩; exact ⟨h, cas_ord _ _ _⟩)
  · exact (cx16Cas_impl al hb po pold pnew p _ _ hd _ rfl).impl.mono (fun _ h => h)
      (by rintro m m' rs M ⟨h, rfl⟩; exact ⟨h, cas_ord _ _ _⟩)

theorem good32 (c : Conf32) : Good (backend32 c) scMons where
  load := by
    rintro o w a B (⟨al, _, po, p, hw⟩ | ⟨al, _, po, p, h, hc, hc2⟩ | ⟨al, _, po, p, h, hc, hc2⟩ |
      ⟨al, _, hb, po, p, h, hc⟩)
    · exact (load_impl al hw.le32 po p _ rfl).mono (fun _ h => h)
        (by rintro m m' rs M ⟨h, rfl⟩; exact ⟨h, rd_ord _⟩)
    · exact (sse2Load_impl al po p _ rfl).mono (fun _ h => h)
        (by rintro m m' rs M ⟨h, rfl⟩; exact ⟨h, rd_ord _⟩)
    · exact (sseLoad_impl al po p _ rfl).mono (fun _ h => h)
        (by rintro m m' rs M ⟨h, rfl⟩; exact ⟨h, rd_ord _⟩)
    · exact (cx8Load_impl al hb po p _ rfl).impl.mono (fun _ h => h)
        (by rintro m m' rs M ⟨h, hM⟩; exact ⟨h, rdx_ord _ hM⟩)
  store := by
    rintro o w a v B (⟨al, pv, p, _, hw, ho⟩ | ⟨al, pv, p, _, h, hc, ho⟩ | ⟨al, _, pv, p, _, h, hc⟩)
    · exact (store_impl al hw.le32 _ pv p _ _ rfl).mono (fun _ h => h)
        (by rintro m m' rs M ⟨h, rfl⟩; exact ⟨h, wrs_ord ho⟩)
    · exact (sseStore_impl al _ _ pv p _ _ rfl).mono (fun _ h => h)
        (by rintro m m' rs M ⟨h, rfl⟩; exact ⟨h, wrf_ord ho⟩)
    · exact (cx8Store_impl al pv p _ _ rfl).mono (fun _ h => h)
        (by rintro m m' rs M ⟨h, rfl⟩; exact ⟨h, wrx_ord _⟩)
  swap := by
    rintro o w a v B (⟨al, _, po, pv, p, _, hw, hd⟩ | ⟨al, _, hb, po, pv, p, _, h, hd⟩)
    · exact (swap_impl al hw.le32 po pv p _ hd _ rfl).mono (fun _ h => h)
        (by rintro m m' rs M ⟨h, rfl⟩; exact ⟨h, rmw_ord _⟩)
    · exact (cx8Swap_impl al hb po pv p _ hd _ rfl).impl.mono (fun _ h => h)
        (by rintro m m' rs M ⟨h, rfl⟩; exact ⟨h, rmw_ord _⟩)
  cas := fun s f w a old new B hB => (cas_all32 c s f w a old new B hB).mono (fun _ h => h)
      (by rintro m m' rs M ⟨h, h'⟩; exact ⟨h.1.weak, h'⟩)
  casWeak := fun s f w a old new B hB => (cas_all32 c s f w a old new B hB).mono (fun _ h => h)
      (by rintro m m' rs M ⟨h, h'⟩; exact ⟨h.1.weak, h'⟩)
  ord := sc_ord

theorem good64 (c : Conf64) : Good (backend64 c) scMons where
  load := by
    rintro o w a B (⟨al, _, po, p, hw⟩ | ⟨al, _, hb, po, p, h⟩)
    · exact (load_impl al hw.le64 po p _ rfl).mono (fun _ h => h)
        (by rintro m m' rs M ⟨h, rfl⟩; exact ⟨h, rd_ord _⟩)
    · exact (cx16Load_impl al hb po p _ rfl).impl.mono (fun _ h => h)
        (by rintro m m' rs M ⟨h, hM⟩; exact ⟨h, rdx_ord _ hM⟩)
  store := by
    rintro o w a v B (⟨al, pv, p, _, hw, ho⟩ | ⟨al, _, hb, pv, p, _, h⟩)
    · exact (store_impl al hw.le64 _ pv p _ _ rfl).mono (fun _ h => h)
        (by rintro m m' rs M ⟨h, rfl⟩; exact ⟨h, wrs_ord ho⟩)
    · exact (cx16Store_impl al hb pv p _ _ rfl).impl.mono (fun _ h => h)
        (by rintro m m' rs M ⟨h, rfl⟩; exact ⟨h, wrx_ord _⟩)
  swap := by
    rintro o w a v B (⟨al, _, po, pv, p, _, hw, hd⟩ | ⟨al, _, hb, po, pv, p, _, h, hd⟩)
    · exact (swap_impl al hw.le64 po pv p _ hd _ rfl).mono (fun _ h => h)
        (by rintro m m' rs M ⟨h, rfl⟩; exact ⟨h, rmw_ord _⟩)
    · exact (cx16Swap_impl al hb po pv p _ hd _ rfl).impl.mono (fun _ h => h)
        (by rintro m m' rs M ⟨h, rfl⟩; exact ⟨h, rmw_ord _⟩)
  cas := fun s f w a old new B hB => (cas_all64 c s f w a old new B hB).mono (fun _ h => h)
      (by rintro m m' rs M ⟨h, h'⟩; exact ⟨h.1.weak, h'⟩)
  casWeak := fun s f w a old new B hB => (cas_all64 c s f w a old new B hB).mono (fun _ h => h)
      (by rintro m m' rs M ⟨h, h'⟩; exact ⟨h.1.weak, h'⟩)
  ord := sc_ord

/-- At the end of the block only its declared outputs have changed. -/
abbrev DoneOK {W w : Nat} (B : Block W w) : Prop :=
  ∀ (c0 : Cfg W) tr c, c0.pc = 0 → B.pre c0.rs → Run .little B.code c0 tr c → c.pc = B.code.length →
    (∀ j, ¬ B.outs j → c.rs.r j = c0.rs.r j) ∧
    (B.keepsFlags = true → c.rs.z = c0.rs.z ∧ c.rs.cc = c0.rs.cc)

/-- A block that uses and restores a register. -/
theorem doneR {W w : Nat} {B : Block W w} {b : Nat} {T : Prop} {post : Mem → Mem → RS W → Mon → Prop}
    (h : ImplR B b T post) (hf : Frame .little B.code (fun j => B.outs j ∨ j = b)) (hT : T → B.outs b)
    (hk : B.keepsFlags = false) : DoneOK B := by
  intro c0 tr c h1 h2 h3 h4
  refine ⟨fun j hj => ?_, fun h => by rw [hk] at h; cases h⟩
  by_cases hjb : j = b
  · subst hjb
    exact h.restored (fun t => hj (hT t)) h1 h2 h3 h4
  · exact hf c0 tr c h3 j (by simp [hj, hjb])

/-- A block that satisfies the contract in every run satisfies it at the end. -/
theorem done_of {W w : Nat} {B : Block W w}
    (hc : Frame .little B.code B.outs ∧ (B.keepsFlags = true → KeepsFlags .little B.code)) : DoneOK B :=
  fun c0 tr c _ _ hr _ => ⟨fun j hj => hc.1 c0 tr c hr j hj, fun hk => hc.2 hk c0 tr c hr⟩

set_option maxHeartbeats 4000000 in
theorem contract32 (c : Conf32) : (backend32 c).ContractDone := by
  intro w B hB
  have hcas : ∀ {s f w a old new} {B : Block 32 w}, Cas32 c s f w a old new B → DoneOK B := by
    rintro s f w a old new B (⟨al, _, _, po, pold, pnew, p, _, _, hw, h, hd⟩ | ⟨al, _, _, hb, po, pold, pnew, p, _, _, h, hd⟩)
    · exact done_of (by contract_tac)
    · exact doneR (cx8Cas_impl al hb po pold pnew p _ _ hd _ rfl) (frame_of (by frame_tac)) (fun h => ⟨.rbx_tmp, rfl, h⟩) rfl
  cases hB with
  | load h =>
    obtain ⟨al, _, po, p, hw⟩ | ⟨al, _, po, p, h, hc, hc2⟩ | ⟨al, _, po, p, h, hc, hc2⟩ |
      ⟨al, _, hb, po, p, h, hc⟩ := h
    · exact done_of (by contract_tac)
    · exact done_of (by contract_tac)
    · exact done_of (by contract_tac)
    · exact doneR (cx8Load_impl al hb po p _ rfl) (frame_of (by frame_tac)) (fun h => ⟨.rbx_tmp, rfl, h⟩) rfl
  | store h =>
    obtain @⟨al, _, _, sc, pv, p, _, hw, ho⟩ | @⟨al, _, sc, pv, p, _, h, hc, ho⟩ | ⟨al, _, pv, p, _, h, hc⟩ := h
    · cases sc <;> exact done_of (by contract_tac)
    · obtain ⟨_, s2, _, _⟩ := c
      cases sc <;> cases s2 <;> exact done_of (by contract_tac)
    · exact done_of (by contract_tac)
  | swap h =>
    obtain ⟨al, _, po, pv, p, _, hw, hd⟩ | ⟨al, _, hb, po, pv, p, _, h, hd⟩ := h
    · exact done_of (by contract_tac)
    · exact doneR (cx8Swap_impl al hb po pv p _ hd _ rfl) (frame_of (by frame_tac)) (fun h => ⟨.rbx_tmp, rfl, h⟩) rfl
  | cas h => exact hcas h
  | casWeak h => exact hcas h

set_option maxHeartbeats 4000000 in
theorem contract64 (c : Conf64) : (backend64 c).ContractDone := by
  intro w B hB
  have hcas : ∀ {s f w a old new} {B : Block 64 w}, Cas64 c s f w a old new B → DoneOK B := by
    rintro s f w a old new B (⟨al, _, _, po, pold, pnew, p, _, _, hw, hd⟩ | ⟨al, _, _, hb, po, pold, pnew, p, _, _, h, hd⟩)
    · exact done_of (by contract_tac)
    · exact doneR (cx16Cas_impl al hb po pold pnew p _ _ hd _ rfl) (frame_of (by frame_tac)) (fun h => ⟨.rbx_tmp, rfl, h⟩) rfl
  cases hB with
  | load h =>
    obtain ⟨al, _, po, p, hw⟩ | ⟨al, _, hb, po, p, h⟩ := h
    · exact done_of (by contract_tac)
    · exact doneR (cx16Load_impl al hb po p _ rfl) (frame_of (by frame_tac)) (fun h => ⟨.rbx_tmp, rfl, h⟩) rfl
  | store h =>
    obtain @⟨al, _, _, sc, pv, p, _, hw, ho⟩ | ⟨al, _, hb, pv, p, _, h⟩ := h
    · cases sc <;> exact done_of (by contract_tac)
    · exact doneR (cx16Store_impl al hb pv p _ _ rfl) (frame_of (by frame_tac)) (fun h => ⟨.rbx_tmp, rfl, h⟩) rfl
  | swap h =>
    obtain ⟨al, _, po, pv, p, _, hw, hd⟩ | ⟨al, _, hb, po, pv, p, _, h, hd⟩ := h
    · exact done_of (by contract_tac)
    · exact doneR (cx16Swap_impl al hb po pv p _ hd _ rfl) (frame_of (by frame_tac)) (fun h => ⟨.rbx_tmp, rfl, h⟩) rfl
  | cas h => exact hcas h
  | casWeak h => exact hcas h

theorem assumes32 (c : Conf32) : (backend32 c).AssumesOK := by
  intro w B tr rs hB hr
  have hcas : ∀ {s f w a old new} {B : Block 32 w}, Cas32 c s f w a old new B →
      B.Completed .little tr rs → B.assumes rs := by
    intro s f w a old new B h hr
    obtain ⟨_, _, h⟩ := (cas_all32 c s f w a old new B h).completed hr
    exact h.1.2
  cases hB with
  | load h => rcases h with _ | _ | _ | _ <;> trivial
  | store h => rcases h with _ | _ | _ <;> trivial
  | swap h => rcases h with _ | _ <;> trivial
  | cas h => exact hcas h hr
  | casWeak h => exact hcas h hr

theorem assumes64 (c : Conf64) : (backend64 c).AssumesOK := by
  intro w B tr rs hB hr
  have hcas : ∀ {s f w a old new} {B : Block 64 w}, Cas64 c s f w a old new B →
      B.Completed .little tr rs → B.assumes rs := by
    intro s f w a old new B h hr
    obtain ⟨_, _, h⟩ := (cas_all64 c s f w a old new B h).completed hr
    exact h.1.2
  cases hB with
  | load h => rcases h with _ | _ <;> trivial
  | store h => rcases h with _ | _ <;> trivial
  | swap h => rcases h with _ | _ <;> trivial
  | cas h => exact hcas h hr
  | casWeak h => exact hcas h hr

theorem cx8Store_progress (al : Alloc cx8StoreKind) (pv p : BitVec 32) (val : BitVec 64) :
    (cx8StoreBlock al pv p val).Progress .little := by
  have key : ∀ rs m resv,
      joinHL 64 (rs.r (al .prev_hi)) (rs.r (al .val)) = load .little m (rs.r (al .dst)).toNat 64 →
      qwp .little (cx8StoreBlock al pv p val).code 5 4 rs m resv := by
    intro rs m resv h
    simp [asm, h]
  refine Block.progress_of 7 [4] (by simp [asm]) ?_
  rintro hd (_ | ⟨_, ⟨⟩⟩) rs m resv
  show qwp _ _ (5 + 2) _ _ _ _
  rcases Decidable.em (load .little m (rs.r (al .dst)).toNat 64 =
    joinHL 64 (rs.r (al .prev_hi)) (rs.r (al .val))) with h | h
  · simp [asm, h]
  generalize hk : 5 = k at key ⊢
  simp [asm, h]
  simp [asm] at key
  exact key _ _ _ (by simp [asm, h, joinHL_halves])

theorem cx8Swap_progress (al : Alloc cx8SwapKind) (b : Nat) (po pv p : BitVec 32) (val : BitVec 64) :
    (cx8SwapBlock al b po pv p val).Progress .little := by
  have key : ∀ rs m resv,
      joinHL 64 (rs.r (al .prev_hi)) (rs.r (al .val)) = load .little m (rs.r (al .dst)).toNat 64 →
      qwp .little (cx8SwapBlock al b po pv p val).code 7 5 rs m resv := by
    intro rs m resv h
    simp [asm, h]
  refine Block.progress_of 9 [5] (by simp [asm]) ?_
  rintro hd (_ | ⟨_, ⟨⟩⟩) rs m resv
  show qwp _ _ (7 + 2) _ _ _ _
  rcases Decidable.em (load .little m (rs.r (al .dst)).toNat 64 =
    joinHL 64 (rs.r (al .prev_hi)) (rs.r (al .val))) with h | h
  · simp [asm, h]
  generalize hk : 7 = k at key ⊢
  simp [asm, h]
  simp [asm] at key
  exact key _ _ _ (by simp [asm, h, joinHL_halves])

theorem cx16Store_progress (al : Alloc cx16StoreKind) (b : Nat) {P : Nat} (pv p : BitVec P) (val : BitVec 128) :
    (cx16StoreBlock al b pv p val).Progress .little := by
  have key : ∀ rs m resv,
      joinHL 128 (rs.r (al .prev_hi)) (rs.r (al .prev_lo)) = load .little m ((rs.r (al .dst)).toNat % 2 ^ P) 128 →
      qwp .little (cx16StoreBlock al b pv p val).code 6 5 rs m resv := by
    intro rs m resv h
    simp [asm, h]
  refine Block.progress_of 8 [5] (by simp [asm]) ?_
  rintro hd (_ | ⟨_, ⟨⟩⟩) rs m resv
  show qwp _ _ (6 + 2) _ _ _ _
  rcases Decidable.em (load .little m ((rs.r (al .dst)).toNat % 2 ^ P) 128 =
    joinHL 128 (rs.r (al .prev_hi)) (rs.r (al .prev_lo))) with h | h
  · simp [asm, h]
  generalize hk : 6 = k at key ⊢
  simp [asm, h]
  simp [asm] at key
  exact key _ _ _ (by simp [asm, h, joinHL_halves])

theorem cx16Swap_progress (al : Alloc cx16SwapKind) (b : Nat) {P : Nat} (po pv p : BitVec P) (val : BitVec 128) :
    (cx16SwapBlock al b po pv p val).Progress .little := by
  have key : ∀ rs m resv,
      joinHL 128 (rs.r (al .prev_hi)) (rs.r (al .prev_lo)) = load .little m ((rs.r (al .dst)).toNat % 2 ^ P) 128 →
      qwp .little (cx16SwapBlock al b po pv p val).code 7 5 rs m resv := by
    intro rs m resv h
    simp [asm, h]
  refine Block.progress_of 9 [5] (by simp [asm]) ?_
  rintro hd (_ | ⟨_, ⟨⟩⟩) rs m resv
  show qwp _ _ (7 + 2) _ _ _ _
  rcases Decidable.em (load .little m ((rs.r (al .dst)).toNat % 2 ^ P) 128 =
    joinHL 128 (rs.r (al .prev_hi)) (rs.r (al .prev_lo))) with h | h
  · simp [asm, h]
  generalize hk : 7 = k at key ⊢
  simp [asm, h]
  simp [asm] at key
  exact key _ _ _ (by simp [asm, h, joinHL_halves])

theorem progress32 (c : Conf32) : (backend32 c).ProgressOK := by
  intro w B hB
  have hcas : ∀ {s f w a old new} {B : Block 32 w}, Cas32 c s f w a old new B → B.Progress .little := by
    rintro s f w a old new B (⟨al, _, _, po, pold, pnew, p, _, _, hw, h, hd⟩ | ⟨al, _, _, hb, po, pold, pnew, p, _, _, h, hd⟩)
    · progress_straight
    · progress_straight
  cases hB with
  | load h =>
    obtain ⟨al, _, po, p, hw⟩ | ⟨al, _, po, p, h, hc, hc2⟩ | ⟨al, _, po, p, h, hc, hc2⟩ |
      ⟨al, _, hb, po, p, h, hc⟩ := h <;> progress_straight
  | store h =>
    obtain @⟨al, _, _, sc, pv, p, _, hw, ho⟩ | @⟨al, _, sc, pv, p, _, h, hc, ho⟩ | ⟨al, _, pv, p, _, h, hc⟩ := h
    · cases sc <;> progress_straight
    · obtain ⟨_, s2, _, _⟩ := c
      cases sc <;> cases s2 <;> progress_straight
    · exact cx8Store_progress al pv p _
  | swap h =>
    obtain ⟨al, _, po, pv, p, _, hw, hd⟩ | ⟨al, _, hb, po, pv, p, _, h, hd⟩ := h
    · progress_straight
    · exact cx8Swap_progress al _ po pv p _
  | cas h => exact hcas h
  | casWeak h => exact hcas h

theorem progress64 (c : Conf64) : (backend64 c).ProgressOK := by
  intro w B hB
  have hcas : ∀ {s f w a old new} {B : Block 64 w}, Cas64 c s f w a old new B → B.Progress .little := by
    rintro s f w a old new B (⟨al, _, _, po, pold, pnew, p, _, _, hw, hd⟩ | ⟨al, _, _, hb, po, pold, pnew, p, _, _, h, hd⟩)
    · progress_straight
    · progress_straight
  cases hB with
  | load h => obtain ⟨al, _, po, p, hw⟩ | ⟨al, _, hb, po, p, h⟩ := h <;> progress_straight
  | store h =>
    obtain @⟨al, _, _, sc, pv, p, _, hw, ho⟩ | ⟨al, _, hb, pv, p, _, h⟩ := h
    · cases sc <;> progress_straight
    · exact cx16Store_progress al _ pv p _
  | swap h =>
    obtain ⟨al, _, po, pv, p, _, hw, hd⟩ | ⟨al, _, hb, po, pv, p, _, h, hd⟩ := h
    · progress_straight
    · exact cx16Swap_progress al _ po pv p _
  | cas h => exact hcas h
  | casWeak h => exact hcas h

/-- Object sizes of the 32-bit back end: 64 bits need cmpxchg8b. -/
def Size32 (c : Conf32) (w : Nat) : Prop := Size 32 w ∨ (w = 64 ∧ c.noCmpxchg8b = false)
/-- Object sizes with compare_exchange on the 32-bit back end. -/
def CasSize32 (c : Conf32) (w : Nat) : Prop := Size32 c w ∧ c.noCmpxchg = false

theorem total32 (c : Conf32) : (backend32 c).Total 32 (Size32 c) (CasSize32 c) where
  load o w p hw _ ho := by
    rcases hw with hw | ⟨rfl, h⟩
    · exact ⟨_, .word (Alloc.std _) o 0#32 p hw⟩
    · cases hs : c.sse
      · exact ⟨_, .cx8 (Alloc.std _) o (rbx_std _) 0#32 p h hs⟩
      · cases h2 : c.sse2
        · exact ⟨_, .sse (Alloc.std _) o 0#32 p h hs h2⟩
        · exact ⟨_, .sse2 (Alloc.std _) o 0#32 p h hs h2⟩
  store o w p v hw _ ho := by
    obtain ⟨sc, hsc⟩ : ∃ sc, storeArm o = some sc := by
      cases o <;> first | exact ⟨_, rfl⟩ | cases ho
    rcases hw with hw | ⟨rfl, h⟩
    · exact ⟨_, .word (Alloc.std _) 0#32 p v hw hsc⟩
    · cases hs : c.sse
      · exact ⟨_, .cx8 (Alloc.std _) o 0#32 p v h hs⟩
      · exact ⟨_, .sse (Alloc.std _) 0#32 p v h hs hsc⟩
  swap o w p v hw _ := by
    rcases hw with ⟨hw | ⟨rfl, h⟩, _⟩
    · exact ⟨_, .word (Alloc.std _) o 0#32 1#32 p v hw (by decide)⟩
    · exact ⟨_, .cx8 (Alloc.std _) o (rbx_std _) 0#32 1#32 p v h (by decide)⟩
  cas s f w p old new hw _ hv := by
    rcases hw with ⟨hw | ⟨rfl, h⟩, hc⟩
    · exact ⟨_, .word (Alloc.std _) s f 0#32 1#32 2#32 p old new hw hc (by decide)⟩
    · exact ⟨_, .cx8 (Alloc.std _) s f (rbx_std _) 0#32 1#32 2#32 p old new h (by decide)⟩
  casWeak s f w p old new hw _ hv := by
    rcases hw with ⟨hw | ⟨rfl, h⟩, hc⟩
    · exact ⟨_, .word (Alloc.std _) s f 0#32 1#32 2#32 p old new hw hc (by decide)⟩
    · exact ⟨_, .cx8 (Alloc.std _) s f (rbx_std _) 0#32 1#32 2#32 p old new h (by decide)⟩

/-- swap is available on every x86, also without cmpxchg -/
theorem swapTotal32 (c : Conf32) : ∀ o w (p : BitVec 32) v, Size32 c w → p.toNat % (w / 8) = 0 →
    ∃ B, (backend32 c).Swap o w p.toNat v B := by
  intro o w p v hw _
  rcases hw with hw | ⟨rfl, h⟩
  · exact ⟨_, .word (Alloc.std _) o 0#32 1#32 p v hw (by decide)⟩
  · exact ⟨_, .cx8 (Alloc.std _) o (rbx_std _) 0#32 1#32 p v h (by decide)⟩

theorem total64 (c : Conf64) : (backend64 c).Total c.P (Size64 c) (Size64 c) := by
  have hP : 32 ≤ c.P := by rcases c.hP with h | h <;> omega
  have hd := buffers hP
  exact {
    load := fun o w p hw _ ho => by
      rcases hw with hw | ⟨rfl, h⟩
      · exact ⟨_, .word (Alloc.std _) o 0 p hw⟩
      · exact ⟨_, .cx16 (Alloc.std _) o (rbx_std _) 0 p h⟩
    store := fun o w p v hw _ ho => by
      obtain ⟨sc, hsc⟩ : ∃ sc, storeArm o = some sc := by
        cases o <;> first | exact ⟨_, rfl⟩ | cases ho
      rcases hw with hw | ⟨rfl, h⟩
      · exact ⟨_, .word (Alloc.std _) 0 p v hw hsc⟩
      · exact ⟨_, .cx16 (Alloc.std _) o (rbx_std _) 0 p v h⟩
    swap := fun o w p v hw _ => by
      rcases hw with hw | ⟨rfl, h⟩
      · exact ⟨_, .word (Alloc.std _) o _ _ p v hw hd.1⟩
      · exact ⟨_, .cx16 (Alloc.std _) o (rbx_std _) _ _ p v h hd.1⟩
    cas := fun s f w p old new hw _ hv => by
      rcases hw with hw | ⟨rfl, h⟩
      · exact ⟨_, .word (Alloc.std _) s f _ _ _ p old new hw hd.2⟩
      · exact ⟨_, .cx16 (Alloc.std _) s f (rbx_std _) _ _ _ p old new h hd.2⟩
    casWeak := fun s f w p old new hw _ hv => by
      rcases hw with hw | ⟨rfl, h⟩
      · exact ⟨_, .word (Alloc.std _) s f _ _ _ p old new hw hd.2⟩
      · exact ⟨_, .cx16 (Alloc.std _) s f (rbx_std _) _ _ _ p old new h hd.2⟩ }

/-! ### The properties -/

section Properties32
variable (c : Conf32)
theorem C01_legacy_x86 : (backend32 c).LoadsAtomic := (good32 c).loadsAtomic
theorem C02_legacy_x86 : (backend32 c).StoresAtomic := (good32 c).storesAtomic
theorem C03_legacy_x86 : (backend32 c).SwapsAtomic := (good32 c).swapsAtomic
theorem C04_legacy_x86 : (backend32 c).CasAtomic := fun s f w a old new B hB =>
  (cas_all32 c s f w a old new B hB).atomic fun _ _ _ _ h => h.1.1
theorem C05_legacy_x86 : (backend32 c).WeakCasAtomic := (good32 c).weakCasAtomic
theorem C06_legacy_x86 : (backend32 c).NeighboursOK := (good32 c).neighbours
theorem C11_legacy_x86 : (backend32 c).Total 32 (Size32 c) (CasSize32 c) := total32 c
theorem C11_legacy_x86_swap : ∀ o w (p : BitVec 32) v, Size32 c w → p.toNat % (w / 8) = 0 →
    ∃ B, (backend32 c).Swap o w p.toNat v B := swapTotal32 c
theorem C13_legacy_x86 : (backend32 c).AcquireOK := (good32 c).acquireOK
theorem C14_legacy_x86 : (backend32 c).ReleaseOK := (good32 c).releaseOK
theorem C15_legacy_x86 : (backend32 c).SeqCstOK := (good32 c).seqCstOK
theorem C16_legacy_x86 : (backend32 c).FailureOK := (good32 c).failureOK
theorem C17_legacy_x86 : (backend32 c).ContractDone := contract32 c
theorem C19_legacy_x86 : (backend32 c).AssumesOK := assumes32 c
theorem C20_legacy_x86 : (backend32 c).ProgressOK := progress32 c
end Properties32

section Properties64
variable (c : Conf64)
theorem C01_legacy_x86_64 : (backend64 c).LoadsAtomic := (good64 c).loadsAtomic
theorem C02_legacy_x86_64 : (backend64 c).StoresAtomic := (good64 c).storesAtomic
theorem C03_legacy_x86_64 : (backend64 c).SwapsAtomic := (good64 c).swapsAtomic
theorem C04_legacy_x86_64 : (backend64 c).CasAtomic := fun s f w a old new B hB =>
  (cas_all64 c s f w a old new B hB).atomic fun _ _ _ _ h => h.1.1
theorem C05_legacy_x86_64 : (backend64 c).WeakCasAtomic := (good64 c).weakCasAtomic
theorem C06_legacy_x86_64 : (backend64 c).NeighboursOK := (good64 c).neighbours
theorem C11_legacy_x86_64 : (backend64 c).Total c.P (Size64 c) (Size64 c) := total64 c
theorem C13_legacy_x86_64 : (backend64 c).AcquireOK := (good64 c).acquireOK
theorem C14_legacy_x86_64 : (backend64 c).ReleaseOK := (good64 c).releaseOK
theorem C15_legacy_x86_64 : (backend64 c).SeqCstOK := (good64 c).seqCstOK
theorem C16_legacy_x86_64 : (backend64 c).FailureOK := (good64 c).failureOK
theorem C17_legacy_x86_64 : (backend64 c).ContractDone := contract64 c
theorem C19_legacy_x86_64 : (backend64 c).AssumesOK := assumes64 c
theorem C20_legacy_x86_64 : (backend64 c).ProgressOK := progress64 c
end Properties64

/-! ### `cl` in word-sized compare_exchange

l.194 and l.196 load `new` into `$tmp_new_reg`, which is cl, cx, ecx or rcx; the only declared output there is
`out("cl")` (l.208). Only the 8-bit operation stays inside `cl`. -/

/-- a write of 8 bits leaves the other bits of the register -/
theorem part8_high {W : Nat} (x : BitVec 8) (r : BitVec W) : part x r >>> 8 = r >>> 8 := by
  apply BitVec.eq_of_getLsbD_eq
  intro i hi
  simp [part, BitVec.getLsbD_or, BitVec.getLsbD_shiftLeft, BitVec.getLsbD_ushiftRight]
  intro h
  exact BitVec.lt_of_getLsbD h

/-- The 8-bit compare_exchange changes no bit of rcx outside `cl`. -/
theorem C17_legacy_x86_cl {W P : Nat} (al : Alloc casKind) (po pold pnew p : BitVec P) (old new : BitVec 8) :
    ∀ (c0 : Cfg W) tr c, c0.pc = 0 → (casBlock (W := W) al 8 po pold pnew p old new).pre c0.rs →
      Run .little (casBlock (W := W) al 8 po pold pnew p old new).code c0 tr c →
      c.pc = (casBlock (W := W) al 8 po pold pnew p old new).code.length →
      c.rs.r (al .r) >>> 8 = c0.rs.r (al .r) >>> 8 := by
  intro c0 tr c h1 h2 h3 h4
  have key : ∀ v : BitVec W, Implements .little (casBlock (W := W) al 8 po pold pnew p old new).code
      (fun rs => rs.r (al .r) >>> 8 = v) (fun _ _ rs _ => rs.r (al .r) >>> 8 = v) := by
    intro v
    refine implements_straight 30 ?_
    rintro rs m h
    simp [asm, part8_high, h]
  obtain ⟨_, _, _, _, _, _, _, hp⟩ := (key _).run h1 rfl h3 h4
  exact hp

/-- The operation in the counterexample: `compare_exchange(0, 0x100)` on 16 bits at address 0x1000. -/
def cxBlock : Block 32 16 := casBlock (Alloc.std casKind) 16 0#32 1#32 2#32 0x1000#32 0#16 0x100#16
/-- Its registers at entry; rcx is 0. -/
def cxRegs : RS 32 := ⟨fun i => if i = (Alloc.std casKind) .dst then 0x1000#32 else
  if i = (Alloc.std casKind) .old then 1#32 else if i = (Alloc.std casKind) .new then 2#32 else
  if i = (Alloc.std casKind) .x2 then 0x100#32 else 0#32, false, 0⟩

/-- Finding: the 16-bit compare_exchange can change bits of rcx outside its declared output `cl` (here: `ch`). -/
theorem C17_legacy_x86_cx_undeclared : (backend32 ⟨true, true, false, false⟩).Cas .seqCst .seqCst 16 0x1000 0#16 0x100#16 cxBlock ∧
    ∃ (c0 : Cfg 32) (tr : List TEv) (c : Cfg 32), c0.pc = 0 ∧ cxBlock.pre c0.rs ∧ Run .little cxBlock.code c0 tr c ∧
      c.pc = cxBlock.code.length ∧
      c.rs.r ((Alloc.std casKind) .r) >>> 8 ≠ c0.rs.r ((Alloc.std casKind) .r) >>> 8 := by
  refine ⟨Cas32.word (c := ⟨true, true, false, false⟩) (Alloc.std casKind) .seqCst .seqCst 0#32 1#32 2#32 (0x1000#32)
    0#16 0x100#16 (.inl (.inr rfl)) rfl (by decide), ?_⟩
  have hp : cxBlock.pre cxRegs := by
    intro x hx
    simp only [cxBlock, casBlock, List.mem_cons, List.not_mem_nil, or_false] at hx
    rcases hx with rfl | rfl | rfl | rfl | rfl | rfl <;> simp [cxRegs, Alloc.std] <;> decide
  have hprog : cxBlock.Progress .little := by unfold cxBlock; progress_straight
  obtain ⟨N, -, hN⟩ := hprog
  obtain ⟨tr, c, h1, h2⟩ := (hN ⟨0, cxRegs, fun _ => 0, none⟩ [] _ rfl hp .nil).exists_run .nil
  refine ⟨_, tr, c, rfl, hp, h1, h2, ?_⟩
  have key : Implements .little cxBlock.code cxBlock.pre
      (fun _ _ rs _ => rs.r ((Alloc.std casKind) .r) >>> 8 &&& 1#32 = 1#32) := by
    unfold cxBlock
    refine implements_straight 30 ?_
    rintro rs m h
    simp [asm] at h
    have hh : ∀ (b : BitVec 8) (x : BitVec 32), part b (part 0x100#16 x) >>> 8 &&& 1#32 = 1#32 := by
      intro b x
      apply BitVec.eq_of_getLsbD_eq
      intro i hi
      have : i = 0 ∨ i ≠ 0 := by omega
      rcases this with rfl | hi
      · simp [part, BitVec.getLsbD_or, BitVec.getLsbD_shiftLeft, BitVec.getLsbD_ushiftRight]
      · simp [part, hi]
    simp [asm, h, readCell, hh]
  obtain ⟨_, _, _, _, _, _, _, hk⟩ := key.run rfl hp h1 h2
  intro heq
  rw [heq] at hk
  revert hk
  decide

/-! ### The hypotheses are satisfiable: concrete blocks with completed runs -/

example : ∃ B tr rs, (backend32 ⟨false, false, false, false⟩).Swap .seqCst 64 0x1008 (-3) B ∧
    B.Completed .little tr rs := by
  have hB := Swap32.cx8 (c := ⟨false, false, false, false⟩) (Alloc.std _) .seqCst (rbx_std _)
    (0x7f00#32) (0x7f10#32) (0x1008#32) (-3) rfl (by decide)
  obtain ⟨tr, rs, h⟩ := (progress32 _ _ (Backend.IsBlock.swap hB)).completed'
    (by simp [cx8SwapBlock]) (by simp [cx8SwapBlock])
  exact ⟨_, tr, rs, hB, h⟩

example : ∃ B tr rs, (backend64 ⟨32, .inl rfl, true⟩).Cas .seqCst .seqCst 128 0x1010 3 4 B ∧
    B.Completed .little tr rs := by
  have hB := Cas64.cx16 (c := ⟨32, .inl rfl, true⟩) (Alloc.std _) .seqCst .seqCst (rbx_std _) (0x7f00#32) (0x7f10#32)
    (0x7f20#32) (0x1010#32) 3 4 rfl (by decide)
  obtain ⟨tr, rs, h⟩ := (progress64 _ _ (Backend.IsBlock.cas hB)).completed'
    (by simp [cx16CasBlock]) (by simp [cx16CasBlock])
  exact ⟨_, tr, rs, hB, h⟩

end Verif.LegacyX86
