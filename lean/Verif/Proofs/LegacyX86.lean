import Verif.Arch.LegacyX86
import Verif.Proofs.X86
set_option linter.unusedSimpArgs false
set_option maxRecDepth 4000
namespace Verif.LegacyX86
open X86 (locked part Rbx rdMon wrMon wrFMon rmwMon failMon part_low part_eq)
variable {W : Nat}

theorem join_hl32 (lo hi : BitVec 32) : join01 .little 64 lo hi = joinHL 64 hi lo := by
  rw [← ofPair_num (e := .little) (by decide) (by decide), show (Endian.little == Endian.little) = true from rfl,
    ofPair_true (by decide) (by decide)]
theorem join_hl64 (lo hi : BitVec 64) : join01 .little 128 lo hi = joinHL 128 hi lo := by
  rw [← ofPair_num (e := .little) (by decide) (by decide), show (Endian.little == Endian.little) = true from rfl,
    ofPair_true (by decide) (by decide)]
theorem word0_32 (x : BitVec 64) : word0 .little 32 x = lowHalf 32 x :=
  (lowHalf_eq (e := .little) (by decide) (by decide) x).symm
theorem word1_32 (x : BitVec 64) : word1 .little 32 x = highHalf 32 x :=
  (highHalf_eq (e := .little) (by decide) (by decide) x).symm
theorem word0_64 (x : BitVec 128) : word0 .little 64 x = lowHalf 64 x :=
  (lowHalf_eq (e := .little) (by decide) (by decide) x).symm
theorem word1_64 (x : BitVec 128) : word1 .little 64 x = highHalf 64 x :=
  (highHalf_eq (e := .little) (by decide) (by decide) x).symm

theorem load_impl (al : Alloc loadKind) {w P : Nat} (hw : w ≤ W) (po p : BitVec P) (B : Block W w)
    (hB : B = loadBlock al w po p) :
    Implements .little B.code B.pre (fun m m' rs M => LoadSpec .little p.toNat w m m' (B.out rs) ∧ M = rdMon) := by
  subst hB
  refine implements_straight 30 ?_
  intro rs m h
  simp [asm] at h
  simp [asm, h, LoadSpec, part_low hw]

theorem store_impl (al : Alloc storeKind) {w P : Nat} (hw : w ≤ W) (sc : Bool) (pv p : BitVec P) (val : BitVec w)
    (B : Block W w) (hB : B = storeBlock al w sc pv p val) :
    Implements .little B.code B.pre
      (fun m m' _ M => StoreSpec .little p.toNat w val m m' ∧ M = if sc then rmwMon else wrMon) := by
  subst hB
  cases sc <;>
  · refine implements_straight 30 ?_
    intro rs m h
    simp [asm] at h
    simp [asm, h, StoreSpec, part_low hw]

theorem swap_impl (al : Alloc swapKind) {w P : Nat} (hw : w ≤ W) (po pv p : BitVec P) (val : BitVec w) (hd : pv ≠ po)
    (B : Block W w) (hB : B = swapBlock al w po pv p val) :
    Implements .little B.code B.pre
      (fun m m' rs M => SwapSpec .little p.toNat w val m m' (B.out rs) ∧ M = rmwMon) := by
  subst hB
  refine implements_straight 30 ?_
  intro rs m h
  simp [asm] at h
  simp [asm, h, readCell_miss hd, SwapSpec, part_low hw]

theorem cas_impl (al : Alloc casKind) {w P : Nat} (hW : 8 ≤ W) (hw : w ≤ W) (po pold pnew p : BitVec P)
    (old new : BitVec w) (hd : Distinct po pold pnew) (B : Block W w) (hB : B = casBlock al w po pold pnew p old new) :
    Implements .little B.code B.pre
      (fun m m' rs M => (CasSpec .little p.toNat w old new m m' (B.out rs) (B.ok rs) ∧ B.assumes rs) ∧
        M = if B.ok rs then rmwMon else failMon) := by
  subst hB
  refine implements_straight 30 ?_
  rintro rs m h
  simp [asm] at h
  simp [asm, CasSpec, readCell_miss hd.1, readCell_miss hd.2.1, readCell_miss hd.2.2, part_low hw, part_low hW, h]
  intro m
  by_cases h : load .little m p.toNat w = old
  · simp [h, part_low hW, part_low hw]
  · simp [h, part_low hW, part_low hw]

theorem sse2Load_impl (al : Alloc sse2LoadKind) (po p : BitVec 32) (B : Block 32 64) (hB : B = sse2LoadBlock al po p) :
    Implements .little B.code B.pre (fun m m' rs M => LoadSpec .little p.toNat 64 m m' (B.out rs) ∧ M = rdMon) := by
  subst hB
  refine implements_straight 30 ?_
  intro rs m h
  simp [asm] at h
  simp [asm, h, LoadSpec, join_hl32, joinHL_halves]

theorem sseLoad_impl (al : Alloc sseLoadKind) (po p : BitVec 32) (B : Block 32 64) (hB : B = sseLoadBlock al po p) :
    Implements .little B.code B.pre (fun m m' rs M => LoadSpec .little p.toNat 64 m m' (B.out rs) ∧ M = rdMon) := by
  subst hB
  refine implements_straight 30 ?_
  intro rs m h
  simp [asm] at h
  simp [asm, h, LoadSpec, join_hl32, joinHL_halves]

theorem sseStore_impl (al : Alloc sseStoreKind) (sse2 sc : Bool) (pv p : BitVec 32) (val : BitVec 64) (B : Block 32 64)
    (hB : B = sseStoreBlock al sse2 sc pv p val) :
    Implements .little B.code B.pre
      (fun m m' _ M => StoreSpec .little p.toNat 64 val m m' ∧ M = if sc then wrFMon else wrMon) := by
  subst hB
  cases sc <;> cases sse2 <;>
  · refine implements_straight 30 ?_
    intro rs m h
    simp [asm, word0_32, word1_32] at h
    simp [asm, h, StoreSpec, joinHL_halves]

theorem cx8Store_impl (al : Alloc cx8StoreKind) (pv p : BitVec 32) (val : BitVec 64) (B : Block 32 64)
    (hB : B = cx8StoreBlock al pv p val) :
    Implements .little B.code B.pre
      (fun m m' _ M => StoreSpec .little p.toNat 64 val m m' ∧ M = rmwMon) := by
  subst hB
  refine implements_loop 4 (fun rs g => (rs.r (al .dst) = p ∧
      joinHL 64 (rs.r (al .val_hi)) (rs.r (al .val_lo)) = val) ∧
      g.Clean ∧ g.mon.onRd locked = failMon) 40 ?_ ?_
  · rintro rs g ⟨⟨rfl, rfl⟩, hc, hm⟩
    simp [asm, hc, hm, StoreSpec]
    intro m
    by_cases h : load .little m (rs.r (al .dst)).toNat 64 = joinHL 64 (rs.r (al .prev_hi)) (rs.r (al .val)) <;>
      simp [h]
  · rintro rs m h
    simp [asm, word0_32, word1_32] at h
    simp [asm, h, joinHL_halves]

/-! ### Blocks that use a register which they do not declare -/

/-- As `Implements` for the block, together with: register `b` has its old content in the end. -/
abbrev ImplR {w : Nat} (B : Block W w) (b : Nat) (isTmp : Prop) (post : Mem → Mem → RS W → Mon → Prop) : Prop :=
  ∀ v, Implements .little B.code (fun rs => B.pre rs ∧ rs.r b = v)
    (fun m m' rs M => post m m' rs M ∧ (¬ isTmp → rs.r b = v))

theorem ImplR.impl {w : Nat} {B : Block W w} {b : Nat} {T : Prop} {post : Mem → Mem → RS W → Mon → Prop}
    (h : ImplR B b T post) : Implements .little B.code B.pre post := fun c0 tr c h1 h2 h3 h4 =>
  (h (c0.rs.r b)).mono (fun _ h => h) (fun _ _ _ _ h => h.1) c0 tr c h1 ⟨h2, rfl⟩ h3 h4

/-- The register is restored. -/
theorem ImplR.restored {w : Nat} {B : Block W w} {b : Nat} {T : Prop} {post : Mem → Mem → RS W → Mon → Prop}
    (h : ImplR B b T post) (hT : ¬ T) {c0 c : Cfg W} {tr : List TEv} (h1 : c0.pc = 0) (h2 : B.pre c0.rs)
    (h3 : Run .little B.code c0 tr c) (h4 : c.pc = B.code.length) : c.rs.r b = c0.rs.r b := by
  obtain ⟨_, _, _, _, _, _, _, hp⟩ := (h (c0.rs.r b)).run h1 ⟨h2, rfl⟩ h3 h4
  exact hp.2 hT

theorem cx8Load_impl (al : Alloc cx8LoadKind) {b : Nat} (hb : Rbx al b) (po p : BitVec 32) (B : Block 32 64)
    (hB : B = cx8LoadBlock al b po p) :
    ImplR B b (al .rbx_tmp = b)
      (fun m m' rs M => LoadSpec .little p.toNat 64 m m' (B.out rs) ∧ (M = rmwMon ∨ M = failMon)) := by
  subst hB
  intro v
  refine implements_straight 30 ?_
  rintro rs m ⟨h, hv⟩
  simp [asm] at h
  by_cases ht : b = al .rbx_tmp
  · subst ht
    simp [asm, h, hv, LoadSpec, join_hl32, joinHL_halves]
    intro m
    by_cases h : load .little m p.toNat 64 = joinHL 64 0#32 0#32
    · simp [h]
      rw [← h, store_load (by decide)]
    · simp [h, joinHL_halves]
  · simp [asm, h, hv, LoadSpec, join_hl32, joinHL_halves, ht, Ne.symm ht, hb.neq, hb.neq']
    intro m
    by_cases h : load .little m p.toNat 64 = joinHL 64 0#32 0#32
    · simp [h]
      rw [← h, store_load (by decide)]
    · simp [h, joinHL_halves]

theorem cx8Swap_impl (al : Alloc cx8SwapKind) {b : Nat} (hb : Rbx al b) (po pv p : BitVec 32) (val : BitVec 64)
    (hd : pv ≠ po) (B : Block 32 64) (hB : B = cx8SwapBlock al b po pv p val) :
    ImplR B b (al .rbx_tmp = b)
      (fun m m' rs M => SwapSpec .little p.toNat 64 val m m' (B.out rs) ∧ M = rmwMon) := by
  subst hB
  intro v
  refine implements_loop 5 (fun rs g => (rs.r (al .dst) = p ∧
      joinHL 64 (rs.r (al .val_hi)) (rs.r (al .val_lo)) = val ∧ rs.r b = po ∧
      (al .rbx_tmp ≠ b → rs.r (al .rbx_tmp) = v)) ∧
      g.Clean ∧ g.mon.onRd locked = failMon) 40 ?_ ?_
  · rintro rs g ⟨⟨hp, rfl, hpo, ht⟩, hc, hm⟩
    by_cases hbt : b = al .rbx_tmp
    · subst hbt
      simp [asm, hc, hm, SwapSpec, join_hl32, hp, hpo]
      intro m
      by_cases h : load .little m p.toNat 64 = joinHL 64 (rs.r (al .prev_hi)) (rs.r (al .val)) <;>
        simp [h, hp, hpo]
    · simp [asm, hc, hm, SwapSpec, join_hl32, hbt, Ne.symm hbt, hb.neq, hb.neq', ht, hp, hpo]
      intro m
      by_cases h : load .little m p.toNat 64 = joinHL 64 (rs.r (al .prev_hi)) (rs.r (al .val)) <;>
        simp [h, ht, Ne.symm hbt]
  · rintro rs m ⟨h, hv⟩
    simp [asm, word0_32, word1_32] at h
    by_cases hbt : b = al .rbx_tmp
    · subst hbt
      simp [asm, h, readCell2_miss hd, joinHL_halves]
    · simp [asm, h, hv, readCell2_miss hd, joinHL_halves, hbt, Ne.symm hbt, hb.neq, hb.neq']

theorem cx8Cas_impl (al : Alloc cx8CasKind) {b : Nat} (hb : Rbx al b) (po pold pnew p : BitVec 32)
    (old new : BitVec 64) (hd : Distinct po pold pnew) (B : Block 32 64)
    (hB : B = cx8CasBlock al b po pold pnew p old new) :
    ImplR B b (al .rbx_tmp = b)
      (fun m m' rs M => (CasSpec .little p.toNat 64 old new m m' (B.out rs) (B.ok rs) ∧ B.assumes rs) ∧
        M = if B.ok rs then rmwMon else failMon) := by
  subst hB
  intro v
  refine implements_straight 30 ?_
  rintro rs m ⟨h, hv⟩
  simp [asm, word0_32, word1_32] at h
  by_cases hbt : b = al .rbx_tmp
  · subst hbt
    simp [asm, h, readCell2_miss hd.1, readCell2_miss hd.2.1, readCell2_miss hd.2.2, CasSpec, join_hl32,
      joinHL_halves, part_low (show 8 ≤ 32 by decide)]
    intro m
    by_cases h : load .little m p.toNat 64 = old <;>
      simp [h, joinHL_halves, part_low (show 8 ≤ 32 by decide)]
  · simp [asm, h, hv, readCell2_miss hd.1, readCell2_miss hd.2.1, readCell2_miss hd.2.2, CasSpec, join_hl32,
      joinHL_halves, part_low (show 8 ≤ 32 by decide), hbt, Ne.symm hbt, hb.neq, hb.neq']
    intro m
    by_cases h : load .little m p.toNat 64 = old <;>
      simp [h, joinHL_halves, part_low (show 8 ≤ 32 by decide)]

theorem cx16Load_impl (al : Alloc cx16LoadKind) {b P : Nat} (hb : Rbx al b) (po p : BitVec P)
    (B : Block 64 128) (hB : B = cx16LoadBlock al b po p) :
    ImplR B b (al .rbx_tmp = b)
      (fun m m' rs M => LoadSpec .little p.toNat 128 m m' (B.out rs) ∧ (M = rmwMon ∨ M = failMon)) := by
  subst hB
  intro v
  refine implements_straight 30 ?_
  rintro rs m ⟨h, hv⟩
  simp [asm] at h
  by_cases ht : b = al .rbx_tmp
  · subst ht
    simp [asm, h, hv, LoadSpec, join_hl64, joinHL_halves]
    intro m
    by_cases h : load .little m p.toNat 128 = joinHL 128 0#64 0#64
    · simp [h]
      rw [← h, store_load (by decide)]
    · simp [h, joinHL_halves]
  · simp [asm, h, hv, LoadSpec, join_hl64, joinHL_halves, ht, Ne.symm ht, hb.neq, hb.neq']
    intro m
    by_cases h : load .little m p.toNat 128 = joinHL 128 0#64 0#64
    · simp [h]
      rw [← h, store_load (by decide)]
    · simp [h, joinHL_halves]

theorem cx16Store_impl (al : Alloc cx16StoreKind) {b P : Nat} (hb : Rbx al b) (pv p : BitVec P) (val : BitVec 128)
    (B : Block 64 128) (hB : B = cx16StoreBlock al b pv p val) :
    ImplR B b (al .rbx_tmp = b)
      (fun m m' _ M => StoreSpec .little p.toNat 128 val m m' ∧ M = rmwMon) := by
  subst hB
  intro v
  refine implements_loop 5 (fun rs g => ((rs.r (al .dst)).setWidth P = p ∧
      joinHL 128 (rs.r (al .val_hi)) (rs.r b) = val ∧ (al .rbx_tmp ≠ b → rs.r (al .rbx_tmp) = v)) ∧
      g.Clean ∧ g.mon.onRd locked = failMon) 40 ?_ ?_
  · rintro rs g ⟨⟨hp, rfl, ht⟩, hc, hm⟩
    by_cases hbt : b = al .rbx_tmp
    · subst hbt
      simp [asm, hc, hm, StoreSpec, hp]
      intro m
      by_cases h : load .little m p.toNat 128 = joinHL 128 (rs.r (al .prev_hi)) (rs.r (al .prev_lo)) <;>
        simp [h, hp]
    · simp [asm, hc, hm, StoreSpec, hbt, Ne.symm hbt, hb.neq, hb.neq', ht, hp]
      intro m
      by_cases h : load .little m p.toNat 128 = joinHL 128 (rs.r (al .prev_hi)) (rs.r (al .prev_lo)) <;>
        simp [h, ht, Ne.symm hbt]
  · rintro rs m ⟨h, hv⟩
    simp [asm, word0_64, word1_64] at h
    by_cases hbt : b = al .rbx_tmp
    · subst hbt
      simp [asm, h, joinHL_halves]
    · simp [asm, h, hv, joinHL_halves, hbt, Ne.symm hbt, hb.neq, hb.neq']

theorem cx16Swap_impl (al : Alloc cx16SwapKind) {b P : Nat} (hb : Rbx al b) (po pv p : BitVec P) (val : BitVec 128)
    (hd : pv ≠ po) (B : Block 64 128) (hB : B = cx16SwapBlock al b po pv p val) :
    ImplR B b (al .rbx_tmp = b)
      (fun m m' rs M => SwapSpec .little p.toNat 128 val m m' (B.out rs) ∧ M = rmwMon) := by
  subst hB
  intro v
  refine implements_loop 5 (fun rs g => ((rs.r (al .dst)).setWidth P = p ∧ (rs.r (al .out)).setWidth P = po ∧
      joinHL 128 (rs.r (al .val_hi)) (rs.r b) = val ∧ (al .rbx_tmp ≠ b → rs.r (al .rbx_tmp) = v)) ∧
      g.Clean ∧ g.mon.onRd locked = failMon) 40 ?_ ?_
  · rintro rs g ⟨⟨hp, hpo, rfl, ht⟩, hc, hm⟩
    by_cases hbt : b = al .rbx_tmp
    · subst hbt
      simp [asm, hc, hm, SwapSpec, join_hl64, hp, hpo]
      intro m
      by_cases h : load .little m p.toNat 128 = joinHL 128 (rs.r (al .prev_hi)) (rs.r (al .prev_lo)) <;>
        simp [h, hp, hpo]
    · simp [asm, hc, hm, SwapSpec, join_hl64, hbt, Ne.symm hbt, hb.neq, hb.neq', ht, hp, hpo]
      intro m
      by_cases h : load .little m p.toNat 128 = joinHL 128 (rs.r (al .prev_hi)) (rs.r (al .prev_lo)) <;>
        simp [h, ht, Ne.symm hbt]
  · rintro rs m ⟨h, hv⟩
    simp [asm, word0_64, word1_64] at h
    by_cases hbt : b = al .rbx_tmp
    · subst hbt
      simp [asm, h, readCell2_miss hd, joinHL_halves]
    · simp [asm, h, hv, readCell2_miss hd, joinHL_halves, hbt, Ne.symm hbt, hb.neq, hb.neq']

theorem cx16Cas_impl (al : Alloc cx16CasKind) {b P : Nat} (hb : Rbx al b) (po pold pnew p : BitVec P)
    (old new : BitVec 128) (hd : Distinct po pold pnew) (B : Block 64 128)
    (hB : B = cx16CasBlock al b po pold pnew p old new) :
    ImplR B b (al .rbx_tmp = b)
      (fun m m' rs M => (CasSpec .little p.toNat 128 old new m m' (B.out rs) (B.ok rs) ∧ B.assumes rs) ∧
        M = if B.ok rs then rmwMon else failMon) := by
  subst hB
  intro v
  refine implements_straight 30 ?_
  rintro rs m ⟨h, hv⟩
  simp [asm, word0_64, word1_64] at h
  by_cases hbt : b = al .rbx_tmp
  · subst hbt
    simp [asm, h, readCell2_miss hd.1, readCell2_miss hd.2.1, readCell2_miss hd.2.2, CasSpec, join_hl64,
      joinHL_halves, part_low (show 8 ≤ 64 by decide)]
    intro m
    by_cases h : load .little m p.toNat 128 = old <;>
      simp [h, joinHL_halves, part_low (show 8 ≤ 64 by decide)]
  · simp [asm, h, hv, readCell2_miss hd.1, readCell2_miss hd.2.1, readCell2_miss hd.2.2, CasSpec, join_hl64,
      joinHL_halves, part_low (show 8 ≤ 64 by decide), hbt, Ne.symm hbt, hb.neq, hb.neq']
    intro m
    by_cases h : load .little m p.toNat 128 = old <;>
      simp [h, joinHL_halves, part_low (show 8 ≤ 64 by decide)]

end Verif.LegacyX86
