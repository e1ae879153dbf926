import Verif.Arch.Sparc
import Verif.Core.BackendLemmas
set_option linter.unusedSimpArgs false
set_option maxRecDepth 4000
namespace Verif.Sparc
variable {W : Nat}

/-- monitor of a load -/
abbrev ldMon (f : Pairs × Pairs) : Mon := ((({} : Mon).onFence f.2).onRd .plain).onFence f.1
/-- monitor of a store -/
abbrev stMon (f : Pairs × Pairs) : Mon := ((({} : Mon).onFence f.2).onWr .plain).onFence f.1
/-- monitor of a completed read-modify-write -/
abbrev rmwMon (f : Pairs × Pairs) : Mon :=
  (((({} : Mon).onFence f.2).onRd .plain).onWr .plain).onFence f.1

theorem load_impl (al : Alloc loadKind) {w : Nat} (hw : w ≤ W) (f : Pairs × Pairs)
    (p : BitVec W) (B : Block W w) (hB : B = loadBlock al w f p) :
    Implements .big B.code B.pre (fun m m' rs M => LoadSpec .big p.toNat w m m' (B.out rs) ∧ M = ldMon f) := by
  subst hB
  refine implements_straight 20 ?_
  intro rs m h
  simp [asm] at h
  simp [asm, h, LoadSpec, BitVec.setWidth_setWidth_of_le _ hw, hw]

theorem store_impl (al : Alloc storeKind) {w : Nat} (f : Pairs × Pairs) (p : BitVec W)
    (val : BitVec w) (B : Block W w) (hB : B = storeBlock al w f p val) :
    Implements .big B.code B.pre (fun m m' _ M => StoreSpec .big p.toNat w val m m' ∧ M = stMon f) := by
  subst hB
  refine implements_straight 20 ?_
  intro rs m h
  simp [asm] at h
  simp [asm, h, StoreSpec]

theorem swap_impl (al : Alloc swapKind) (hW : 32 ≤ W) {w : Nat} (hw : WordSize W w)
    (f : Pairs × Pairs) (p : BitVec W) (val : BitVec w) (B : Block W w) (hB : B = swapBlock al w f p val) :
    Implements .big B.code B.pre (fun m m' rs M => SwapSpec .big p.toNat w val m m' (B.out rs) ∧ M = rmwMon f) := by
  subst hB
  refine implements_loop 2 (fun rs g => (rs.r (al .dst) = p ∧ (rs.r (al .val)).setWidth w = val) ∧ g.Clean ∧
    g.mon.onRd .plain = (({} : Mon).onFence f.2).onRd .plain) 30 ?_ ?_
  · rintro rs g ⟨⟨rfl, hv⟩, hc, hm⟩
    obtain rfl | ⟨rfl, rfl⟩ := hw
    · simp [asm, hv, hc, hm, SwapSpec, hW]
      intro m
      by_cases h : load .big m (rs.r (al .dst)).toNat 32 = (rs.r (al .out)).setWidth 32
      · simp [h]
      · simp [h]
    · simp at hv
      simp [asm, hv, hc, hm, SwapSpec, hW]
      intro m
      by_cases h : load .big m (rs.r (al .dst)).toNat 64 = (rs.r (al .out))
      · simp [h]
      · simp [h]
  · rintro rs m h
    simp [asm] at h
    simp [asm, h]

theorem cas_impl (v9 : Bool) (al : Alloc casKind) (hW : 32 ≤ W) {w : Nat} (hw : WordSize W w)
    (f : Pairs × Pairs) (p : BitVec W) (old new : BitVec w) (B : Block W w)
    (hB : B = casBlock v9 al w f p old new) :
    Implements .big B.code B.pre
      (fun m m' rs M =>
        (CasSpec .big p.toNat w old new m m' (B.out rs) (B.ok rs) ∧ B.assumes rs) ∧
        M = if B.ok rs then rmwMon f else ldMon f) := by
  subst hB
  have hW0 : 0 < W := by omega
  have hW' : W ≠ 0 := by omega
  cases v9 <;>
  · refine implements_straight 30 ?_
    rintro rs m h
    simp [asm] at h
    obtain ⟨rfl, rfl, rfl⟩ := h
    obtain rfl | ⟨rfl, rfl⟩ := hw
    · simp [asm, CasSpec, hW, one_ne_zero hW0, hW']
      intro m
      by_cases h : load .big m (rs.r (al .dst)).toNat 32 = (rs.r (al .old)).setWidth 32
      · simp [h, one_ne_zero hW0, hW']
      · simp [h]
    · simp [asm, CasSpec]
      intro m
      by_cases h : load .big m (rs.r (al .dst)).toNat 64 = rs.r (al .old)
      · simp [h]
      · simp [h]

theorem sub_facts (hW : 32 ≤ W) {w : Nat} (hw : SubSize w) {P : Nat} (p : BitVec P)
    (hal : SubPtr W w p) :
    (sub W w p).1.toNat + p.toNat % 4 = p.toNat ∧
      (sub W w p).2.1.toNat % 32 = bitPos .big 32 w (p.toNat % 4) ∧ (sub W w p).2.2 = lowMask W w := by
  have hP : 32 ≤ P ∧ P ≤ W := hal.le hW
  have h := subword_noshift (R := W) false .big (by omega) (by omega) hw p hal.aligned (by decide)
  refine ⟨?_, h.2.1, h.2.2⟩
  simp only [sub]
  rw [BitVec.toNat_setWidth_of_le hP.2]
  exact h.1

/-- `sll` on the low half -/
theorem shl32 {k : Nat} (hW : 32 ≤ W) (x : BitVec W) : (x <<< k).setWidth 32 = x.setWidth 32 <<< k := by
  apply BitVec.eq_of_getLsbD_eq
  intro i hi
  have hiW : i < W := by omega
  have h3 : i - k < 32 := by omega
  simp only [BitVec.getLsbD_setWidth, BitVec.getLsbD_shiftLeft, hi, hiW, h3]
  simp

/-- `srl` then truncation -/
theorem srw_low {w k : Nat} (hW : 32 ≤ W) (hw : w ≤ W) (x : BitVec 32) :
    ((x.setWidth W) >>> k).setWidth w = (x >>> k).setWidth w := by
  apply BitVec.eq_of_getLsbD_eq
  intro i hi
  have : i < W := by omega
  simp only [BitVec.getLsbD_setWidth, BitVec.getLsbD_ushiftRight, hi, decide_true, Bool.true_and]
  by_cases h : k + i < W
  · simp [h]
  · have : ¬ k + i < 32 := by omega
    simp [h, BitVec.getLsbD_of_ge x (k + i) (by omega)]

theorem sub_swap_impl (al : Alloc subSwapKind) (hW : 32 ≤ W) {w : Nat} (hw : SubSize w)
    (f : Pairs × Pairs) {P : Nat} (p : BitVec P) (hal : SubPtr W w p) (val : BitVec w) (B : Block W w)
    (hB : B = subSwapBlock al w f p val) :
    Implements .big B.code B.pre
      (fun m m' rs M => SwapSpec .big p.toNat w val m m' (B.out rs) ∧ M = rmwMon f) := by
  subst hB
  have hw8 := hw.mod8
  have hwW : w ≤ W := Nat.le_trans hw.le hW
  have hfit : 8 * (p.toNat % 4) + w ≤ 32 := subword_fit hw hal.aligned
  obtain ⟨hA, hsh, hmk⟩ := sub_facts hW hw p hal
  generalize hoff : p.toNat % 4 = off at *
  generalize hAA : (sub W w p).1.toNat = A at *
  have hmask : (lowMask W w).setWidth 32 = lowMask 32 w := lowMask_setWidth hW
  refine implements_loop 4 (fun rs g => ((rs.r (al .dst)).toNat = A ∧
      (rs.r (al .shift)).toNat % 32 = bitPos .big 32 w off ∧
      (rs.r (al .mask)).setWidth 32 = lowMask 32 w <<< bitPos .big 32 w off ∧
      (rs.r (al .val)).setWidth 32 = val.setWidth 32 <<< bitPos .big 32 w off) ∧ g.Clean ∧
      g.mon.onRd .plain = (({} : Mon).onFence f.2).onRd .plain) 40 ?_ ?_
  · rintro rs g ⟨⟨h1, hs, hma, hv⟩, hc, hm⟩
    simp [asm, hc, hm, hs, hma, hv, h1, BitVec.setWidth_or, BitVec.setWidth_and, BitVec.setWidth_not hW,
      SwapSpec, BitVec.setWidth_setWidth_of_le _ hwW, BitVec.setWidth_setWidth_of_le _ hW, hW, srw_low hW hwW]
    intro m
    by_cases h : load .big m A 32 = (rs.r (al .out)).setWidth 32
    · simp [h]
      rw [← h, store_blend_or (by decide) hw8 hfit, extract_shift (by decide) hw8 hfit, hA]
      exact ⟨rfl, rfl⟩
    · simp [h]
  · rintro rs m h
    simp [asm] at h
    simp [asm, h, hsh, hmk, hAA, hmask, shl32 hW, zeroExtend_eq .big hw8 hw.le]

theorem sub_cas_impl (v9 : Bool) (al : Alloc subCasKind) (hW : 32 ≤ W) {w : Nat} (hw : SubSize w)
    (f : Pairs × Pairs) {P : Nat} (p : BitVec P) (hal : SubPtr W w p) (old new : BitVec w) (B : Block W w)
    (hB : B = subCasBlock v9 al w f p old new) :
    Implements .big B.code B.pre
      (fun m m' rs M =>
        (CasSpec .big p.toNat w old new m m' (B.out rs) (B.ok rs) ∧ B.assumes rs) ∧
        M = if B.ok rs then rmwMon f else ldMon f) := by
  subst hB
  have hw8 := hw.mod8
  have hwW : w ≤ W := Nat.le_trans hw.le hW
  have hfit : 8 * (p.toNat % 4) + w ≤ 32 := subword_fit hw hal.aligned
  obtain ⟨hA, hsh, hmk⟩ := sub_facts hW hw p hal
  generalize hoff : p.toNat % 4 = off at *
  generalize hAA : (sub W w p).1.toNat = A at *
  have hW0 : 0 < W := by omega
  have hW' : W ≠ 0 := by omega
  have hmask : (lowMask W w).setWidth 32 = lowMask 32 w := lowMask_setWidth hW
  cases v9 <;>
  · refine implements_loop 5 (fun rs g => ((rs.r (al .dst)).toNat = A ∧
        (rs.r (al .shift)).toNat % 32 = bitPos .big 32 w off ∧
        (rs.r (al .mask)).setWidth 32 = (lowMask 32 w <<< bitPos .big 32 w off) ∧
        (rs.r (al .old)).setWidth 32 = (old.setWidth 32 <<< bitPos .big 32 w off) ∧
        (rs.r (al .new)).setWidth 32 = (new.setWidth 32 <<< bitPos .big 32 w off)) ∧
        (∃ m s, g = ⟨s, some (m, m), (({} : Mon).onFence f.2).onRd .plain⟩ ∧
          (rs.r (al .out)).setWidth 32 = load .big m A 32)) 50 ?_ ?_
    · rintro rs g ⟨⟨h1, hs, hma, ho, hn⟩, m0, s0, rfl, hout⟩
      simp [asm, hs, hma, ho, hn, h1, hout, BitVec.setWidth_or, BitVec.setWidth_and, BitVec.setWidth_not hW,
        CasSpec, masked_eq_iff (C := 32) (by decide) hw8 hfit, hW,
        BitVec.setWidth_setWidth_of_le _ hwW, BitVec.setWidth_setWidth_of_le _ hW, srw_low hW hwW,
        masked_eq_iff' (C := 32) (by decide) hw8 hfit,
        extract_shift (C := 32) (by decide) hw8 hfit, hA, one_ne_zero hW0, hW']
      by_cases h : load .big m0 p.toNat w = old
      · simp [h]
        intro m
        by_cases h2 : load .big m A 32 = load .big m0 A 32
        · have h3 : load .big m p.toNat w = load .big m0 p.toNat w := by
            rw [← hA, ← extract_shift (C := 32) (by decide) hw8 hfit, h2,
              extract_shift (C := 32) (by decide) hw8 hfit]
          simp [h2, hW0, hW', one_ne_zero hW0]
          rw [h3, ← h2, store_blend_or (by decide) hw8 hfit, hA]
          simp [h, h3]
        · simp [h2]
          try exact ⟨_, _, ⟨rfl, rfl⟩, rfl⟩
      · simp [h]
    · rintro rs m h
      simp [asm] at h
      simp [asm, h, hsh, hmk, hAA, hmask, shl32 hW, zeroExtend_eq .big hw8 hw.le, hW]
      try exact fun m1 => ⟨_, _, ⟨rfl, rfl⟩, rfl⟩

end Verif.Sparc
