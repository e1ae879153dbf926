import Verif.Arch.Hexagon
import Verif.Core.BackendLemmas
set_option linter.unusedSimpArgs false
namespace Verif.Hexagon

/-- monitor of a read -/
abbrev rdMon : Mon := ({} : Mon).onRd .plain
/-- monitor of a write -/
abbrev wrMon : Mon := ({} : Mon).onWr .plain
/-- monitor of a read-modify-write -/
abbrev rmwMon : Mon := (({} : Mon).onRd .plain).onWr .plain

theorem word_facts {w : Nat} (hw : SubSize w ∨ w = 32) : w ≤ 32 ∧ w % 8 = 0 := by
  rcases hw with (rfl | rfl) | rfl <;> decide

theorem load_impl (al : Alloc loadKind) {w : Nat} (hw : w ≤ 32) (p : BitVec 32) (B : Block 32 w)
    (hB : B = loadBlock al w p) :
    Implements .little B.code B.pre (fun m m' rs M => LoadSpec .little p.toNat w m m' (B.out rs) ∧ M = rdMon) := by
  subst hB
  refine implements_straight 20 ?_
  intro rs m h
  simp [asm] at h
  simp [asm, h, LoadSpec, BitVec.setWidth_setWidth_of_le _ hw, hw]

theorem store_impl (al : Alloc storeKind) {w : Nat} (p : BitVec 32) (val : BitVec w) (B : Block 32 w)
    (hB : B = storeBlock al w p val) :
    Implements .little B.code B.pre (fun m m' _ M => StoreSpec .little p.toNat w val m m' ∧ M = wrMon) := by
  subst hB
  refine implements_straight 20 ?_
  intro rs m h
  simp [asm] at h
  simp [asm, h, StoreSpec]

theorem swap_impl (al : Alloc swapKind) (p : BitVec 32) (val : BitVec 32) (B : Block 32 32)
    (hB : B = swapBlock al p val) :
    Implements .little B.code B.pre
      (fun m m' rs M => SwapSpec .little p.toNat 32 val m m' (B.out rs) ∧ M = rmwMon) := by
  subst hB
  refine implements_loop 0 (fun rs g => (rs.r (al .dst) = p ∧ rs.r (al .val) = val) ∧
      g.Clean ∧ g.mon.onRd .plain = rdMon) 40 ?_ ?_
  · rintro rs g ⟨⟨rfl, rfl⟩, hc, hm⟩
    simp [asm, hc, hm, SwapSpec]
    intro m m' ha
    exact (load_congr (w := 32) rfl ha).symm
  · rintro rs m h
    simp [asm] at h
    simp [asm, h]

theorem cas_impl (al : Alloc casKind) (p : BitVec 32) (old new : BitVec 32) (B : Block 32 32)
    (hB : B = casBlock al p old new) :
    Implements .little B.code B.pre
      (fun m m' rs M => (CasSpec .little p.toNat 32 old new m m' (B.out rs) (B.ok rs) ∧ B.assumes rs) ∧
        M = if B.ok rs then rmwMon else rdMon) := by
  subst hB
  refine implements_loop 0 (fun rs g => (rs.r (al .dst) = p ∧ rs.r (al .old) = old ∧ rs.r (al .new) = new ∧
      rs.r (al .r) = 1#32) ∧ g.Clean ∧ g.mon.onRd .plain = rdMon) 60 ?_ ?_
  · rintro rs g ⟨⟨rfl, rfl, rfl, hr⟩, hc, hm⟩
    simp [asm, hc, hm, hr, CasSpec]
    intro m
    by_cases h1 : load .little m (rs.r (al .dst)).toNat 32 = rs.r (al .old)
    · simp [h1]
      intro m' ha
      rw [load_congr (w := 32) rfl ha]
      exact ⟨h1.symm, h1⟩
    · simp [h1]
  · rintro rs m h
    simp [asm] at h
    simp [asm, h]

theorem sub_facts {w : Nat} (hw : SubSize w) (p : BitVec 32) (hal : p.toNat % (w / 8) = 0) :
    (sub w p).1.toNat + p.toNat % 4 = p.toNat ∧
      (sub w p).2.1.toNat = bitPos .little 32 w (p.toNat % 4) ∧
      (sub w p).2.2 = lowMask 32 w <<< bitPos .little 32 w (p.toNat % 4) :=
  subword_shifted true .little (by omega) (by omega) hw p hal (by decide)

theorem bitPos_le {w x : Nat} (hw : SubSize w) (hal : x % (w / 8) = 0) :
    bitPos .little 32 w (x % 4) + w ≤ 32 := by
  rcases hw with rfl | rfl <;> simp [bitPos] at * <;> omega

/-- the final arithmetic shift and truncation extract the object -/
theorem asr_low {w k : Nat} (h : k + w ≤ 32) (x : BitVec 32) :
    (x.sshiftRight k).setWidth w = (x >>> k).setWidth w := by
  apply BitVec.eq_of_getLsbD_eq
  intro i hi
  have h1 : k + i < 32 := by omega
  have h2 : i < 32 := by omega
  simp only [BitVec.getLsbD_setWidth, BitVec.getLsbD_sshiftRight, BitVec.getLsbD_ushiftRight, hi, h1]
  simp; omega

theorem sub_swap_impl (al : Alloc subSwapKind) {w : Nat} (hw : SubSize w) (p : BitVec 32)
    (hal : p.toNat % (w / 8) = 0) (val : BitVec w) (B : Block 32 w) (hB : B = subSwapBlock al w p val) :
    Implements .little B.code B.pre
      (fun m m' rs M => SwapSpec .little p.toNat w val m m' (B.out rs) ∧ M = rmwMon) := by
  subst hB
  have hw8 := hw.mod8
  have hfit : 8 * (p.toNat % 4) + w ≤ 32 := subword_fit hw hal
  obtain ⟨hA, hsh, hmk⟩ := sub_facts hw p hal
  have hlt := bitPos_le hw hal
  generalize hoff : p.toNat % 4 = off at *
  generalize hAA : (sub w p).1.toNat = A at *
  have h128 : bitPos .little 32 w off % 128 = bitPos .little 32 w off := Nat.mod_eq_of_lt (by omega)
  have h64 : bitPos .little 32 w off < 64 := by omega
  have hz := zeroExtend_eq .little hw8 hw.le
  refine implements_loop 1 (fun rs g => ((rs.r (al .dst)).toNat = A ∧
      (rs.r (al .shift)).toNat = bitPos .little 32 w off ∧
      rs.r (al .mask) = lowMask 32 w <<< bitPos .little 32 w off ∧
      rs.r (al .val) = val.setWidth 32 <<< bitPos .little 32 w off) ∧ g.Clean ∧
      g.mon.onRd .plain = rdMon) 40 ?_ ?_
  · rintro rs g ⟨⟨h1, hs, hma, hv⟩, hc, hm⟩
    simp [asm, hc, hm, hs, hma, hv, h1, SwapSpec, asrVal, h128, h64, asr_low hlt]
    intro m m1 hag
    rw [← load_congr (by decide) hag,
      store_blend_or (by decide) hw8 hfit, extract_shift (by decide) hw8 hfit, hA]
    exact ⟨rfl, rfl⟩
  · rintro rs m h
    simp [asm] at h
    simp [asm, h, hsh, hmk, hAA, aslVal, h128, h64, hz]

theorem sub_cas_impl (al : Alloc subCasKind) {w : Nat} (hw : SubSize w) (p : BitVec 32)
    (hal : p.toNat % (w / 8) = 0) (old new : BitVec w) (B : Block 32 w) (hB : B = subCasBlock al w p old new) :
    Implements .little B.code B.pre
      (fun m m' rs M => (CasSpec .little p.toNat w old new m m' (B.out rs) (B.ok rs) ∧ B.assumes rs) ∧
        M = if B.ok rs then rmwMon else rdMon) := by
  subst hB
  have hw8 := hw.mod8
  have hfit : 8 * (p.toNat % 4) + w ≤ 32 := subword_fit hw hal
  obtain ⟨hA, hsh, hmk⟩ := sub_facts hw p hal
  have hlt := bitPos_le hw hal
  generalize hoff : p.toNat % 4 = off at *
  generalize hAA : (sub w p).1.toNat = A at *
  have h128 : bitPos .little 32 w off % 128 = bitPos .little 32 w off := Nat.mod_eq_of_lt (by omega)
  have h64 : bitPos .little 32 w off < 64 := by omega
  have hz := zeroExtend_eq .little hw8 hw.le
  refine implements_loop 2 (fun rs g => ((rs.r (al .dst)).toNat = A ∧
      (rs.r (al .shift)).toNat = bitPos .little 32 w off ∧
      rs.r (al .mask) = lowMask 32 w <<< bitPos .little 32 w off ∧
      rs.r (al .old) = old.setWidth 32 <<< bitPos .little 32 w off ∧
      rs.r (al .new) = new.setWidth 32 <<< bitPos .little 32 w off ∧ rs.r (al .r) = 1#32) ∧ g.Clean ∧
      g.mon.onRd .plain = rdMon) 60 ?_ ?_
  · rintro rs g ⟨⟨h1, hs, hma, ho, hn, hr⟩, hc, hm⟩
    simp [asm, hc, hm, hs, hma, ho, hn, h1, hr, CasSpec, asrVal, h128, h64, asr_low hlt,
      masked_eq_iff (C := 32) (by decide) hw8 hfit, extract_shift (C := 32) (by decide) hw8 hfit, hA]
    intro m
    by_cases h : load .little m p.toNat w = old
    · simp [h]
      intro m1 hag
      have h2 := load_congr_sub (e := .little) (by decide) hw8 hfit hag
      rw [hA] at h2
      rw [← load_congr (w := 32) (by decide) hag, store_blend_or (by decide) hw8 hfit, hA, h2]
      exact ⟨h.symm, h, rfl⟩
    · simp [h]
  · rintro rs m h
    simp [asm] at h
    simp [asm, h, hsh, hmk, hAA, aslVal, h128, h64, hz]

/-! ### 64 bits -/

theorem loadd_impl (al : Alloc loaddKind) (p : BitVec 32) (B : Block 32 64) (hB : B = loaddBlock al p) :
    Implements .little B.code B.pre (fun m m' rs M => LoadSpec .little p.toNat 64 m m' (B.out rs) ∧ M = rdMon) := by
  subst hB
  refine implements_straight 20 ?_
  intro rs m h
  simp [asm] at h
  simp [asm, h, LoadSpec, ofPair_true, join_word]

theorem stored_impl (al : Alloc storedKind) (p : BitVec 32) (val : BitVec 64) (B : Block 32 64)
    (hB : B = storedBlock al p val) :
    Implements .little B.code B.pre (fun m m' _ M => StoreSpec .little p.toNat 64 val m m' ∧ M = wrMon) := by
  subst hB
  refine implements_straight 20 ?_
  intro rs m h
  simp [asm, pairOf_true] at h
  simp [asm, h, StoreSpec, join_word]

theorem swapd_impl (al : Alloc swapdKind) (p : BitVec 32) (val : BitVec 64) (B : Block 32 64)
    (hB : B = swapdBlock al p val) :
    Implements .little B.code B.pre
      (fun m m' rs M => SwapSpec .little p.toNat 64 val m m' (B.out rs) ∧ M = rmwMon) := by
  subst hB
  refine implements_loop 0 (fun rs g => (rs.r (al .dst) = p ∧ rs.r (al .val_lo) = word0 .little 32 val ∧
        rs.r (al .val_hi) = word1 .little 32 val) ∧ g.Clean ∧ g.mon.onRd .plain = rdMon) 40 ?_ ?_
  · rintro rs g ⟨⟨rfl, h0, h1⟩, hc, hm⟩
    simp [asm, hc, hm, h0, h1, SwapSpec, ofPair_true, join_word]
    intro m m' ha
    exact (load_congr (w := 64) rfl ha).symm
  · rintro rs m h
    simp [asm, pairOf_true] at h
    simp [asm, h]

theorem casd_impl (al : Alloc casdKind) (p : BitVec 32) (old new : BitVec 64) (B : Block 32 64)
    (hB : B = casdBlock al p old new) :
    Implements .little B.code B.pre
      (fun m m' rs M => (CasSpec .little p.toNat 64 old new m m' (B.out rs) (B.ok rs) ∧ B.assumes rs) ∧
        M = if B.ok rs then rmwMon else rdMon) := by
  subst hB
  refine implements_loop 0 (fun rs g => (rs.r (al .dst) = p ∧ rs.r (al .old_lo) = word0 .little 32 old ∧
        rs.r (al .old_hi) = word1 .little 32 old ∧ rs.r (al .new_lo) = word0 .little 32 new ∧
        rs.r (al .new_hi) = word1 .little 32 new ∧ rs.r (al .r) = 1#32) ∧ g.Clean ∧ g.mon.onRd .plain = rdMon) 60 ?_ ?_
  · rintro rs g ⟨⟨rfl, ho0, ho1, hn0, hn1, hr⟩, hc, hm⟩
    simp [asm, hc, hm, ho0, ho1, hn0, hn1, hr, CasSpec, ofPair_true, join_word]
    intro m
    have hiff := word_eq_iff (e := .little) (h := 32) (x := load .little m (rs.r (al .dst)).toNat 64) (y := old) rfl rfl
    by_cases h0 : word0 .little 32 (load .little m (rs.r (al .dst)).toNat 64) = word0 .little 32 old
    · by_cases h1 : word1 .little 32 (load .little m (rs.r (al .dst)).toNat 64) = word1 .little 32 old
      · have h := hiff.1 ⟨h0, h1⟩
        simp [h]
        intro m' ha
        rw [load_congr (w := 64) rfl ha]
        exact ⟨h.symm, h⟩
      · have h : load .little m (rs.r (al .dst)).toNat 64 ≠ old := fun h => h1 (hiff.2 h).2
        simp [h0, h1, h]
    · have h : load .little m (rs.r (al .dst)).toNat 64 ≠ old := fun h => h0 (hiff.2 h).1
      simp [h0, h]
  · rintro rs m h
    simp [asm, pairOf_true] at h
    simp [asm, h]

end Verif.Hexagon
