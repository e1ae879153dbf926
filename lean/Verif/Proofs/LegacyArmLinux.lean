import Verif.Arch.LegacyArmLinux
import Verif.Proofs.ArmLinux
set_option linter.unusedSimpArgs false
set_option maxRecDepth 4000
namespace Verif.LegacyArmLinux
open ArmLinux (Conf KUSER_CMPXCHG KUSER_MEMORY_BARRIER KUSER_CMPXCHG64 ldr ldr4 str ea4 hit hit64 bufVal spur
  fullAcc rdMon rmwMon sub sub_facts bitPos_lt extract_masked)

theorem load_impl (e : Endian) (al : Alloc loadKind) {w : Nat} (hw : w ≤ 32)
    (po p : BitVec 32) (B : Block 32 w) (hB : B = loadBlock al w po p) :
    Implements e B.code B.pre (fun m m' rs M => LoadSpec e p.toNat w m m' (B.out rs) ∧
      M = ({} : Mon).onRd .plain) := by
  subst hB
  refine implements_straight 20 ?_
  intro rs m h
  simp [asm] at h
  simp [asm, h, LoadSpec, BitVec.setWidth_setWidth_of_le _ hw, hw]

theorem loadAcq_impl (e : Endian) (al : Alloc loadAcqKind) {w : Nat} (hw : w ≤ 32)
    (po p : BitVec 32) (B : Block 32 w) (hB : B = loadAcqBlock al w po p) :
    Implements e B.code B.pre (fun m m' rs M => LoadSpec e p.toNat w m m' (B.out rs) ∧
      M = (({} : Mon).onRd .plain).onFence Pairs.full) := by
  subst hB
  refine implements_straight 20 ?_
  intro rs m h
  simp [asm] at h
  simp [asm, h, LoadSpec, BitVec.setWidth_setWidth_of_le _ hw, hw]

theorem store_impl (e : Endian) (al : Alloc storeKind) {w : Nat} (hw : w ≤ 32)
    (pv p : BitVec 32) (val : BitVec w) (B : Block 32 w) (hB : B = storeBlock al w pv p val) :
    Implements e B.code B.pre (fun m m' _ M => StoreSpec e p.toNat w val m m' ∧
      M = ({} : Mon).onWr .plain) := by
  subst hB
  refine implements_straight 20 ?_
  intro rs m h
  simp [asm] at h
  simp [asm, h, StoreSpec, BitVec.setWidth_setWidth_of_le _ hw, hw]

theorem storeRel_impl (e : Endian) (al : Alloc storeRelKind) {w : Nat} (hw : w ≤ 32) (sc : Bool)
    (pv p : BitVec 32) (val : BitVec w) (B : Block 32 w) (hB : B = storeRelBlock al w sc pv p val) :
    Implements e B.code B.pre (fun m m' _ M => StoreSpec e p.toNat w val m m' ∧
      M = ((({} : Mon).onFence Pairs.full).onWr .plain).onFence (if sc then Pairs.full else Pairs.none)) := by
  subst hB
  cases sc
  all_goals
    refine implements_straight 20 ?_
    intro rs m h
    simp [asm] at h
    simp [asm, h, StoreSpec, BitVec.setWidth_setWidth_of_le _ hw, hw]
  decide

theorem swap_impl (e : Endian) (c : Conf) (al : Alloc swapKind) (po pv p val : BitVec 32) (hd : pv ≠ po)
    (B : Block 32 32) (hB : B = swapBlock c al po pv p val) :
    Implements e B.code B.pre (fun m m' rs M => SwapSpec e p.toNat 32 val m m' (B.out rs) ∧ M = rmwMon) := by
  subst hB
  refine implements_loop 1 (fun rs g => (rs.r (al .dst) = p ∧ rs.r (al .x1) = val ∧ rs.r (al .out) = po ∧
      rs.r (al .fn_ptr) = KUSER_CMPXCHG) ∧ g.Clean ∧ g.mon.onRd fullAcc = rdMon) 40 ?_ ?_
  · rintro rs g ⟨⟨rfl, rfl, ho, hf⟩, hc, hm⟩
    simp [asm, hc, hm, SwapSpec, ho, hf, hit]
    intro m o m1
    by_cases h1 : spur c o = 0#2 <;> by_cases h2 : load e m1 (rs.r (al .dst)).toNat 32 =
      load e m (rs.r (al .dst)).toNat 32 <;> simp [h1, h2, nz_ne]
  · rintro rs m h
    simp [asm] at h
    simp [asm, h, readCell_miss hd]

theorem cas_impl (e : Endian) (c : Conf) (al : Alloc casKind) (po pold pnew p old new : BitVec 32)
    (hd : Distinct po pold pnew) (B : Block 32 32) (hB : B = casBlock c al po pold pnew p old new) :
    Implements e B.code B.pre (fun m m' rs M => (CasSpec e p.toNat 32 old new m m' (B.out rs) (B.ok rs) ∧
      B.assumes rs) ∧ M = rmwMon) := by
  subst hB
  refine implements_loop 2 (fun rs g => (rs.r (al .dst) = p ∧ rs.r (al .old) = old ∧ rs.r (al .new) = new ∧
      rs.r (al .out) = po ∧ rs.r (al .fn_ptr) = KUSER_CMPXCHG) ∧ g.Clean ∧ g.mon.onRd fullAcc = rdMon) 60 ?_ ?_
  · rintro rs g ⟨⟨rfl, rfl, rfl, ho, hf⟩, hc, hm⟩
    simp [asm, hc, hm, CasSpec, ho, hf, hit]
    intro m
    by_cases h3 : load e m (rs.r (al .dst)).toNat 32 = rs.r (al .old)
    · simp [h3]
      intro o m1
      by_cases h1 : spur c o = 0#2 <;> by_cases h2 : load e m1 (rs.r (al .dst)).toNat 32 = rs.r (al .old) <;>
        simp [h1, h2, nz_ne]
    · simp [h3]
      intro o m1
      by_cases h1 : spur c o = 0#2 <;> by_cases h2 : load e m1 (rs.r (al .dst)).toNat 32 =
        load e m (rs.r (al .dst)).toNat 32 <;> simp [h1, h2, h3, nz_ne]
      rw [← h2, store_load (by decide)]
  · rintro rs m h
    simp [asm] at h
    simp [asm, h, readCell_miss hd.1, readCell_miss hd.2.1, readCell_miss hd.2.2]

/-- a shifted value has no bits outside the shifted mask -/
theorem shl_and_mask {w : Nat} (v : BitVec w) (k : Nat) :
    (v.setWidth 32 <<< k) &&& (lowMask 32 w <<< k) = v.setWidth 32 <<< k := by
  apply BitVec.eq_of_getLsbD_eq
  intro i hi
  simp only [BitVec.getLsbD_and, BitVec.getLsbD_shiftLeft, BitVec.getLsbD_setWidth, getLsbD_lowMask, hi]
  by_cases h : i < k
  · simp [h]
  · by_cases h2 : i - k < w
    · simp [h, h2]; omega
    · simp [h, h2, BitVec.getLsbD_of_ge v (i - k) (by omega)]

theorem sub_swap_impl (e : Endian) (c : Conf) (al : Alloc subSwapKind) {w : Nat} (hw : SubSize w)
    (po pv p : BitVec 32) (hal : p.toNat % (w / 8) = 0) (val : BitVec w) (hd : pv ≠ po) (B : Block 32 w)
    (hB : B = subSwapBlock e c al w po pv p val) :
    Implements e B.code B.pre (fun m m' rs M => SwapSpec e p.toNat w val m m' (B.out rs) ∧ M = rmwMon) := by
  subst hB
  have hw8 := hw.mod8
  have hfit : 8 * (p.toNat % 4) + w ≤ 32 := subword_fit hw hal
  obtain ⟨hA, hsh, hmk⟩ := sub_facts e hw p hal
  have hlt := bitPos_lt (e := e) hw hal
  generalize hoff : p.toNat % 4 = off at *
  generalize hAA : (sub e w p).1.toNat = A at *
  have h256 : bitPos e 32 w off % 256 = bitPos e 32 w off := Nat.mod_eq_of_lt (by omega)
  refine implements_loop 3 (fun rs g => ((rs.r (al .dst)).toNat = A ∧
      (rs.r (al .shift)).toNat = bitPos e 32 w off ∧
      rs.r (al .inv_mask) = ~~~ (lowMask 32 w <<< bitPos e 32 w off) ∧
      rs.r (al .val) = val.setWidth 32 <<< bitPos e 32 w off ∧ rs.r (al .out) = po ∧
      rs.r (al .fn_ptr) = KUSER_CMPXCHG) ∧ g.Clean ∧ g.mon.onRd fullAcc = rdMon) 40 ?_ ?_
  · rintro rs g ⟨⟨h1, hs, hma, hv, ho, hf⟩, hc, hm⟩
    simp [asm, hc, hm, hs, h256, hma, hv, h1, SwapSpec, ho, hf, hit]
    intro m o m1
    by_cases h1 : spur c o = 0#2 <;> by_cases h2 : load e m1 A 32 = load e m A 32 <;> simp [h1, h2, nz_ne]
    rw [← h2, store_blend_or (by decide) hw8 hfit, extract_shift (by decide) hw8 hfit, hA]
    exact ⟨rfl, rfl⟩
  · rintro rs m h
    simp [asm] at h
    simp [asm, h, hsh, hmk, hAA, h256, readCell_miss hd, shl_and_mask]

theorem sub_cas_impl (e : Endian) (c : Conf) (al : Alloc subCasKind) {w : Nat} (hw : SubSize w)
    (po pold pnew p : BitVec 32) (hal : p.toNat % (w / 8) = 0) (old new : BitVec w) (hd : Distinct po pold pnew)
    (B : Block 32 w) (hB : B = subCasBlock e c al w po pold pnew p old new) :
    Implements e B.code B.pre (fun m m' rs M => (CasSpec e p.toNat w old new m m' (B.out rs) (B.ok rs) ∧
      B.assumes rs) ∧ M = rmwMon) := by
  subst hB
  have hw8 := hw.mod8
  have hfit : 8 * (p.toNat % 4) + w ≤ 32 := subword_fit hw hal
  obtain ⟨hA, hsh, hmk⟩ := sub_facts e hw p hal
  have hlt := bitPos_lt (e := e) hw hal
  generalize hoff : p.toNat % 4 = off at *
  generalize hAA : (sub e w p).1.toNat = A at *
  have h256 : bitPos e 32 w off % 256 = bitPos e 32 w off := Nat.mod_eq_of_lt (by omega)
  refine implements_loop 6 (fun rs g => ((rs.r (al .dst)).toNat = A ∧
      (rs.r (al .shift)).toNat = bitPos e 32 w off ∧
      rs.r (al .mask) = (lowMask 32 w <<< bitPos e 32 w off) ∧
      rs.r (al .old) = old.setWidth 32 <<< bitPos e 32 w off ∧
      rs.r (al .new) = new.setWidth 32 <<< bitPos e 32 w off ∧ rs.r (al .out) = po ∧
      rs.r (al .fn_ptr) = KUSER_CMPXCHG) ∧ g.Clean ∧ g.mon.onRd fullAcc = rdMon) 60 ?_ ?_
  · rintro rs g ⟨⟨h1, hs, hma, ho, hn, hpo, hf⟩, hc, hm⟩
    simp [asm, hc, hm, hs, h256, hma, ho, hn, h1, CasSpec, hpo, hf, hit,
      masked_eq_iff (C := 32) (by decide) hw8 hfit, extract_masked hw8 hfit, hA]
    intro m
    by_cases h3 : load e m p.toNat w = old
    all_goals
      simp [h3]
      intro o m1
      by_cases h1 : spur c o = 0#2 <;> by_cases h2 : load e m1 A 32 = load e m A 32 <;> simp [h1, h2, h3, nz_ne]
    all_goals
      have h4 : load e m1 p.toNat w = load e m p.toNat w := by
        rw [← hA, ← extract_shift (C := 32) (by decide) hw8 hfit, h2,
          extract_shift (C := 32) (by decide) hw8 hfit]
    · rw [h4, ← h2, store_blend_or (by decide) hw8 hfit, hA]
      simp [h3]
    · rw [h4, ← h2, store_load (by decide)]
      simp [h3]
  · rintro rs m h
    simp [asm] at h
    simp [asm, h, hsh, hmk, hAA, h256, readCell_miss hd.1, readCell_miss hd.2.1, readCell_miss hd.2.2, shl_and_mask]

theorem loadd_impl (e : Endian) (c : Conf) (al : Alloc loaddKind) (po p : BitVec 32) (B : Block 32 64)
    (hB : B = loaddBlock e c al po p) :
    Implements e B.code B.pre (fun m m' rs M => LoadSpec e p.toNat 64 m m' (B.out rs) ∧ M = rmwMon) := by
  subst hB
  refine implements_loop 0 (fun rs g => (rs.r (al .src) = p ∧ rs.r (al .x1) = po ∧
      rs.r (al .fn_ptr) = KUSER_CMPXCHG64) ∧ g.Clean ∧ g.mon.onRd fullAcc = rdMon) 40 ?_ ?_
  · rintro rs g ⟨⟨rfl, rfl, hf⟩, hc, hm⟩
    simp [-BitVec.toNat_add, asm, ea4, hc, hm, LoadSpec, hf, hit64, bufVal]
    intro m m0 o m1
    by_cases h1 : spur c o = 0#2 <;> by_cases h2 : load e m1 (rs.r (al .src)).toNat 64 =
      join01 e 64 (load e m (rs.r (al .src)).toNat 32) (load e m0 (rs.r (al .src) + 4#32).toNat 32) <;> simp [-BitVec.toNat_add, h1, h2, nz_ne]
    rw [← h2, store_load (by decide)]
  · rintro rs m h
    simp [asm] at h
    simp [asm, h]

theorem swapd_impl (e : Endian) (c : Conf) (al : Alloc swapdKind) (po pv p : BitVec 32) (hne : pv ≠ po)
    (val : BitVec 64) (B : Block 32 64) (hB : B = swapdBlock e c al po pv p val) :
    Implements e B.code B.pre (fun m m' rs M => SwapSpec e p.toNat 64 val m m' (B.out rs) ∧ M = rmwMon) := by
  subst hB
  have hj := join_word (e := e) (h := 32) (w := 64) rfl rfl val
  refine implements_loop 0 (fun rs g => (rs.r (al .dst) = p ∧ rs.r (al .x1) = pv ∧ rs.r (al .out_ptr) = po ∧
      rs.r (al .val_lo) = word0 e 32 val ∧ rs.r (al .val_hi) = word1 e 32 val ∧
      rs.r (al .fn_ptr) = KUSER_CMPXCHG64) ∧ g.Clean ∧ g.mon.onRd fullAcc = rdMon) 40 ?_ ?_
  · rintro rs g ⟨⟨rfl, rfl, rfl, hv0, hv1, hf⟩, hc, hm⟩
    simp [-BitVec.toNat_add, asm, ea4, hc, hm, SwapSpec, hf, hit64, bufVal, hne, hv0, hv1, hj]
    intro m m0 o m1
    by_cases h1 : spur c o = 0#2 <;> by_cases h2 : load e m1 (rs.r (al .dst)).toNat 64 =
      join01 e 64 (load e m (rs.r (al .dst)).toNat 32) (load e m0 (rs.r (al .dst) + 4#32).toNat 32) <;> simp [-BitVec.toNat_add, h1, h2, nz_ne]
  · rintro rs m h
    simp [asm] at h
    simp [asm, h]

theorem casd_impl (e : Endian) (c : Conf) (al : Alloc casdKind) (po pold pnew p : BitVec 32)
    (hd : Distinct po pold pnew) (old new : BitVec 64) (B : Block 32 64)
    (hB : B = casdBlock e c al po pold pnew p old new) :
    Implements e B.code B.pre (fun m m' rs M => (CasSpec e p.toNat 64 old new m m' (B.out rs) (B.ok rs) ∧
      B.assumes rs) ∧ M = rmwMon) := by
  subst hB
  have hne := hd.2.1
  have hj := join_word (e := e) (h := 32) (w := 64) rfl rfl new
  refine implements_loop 2 (fun rs g => (rs.r (al .dst) = p ∧ rs.r (al .new) = pnew ∧ rs.r (al .out_ptr) = po ∧
      rs.r (al .val_lo) = word0 e 32 new ∧ rs.r (al .val_hi) = word1 e 32 new ∧
      rs.r (al .old_lo) = word0 e 32 old ∧ rs.r (al .old_hi) = word1 e 32 old ∧
      rs.r (al .fn_ptr) = KUSER_CMPXCHG64) ∧ g.Clean ∧ g.mon.onRd fullAcc = rdMon) 60 ?_ ?_
  · rintro rs g ⟨⟨rfl, rfl, rfl, hv0, hv1, ho0, ho1, hf⟩, hc, hm⟩
    have hcmp : ∀ a b : BitVec 32, (a ^^^ word0 e 32 old ||| b ^^^ word1 e 32 old) = 0#32 ↔ join01 e 64 a b = old := by
      intro a b
      rw [xor_or_eq_zero, ← word_eq_iff (e := e) (h := 32) (w := 64) rfl rfl, word0_join rfl rfl, word1_join rfl rfl]
    simp [-BitVec.or_eq_zero_iff, -BitVec.toNat_add, asm, ea4, hc, hm, CasSpec, hf, hit64, bufVal, hne, hv0, hv1, ho0, ho1, hj, hcmp]
    intro m m0
    by_cases h3 : join01 e 64 (load e m (rs.r (al .dst)).toNat 32) (load e m0 (rs.r (al .dst) + 4#32).toNat 32) = old
    · simp [-BitVec.toNat_add, h3]
      intro o m1
      by_cases h1 : spur c o = 0#2 <;> by_cases h2 : load e m1 (rs.r (al .dst)).toNat 64 = old <;>
        simp [-BitVec.toNat_add, h1, h2, nz_ne]
    · simp [-BitVec.toNat_add, h3]
      intro o m1
      by_cases h1 : spur c o = 0#2 <;> by_cases h2 : load e m1 (rs.r (al .dst)).toNat 64 =
        join01 e 64 (load e m (rs.r (al .dst)).toNat 32) (load e m0 (rs.r (al .dst) + 4#32).toNat 32) <;>
        simp [-BitVec.toNat_add, h1, h2, h3, nz_ne]
      rw [← h2, store_load (by decide)]
  · rintro rs m h
    simp [asm] at h
    simp [asm, h, readCell2_miss hd.1, readCell2_miss hd.2.1, readCell2_miss hd.2.2]

end Verif.LegacyArmLinux
