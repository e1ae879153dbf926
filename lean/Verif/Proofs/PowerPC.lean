import Verif.Arch.PowerPC
import Verif.Core.BackendLemmas
set_option linter.unusedSimpArgs false
set_option maxRecDepth 4000
namespace Verif.PowerPC
variable {W : Nat}

/-- `test_cr0_eq` reads exactly the EQ bit of cr0. -/
theorem testCr0Eq_eq (hW : 32 ≤ W) (cr : BitVec 32) : testCr0Eq (cr.setWidth W) = cr.getLsbD 29 := by
  have h1 : (cr.setWidth W &&& BitVec.ofNat W 0x20000000) = (cr &&& 0x20000000#32).setWidth W := by
    apply BitVec.eq_of_toNat_eq
    have : (536870912 : Nat) < 2 ^ W := Nat.lt_of_lt_of_le (by decide) (Nat.pow_le_pow_right (n := 2) (by decide) hW)
    have h2 : cr.toNat < 2 ^ W := Nat.lt_of_lt_of_le cr.isLt (Nat.pow_le_pow_right (n := 2) (by decide) hW)
    simp only [BitVec.toNat_and, BitVec.toNat_setWidth, BitVec.toNat_ofNat, Nat.mod_eq_of_lt this, Nat.mod_eq_of_lt h2]
    rw [Nat.mod_eq_of_lt (a := 536870912) (by decide), Nat.mod_eq_of_lt]
    exact Nat.lt_of_le_of_lt Nat.and_le_right this
  have h0 : ∀ x : BitVec 32, (x.setWidth W = 0#W) ↔ x = 0#32 := by
    intro x
    rw [show 0#W = (0#32).setWidth W by simp]
    constructor
    · intro h
      have := congrArg (BitVec.setWidth 32) h
      simpa [BitVec.setWidth_setWidth_of_le _ hW, hW] using this
    · rintro rfl; rfl
  have h3 : ((cr &&& 0x20000000#32) = 0#32) ↔ cr.getLsbD 29 = false := by
    rw [show 0x20000000#32 = BitVec.twoPow 32 29 by decide, BitVec.and_twoPow]
    cases cr.getLsbD 29 <;> decide
  rw [testCr0Eq, h1, _root_.bne, Bool.eq_iff_iff]
  simp only [Bool.not_eq_true', beq_eq_false_iff_ne, ne_eq, h0, h3]
  cases cr.getLsbD 29 <;> simp

theorem test_crVal (hW : 32 ≤ W) (j : Nat) (z : Bool) : testCr0Eq ((crVal j z).setWidth W) = z := by
  rw [testCr0Eq_eq hW, crVal]
  cases z <;> simp [BitVec.getLsbD_or, BitVec.getLsbD_and]

/-- bits of the comparison hold the object -/
theorem cmpBits_facts {w : Nat} (hW : 32 ≤ W) (hw : SubSize w ∨ WordSize W w) :
    w ≤ cmpBits w ∧ cmpBits w ≤ W ∧ w ≤ W ∧ w % 8 = 0 := by
  rcases hw with (rfl | rfl) | rfl | ⟨rfl, rfl⟩ <;> simp [cmpBits] <;> omega

theorem zxArg_pre {e : Endian} {r w : Nat} {v : BitVec w} (hW : 32 ≤ W) (hw : SubSize w ∨ WordSize W w)
    {rs : RS W} (h : (rs.r (zxArg e r v).reg).setWidth (zxArg e r v).n = (zxArg e r v).v) :
    (rs.r r).setWidth (cmpBits w) = v.setWidth (cmpBits w) := by
  rcases hw with (rfl | rfl) | rfl | ⟨rfl, rfl⟩
  · simp [zxArg] at h; simpa [cmpBits, zeroExtend_eq] using h
  · simp [zxArg] at h; simpa [cmpBits, zeroExtend_eq] using h
  · simp [zxArg] at h; simpa [cmpBits] using h
  · simp [zxArg] at h; simpa [cmpBits] using h

abbrev ldMon (f : Pairs) : Mon := ((({} : Mon).onFence f).onRd .plain).onFence isync
abbrev stMon (f : Pairs) : Mon := (({} : Mon).onFence f).onWr .plain
abbrev rdMon (f : Pairs) : Mon := (({} : Mon).onFence f).onRd .plain
abbrev rmwMon (f : Pairs × Pairs) : Mon := ((rdMon f.2).onWr .plain).onFence f.1
abbrev okMon (o : CO) : Mon := (((rdMon o.release).onWr .plain).onFence o.success).onFence o.always
abbrev failMon (o : CO) : Mon := (rdMon o.release).onFence o.always
abbrev spurMon (o : CO) : Mon := ((rdMon o.release).onFence o.success).onFence o.always

theorem load_impl (e : Endian) (al : Alloc loadKind) {w : Nat} (hw : w ≤ W)
    (p : BitVec W) (B : Block W w) (hB : B = loadBlock al w p) :
    Implements e B.code B.pre (fun m m' rs M => LoadSpec e p.toNat w m m' (B.out rs) ∧
      M = ({} : Mon).onRd .plain) := by
  subst hB
  refine implements_straight 20 ?_
  intro rs m h
  simp [asm] at h
  simp [asm, h, LoadSpec, BitVec.setWidth_setWidth_of_le _ hw, hw]

theorem loadAcq_impl (e : Endian) (al : Alloc loadKind) {w : Nat} (hw : w ≤ W) (f : Pairs)
    (p : BitVec W) (B : Block W w) (hB : B = loadAcqBlock al w f p) :
    Implements e B.code B.pre (fun m m' rs M => LoadSpec e p.toNat w m m' (B.out rs) ∧ M = ldMon f) := by
  subst hB
  refine implements_straight 20 ?_
  intro rs m h
  simp [asm] at h
  simp [asm, h, LoadSpec, BitVec.setWidth_setWidth_of_le _ hw, hw]

theorem store_impl (e : Endian) (al : Alloc storeKind) {w : Nat} (f : Pairs)
    (p : BitVec W) (val : BitVec w) (B : Block W w) (hB : B = storeBlock al w f p val) :
    Implements e B.code B.pre (fun m m' _ M => StoreSpec e p.toNat w val m m' ∧ M = stMon f) := by
  subst hB
  refine implements_straight 20 ?_
  intro rs m h
  simp [asm] at h
  simp [asm, h, StoreSpec]

theorem swap_impl (e : Endian) (al : Alloc swapKind) {w : Nat} (hw : w ≤ W) (hw8 : w % 8 = 0)
    (f : Pairs × Pairs) (p : BitVec W) (val : BitVec w) (B : Block W w) (hB : B = swapBlock al w f p val) :
    Implements e B.code B.pre (fun m m' rs M => SwapSpec e p.toNat w val m m' (B.out rs) ∧ M = rmwMon f) := by
  subst hB
  refine implements_loop 1 (fun rs g => (rs.r (al .dst) = p ∧ (rs.r (al .val)).setWidth w = val) ∧
      g.Clean ∧ g.mon.onRd .plain = rdMon f.2) 40 ?_ ?_
  · rintro rs g ⟨⟨rfl, rfl⟩, hc, hm⟩
    simp [asm, hc, hm, SwapSpec, BitVec.setWidth_setWidth_of_le _ hw, hw]
    intro m m' ha
    exact (load_congr hw8 ha).symm
  · rintro rs m h
    simp [asm] at h
    simp [asm, h]

theorem cas_impl (e : Endian) (al : Alloc casKind) (hW : 32 ≤ W) {w : Nat} (hw : SubSize w ∨ WordSize W w)
    (o : CO) (p : BitVec W) (old new : BitVec w) (B : Block W w) (hB : B = casBlock e al w o p old new) :
    Implements e B.code B.pre
      (fun m m' rs M => CasSpec e p.toNat w old new m m' (B.out rs) (B.ok rs) ∧
        M = if B.ok rs then okMon o else failMon o) := by
  subst hB
  obtain ⟨h1, h2, h3, hw8⟩ := cmpBits_facts hW hw
  have ht := test_crVal (W := W) hW
  refine implements_loop 1 (fun rs g => (rs.r (al .dst) = p ∧
      (rs.r (al .old)).setWidth (cmpBits w) = old.setWidth (cmpBits w) ∧
        (rs.r (al .new)).setWidth w = new) ∧ g.Clean ∧ g.mon.onRd .plain = rdMon o.release) 60 ?_ ?_
  · rintro rs g ⟨⟨rfl, ho, rfl⟩, hc, hm⟩
    simp [asm, hc, hm, ho, ht, CasSpec, setWidth_inj h1, BitVec.setWidth_setWidth_of_le _ h2,
      BitVec.setWidth_setWidth_of_le _ h3, h3, h2, eq_comm (a := old)]
    intro m
    split
    · next h1 =>
      intro m' ha
      rw [load_congr hw8 ha]
      exact ⟨rfl, h1⟩
    · next h1 => simp [h1]
  · rintro rs m h
    simp [asm] at h
    simp [asm, h, zxArg_pre hW hw h.2.1]

theorem weak_impl (e : Endian) (al : Alloc casKind) (hW : 32 ≤ W) {w : Nat} (hw : SubSize w ∨ WordSize W w)
    (o : CO) (p : BitVec W) (old new : BitVec w) (B : Block W w) (hB : B = weakBlock e al w o p old new) :
    Implements e B.code B.pre
      (fun m m' rs M => WeakCasSpec e p.toNat w old new m m' (B.out rs) (B.ok rs) ∧
        (if B.ok rs then M = okMon o else M = failMon o ∨ M = spurMon o)) := by
  subst hB
  obtain ⟨h1, h2, h3, hw8⟩ := cmpBits_facts hW hw
  have ht := test_crVal (W := W) hW
  refine implements_straight 60 ?_
  rintro rs m h
  simp [asm] at h
  have ho := zxArg_pre hW hw h.2.1
  simp [asm, h, ho, ht, WeakCasSpec, setWidth_inj h1, BitVec.setWidth_setWidth_of_le _ h2,
      BitVec.setWidth_setWidth_of_le _ h3, h3, h2, eq_comm (a := old)]
  intro m
  split
  · next h1 =>
    intro m' ha
    rw [load_congr hw8 ha]
    exact ⟨rfl, h1⟩
  · next h1 => simp [h1]

theorem sub_facts (e : Endian) (hW : 32 ≤ W) {w : Nat} (hw : SubSize w) (p : BitVec W)
    (hal : p.toNat % (w / 8) = 0) :
    (sub e w p).1.toNat + p.toNat % 4 = p.toNat ∧
      (sub e w p).2.1.toNat = bitPos e 32 w (p.toNat % 4) ∧
      (sub e w p).2.2 = lowMask W w <<< bitPos e 32 w (p.toNat % 4) :=
  subword_shifted (e == .little) e (by omega) (by omega) hw p hal (by cases e <;> decide)

/-- the shift amount is a legal 32-bit shift -/
theorem bitPos_lt {e : Endian} {w x : Nat} (hw : SubSize w) (hal : x % (w / 8) = 0) :
    bitPos e 32 w (x % 4) < 32 := by
  rcases hw with rfl | rfl <;> cases e <;> simp [bitPos] at * <;> omega

theorem mask32 {w k : Nat} (hW : 32 ≤ W) : (lowMask W w <<< k).setWidth 32 = lowMask 32 w <<< k := by
  apply BitVec.eq_of_getLsbD_eq
  intro i hi
  have hiW : i < W := by omega
  have : i - k < W := by omega
  have h3 : i - k < 32 := by omega
  simp only [BitVec.getLsbD_setWidth, BitVec.getLsbD_shiftLeft, getLsbD_lowMask, hi, hiW, this, h3]
  simp

/-- `srw` then truncation -/
theorem srw_low {w k : Nat} (hW : 32 ≤ W) (hw : w ≤ W) (x : BitVec 32) :
    ((x.setWidth W) >>> k).setWidth w = (x >>> k).setWidth w := by
  apply BitVec.eq_of_getLsbD_eq
  intro i hi
  have : i < W := by omega
  simp only [BitVec.getLsbD_setWidth, BitVec.getLsbD_ushiftRight, hi, decide_true, Bool.true_and]
  by_cases h : k + i < W
  · simp [h]
  · have : ¬ k + i < 32 := by omega
    simp [h, BitVec.getLsbD_of_ge x (k + i) (by omega)]

theorem sub_swap_impl (e : Endian) (al : Alloc subSwapKind) (hW : 32 ≤ W) {w : Nat} (hw : SubSize w)
    (f : Pairs × Pairs) (p : BitVec W) (hal : p.toNat % (w / 8) = 0) (val : BitVec w) (B : Block W w)
    (hB : B = subSwapBlock e al w f p val) :
    Implements e B.code B.pre
      (fun m m' rs M => SwapSpec e p.toNat w val m m' (B.out rs) ∧ M = rmwMon f) := by
  subst hB
  have hw8 := hw.mod8
  have hfit : 8 * (p.toNat % 4) + w ≤ 32 := subword_fit hw hal
  obtain ⟨hA, hsh, hmk⟩ := sub_facts e hW hw p hal
  have hlt := bitPos_lt (e := e) hw hal
  generalize hoff : p.toNat % 4 = off at *
  generalize hAA : (sub e w p).1.toNat = A at *
  have h64 : bitPos e 32 w off % 64 = bitPos e 32 w off := Nat.mod_eq_of_lt (by omega)
  have hcb : cmpBits w = 32 := by rcases hw with rfl | rfl <;> rfl
  have hwW : w ≤ W := Nat.le_trans hw.le hW
  have hmk2 := mask32 (w := w) (k := bitPos e 32 w off) hW
  refine implements_loop 2 (fun rs g => ((rs.r (al .dst)).toNat = A ∧
      (rs.r (al .shift)).toNat = bitPos e 32 w off ∧
      (rs.r (al .mask)).setWidth 32 = lowMask 32 w <<< bitPos e 32 w off ∧
      (rs.r (al .val)).setWidth 32 = val.setWidth 32 <<< bitPos e 32 w off) ∧ g.Clean ∧
      g.mon.onRd .plain = rdMon f.2) 40 ?_ ?_
  · rintro rs g ⟨⟨h1, hs, hma, hv⟩, hc, hm⟩
    simp [asm, hc, hm, hs, h64, hma, hv, h1, BitVec.setWidth_or, BitVec.setWidth_and, BitVec.setWidth_not hW,
      SwapSpec, BitVec.setWidth_setWidth_of_le _ hW, BitVec.setWidth_setWidth_of_le _ hwW, hW, hwW, srw_low hW hwW]
    intro m m1 hag
    rw [← load_congr (by decide) hag, BitVec.or_comm,
      store_blend_or (by decide) hw8 hfit, extract_shift (by decide) hw8 hfit, hA]
    exact ⟨rfl, rfl⟩
  · rintro rs m h
    simp [asm] at h
    have hv := zxArg_pre hW (.inl hw) h.2.2.2
    rw [hcb] at hv
    simp [asm, h, hsh, hmk, hAA, h64, hv, hmk2, BitVec.setWidth_setWidth_of_le _ hW, hW]

theorem sub_cas_impl (e : Endian) (al : Alloc subCasKind) (hW : 32 ≤ W) {w : Nat} (hw : SubSize w)
    (o : CO) (p : BitVec W) (hal : p.toNat % (w / 8) = 0) (old new : BitVec w) (B : Block W w)
    (hB : B = subCasBlock e al w o p old new) :
    Implements e B.code B.pre
      (fun m m' rs M => CasSpec e p.toNat w old new m m' (B.out rs) (B.ok rs) ∧
        M = if B.ok rs then okMon o else failMon o) := by
  subst hB
  have hw8 := hw.mod8
  have hfit : 8 * (p.toNat % 4) + w ≤ 32 := subword_fit hw hal
  obtain ⟨hA, hsh, hmk⟩ := sub_facts e hW hw p hal
  have hlt := bitPos_lt (e := e) hw hal
  generalize hoff : p.toNat % 4 = off at *
  generalize hAA : (sub e w p).1.toNat = A at *
  have h64 : bitPos e 32 w off % 64 = bitPos e 32 w off := Nat.mod_eq_of_lt (by omega)
  have hcb : cmpBits w = 32 := by rcases hw with rfl | rfl <;> rfl
  have hwW : w ≤ W := Nat.le_trans hw.le hW
  have hmk2 := mask32 (w := w) (k := bitPos e 32 w off) hW
  have ht := test_crVal (W := W) hW
  refine implements_loop 3 (fun rs g => ((rs.r (al .dst)).toNat = A ∧
      (rs.r (al .shift)).toNat = bitPos e 32 w off ∧
      (rs.r (al .mask)).setWidth 32 = lowMask 32 w <<< bitPos e 32 w off ∧
      (rs.r (al .old)).setWidth 32 = old.setWidth 32 <<< bitPos e 32 w off ∧
      (rs.r (al .new)).setWidth 32 = new.setWidth 32 <<< bitPos e 32 w off) ∧ g.Clean ∧
      g.mon.onRd .plain = rdMon o.release) 60 ?_ ?_
  · rintro rs g ⟨⟨h1, hs, hma, ho, hn⟩, hc, hm⟩
    simp [asm, hc, hm, hs, h64, hma, ho, hn, h1, ht, BitVec.setWidth_or, BitVec.setWidth_and, BitVec.setWidth_not hW,
      CasSpec, BitVec.setWidth_setWidth_of_le _ hW, BitVec.setWidth_setWidth_of_le _ hwW, hW, hwW, srw_low hW hwW,
      masked_eq_iff (C := 32) (by decide) hw8 hfit, extract_shift (C := 32) (by decide) hw8 hfit, hA]
    intro m
    split
    · next h =>
      intro m1 hag
      have h2 := load_congr_sub (e := e) (by decide) hw8 hfit hag
      rw [hA] at h2
      rw [← load_congr (w := 32) (by decide) hag, store_blend_or (by decide) hw8 hfit, hA, h2]
      exact ⟨rfl, h, rfl⟩
    · next h => simp [h]
  · rintro rs m h
    simp [asm] at h
    have hv := zxArg_pre hW (.inl hw) h.2.2.2.1
    have hv2 := zxArg_pre hW (.inl hw) h.2.2.2.2
    rw [hcb] at hv hv2
    simp [asm, h, hsh, hmk, hAA, h64, hv, hv2, hmk2, BitVec.setWidth_setWidth_of_le _ hW, hW]

theorem sub_weak_impl (e : Endian) (al : Alloc subCasKind) (hW : 32 ≤ W) {w : Nat} (hw : SubSize w)
    (o : CO) (p : BitVec W) (hal : p.toNat % (w / 8) = 0) (old new : BitVec w) (B : Block W w)
    (hB : B = subWeakBlock e al w o p old new) :
    Implements e B.code B.pre
      (fun m m' rs M => WeakCasSpec e p.toNat w old new m m' (B.out rs) (B.ok rs) ∧
        (if B.ok rs then M = okMon o else M = failMon o ∨ M = spurMon o)) := by
  subst hB
  have hw8 := hw.mod8
  have hfit : 8 * (p.toNat % 4) + w ≤ 32 := subword_fit hw hal
  obtain ⟨hA, hsh, hmk⟩ := sub_facts e hW hw p hal
  have hlt := bitPos_lt (e := e) hw hal
  generalize hoff : p.toNat % 4 = off at *
  generalize hAA : (sub e w p).1.toNat = A at *
  have h64 : bitPos e 32 w off % 64 = bitPos e 32 w off := Nat.mod_eq_of_lt (by omega)
  have hcb : cmpBits w = 32 := by rcases hw with rfl | rfl <;> rfl
  have hwW : w ≤ W := Nat.le_trans hw.le hW
  have hmk2 := mask32 (w := w) (k := bitPos e 32 w off) hW
  have ht := test_crVal (W := W) hW
  refine implements_straight 60 ?_
  rintro rs m h
  simp [asm] at h
  have hv := zxArg_pre hW (.inl hw) h.2.2.2.1
  have hv2 := zxArg_pre hW (.inl hw) h.2.2.2.2
  rw [hcb] at hv hv2
  simp [asm, h, hsh, hmk, hAA, h64, hv, hv2, hmk2, ht, BitVec.setWidth_or, BitVec.setWidth_and, BitVec.setWidth_not hW,
      WeakCasSpec, BitVec.setWidth_setWidth_of_le _ hW, BitVec.setWidth_setWidth_of_le _ hwW, hW, hwW, srw_low hW hwW,
      masked_eq_iff (C := 32) (by decide) hw8 hfit, extract_shift (C := 32) (by decide) hw8 hfit, hA]
  intro m
  split
  · next h =>
    intro m1 hag
    have h2 := load_congr_sub (e := e) (by decide) hw8 hfit hag
    rw [hA] at h2
    rw [← load_congr (w := 32) (by decide) hag, store_blend_or (by decide) hw8 hfit, hA, h2]
    exact ⟨rfl, h, rfl⟩
  · next h => simp [h]

/-! ### 128 bits -/

theorem lq_impl (e : Endian) (al : Alloc lqKind)
    (p : BitVec 64) (B : Block 64 128) (hB : B = lqBlock e al p) :
    Implements e B.code B.pre (fun m m' rs M => LoadSpec e p.toNat 128 m m' (B.out rs) ∧
      M = ({} : Mon).onRd .plain) := by
  subst hB
  refine implements_straight 20 ?_
  intro rs m h
  simp [asm] at h
  simp [asm, h, LoadSpec, ofPair_num, joinHL_halves]

theorem lqAcq_impl (e : Endian) (al : Alloc lqKind) (f : Pairs)
    (p : BitVec 64) (B : Block 64 128) (hB : B = lqAcqBlock e al f p) :
    Implements e B.code B.pre (fun m m' rs M => LoadSpec e p.toNat 128 m m' (B.out rs) ∧ M = ldMon f) := by
  subst hB
  refine implements_straight 20 ?_
  intro rs m h
  simp [asm] at h
  simp [asm, h, LoadSpec, ofPair_num, joinHL_halves]

theorem stq_impl (e : Endian) (al : Alloc stqKind) (f : Pairs)
    (p : BitVec 64) (val : BitVec 128) (B : Block 64 128) (hB : B = stqBlock e al f p val) :
    Implements e B.code B.pre (fun m m' _ M => StoreSpec e p.toNat 128 val m m' ∧ M = stMon f) := by
  subst hB
  refine implements_straight 20 ?_
  intro rs m h
  simp [asm, pairOf_num] at h
  simp [asm, h, StoreSpec, joinHL_halves]

theorem swapq_impl (e : Endian) (al : Alloc swapqKind) (f : Pairs × Pairs)
    (p : BitVec 64) (val : BitVec 128) (B : Block 64 128) (hB : B = swapqBlock e al f p val) :
    Implements e B.code B.pre (fun m m' rs M => SwapSpec e p.toNat 128 val m m' (B.out rs) ∧ M = rmwMon f) := by
  subst hB
  refine implements_loop 1 (fun rs g => (rs.r (al .dst) = p ∧ rs.r (al .val_hi) = highHalf 64 val ∧
        rs.r (al .val_lo) = lowHalf 64 val) ∧
      g.Clean ∧ g.mon.onRd .plain = rdMon f.2) 40 ?_ ?_
  · rintro rs g ⟨⟨rfl, h0, h1⟩, hc, hm⟩
    simp [asm, hc, hm, h0, h1, SwapSpec, ofPair_num, joinHL_halves]
    exact fun m0 m ha => (load_congr (w := 128) rfl ha).symm
  · rintro rs m h
    simp [asm, pairOf_num] at h
    simp [asm, h]

theorem half_cmp {x y : BitVec 128} :
    (lowHalf 64 x ^^^ lowHalf 64 y ||| highHalf 64 x ^^^ highHalf 64 y) = 0#64 ↔ x = y := by
  rw [xor_or_eq_zero, half_eq_iff (h := 64) rfl]

theorem casq_impl (e : Endian) (al : Alloc casqKind) (o : CO)
    (p : BitVec 64) (old new : BitVec 128) (B : Block 64 128) (hB : B = casqBlock e al o p old new) :
    Implements e B.code B.pre
      (fun m m' rs M => CasSpec e p.toNat 128 old new m m' (B.out rs) (B.ok rs) ∧
        M = if B.ok rs then okMon o else failMon o) := by
  subst hB
  have ht := test_crVal (W := 64) (by decide)
  refine implements_loop 1 (fun rs g => (rs.r (al .dst) = p ∧ rs.r (al .old_hi) = highHalf 64 old ∧
        rs.r (al .old_lo) = lowHalf 64 old ∧ rs.r (al .new_hi) = highHalf 64 new ∧
        rs.r (al .new_lo) = lowHalf 64 new) ∧ g.Clean ∧ g.mon.onRd .plain = rdMon o.release) 60 ?_ ?_
  · rintro rs g ⟨⟨rfl, ho0, ho1, hn0, hn1⟩, hc, hm⟩
    simp [asm, -BitVec.or_eq_zero_iff, hc, hm, ho0, ho1, hn0, hn1, ht, CasSpec, ofPair_num, joinHL_halves, half_cmp]
    intro m
    split
    · next h =>
      intro m1 hag
      rw [load_congr (w := 128) rfl hag]
      exact ⟨rfl, h⟩
    · next h => simp [h]
  · rintro rs m h
    simp [asm, pairOf_num] at h
    simp [asm, h]

theorem weakq_impl (e : Endian) (al : Alloc casqKind) (o : CO)
    (p : BitVec 64) (old new : BitVec 128) (B : Block 64 128) (hB : B = weakqBlock e al o p old new) :
    Implements e B.code B.pre
      (fun m m' rs M => WeakCasSpec e p.toNat 128 old new m m' (B.out rs) (B.ok rs) ∧
        (if B.ok rs then M = okMon o else M = failMon o ∨ M = spurMon o)) := by
  subst hB
  have ht := test_crVal (W := 64) (by decide)
  refine implements_straight 60 ?_
  rintro rs m h
  simp [asm, pairOf_num] at h
  obtain ⟨hd, ho0, ho1, hn0, hn1⟩ := h
  simp [asm, -BitVec.or_eq_zero_iff, hd, ho0, ho1, hn0, hn1, ht, WeakCasSpec, ofPair_num, joinHL_halves, half_cmp]
  intro m
  split
  · next h =>
    intro m1 hag
    rw [load_congr (w := 128) rfl hag]
    exact ⟨rfl, h⟩
  · next h => simp [h]

end Verif.PowerPC
