import Verif.Arch.LoongArch
import Verif.Core.BackendLemmas
set_option linter.unusedSimpArgs false
namespace Verif.LoongArch
variable {W : Nat}

theorem load_impl (e : Endian) (al : Alloc loadKind) {w : Nat} (hw : w ≤ W) (f : Pairs)
    (p : BitVec W) (B : Block W w) (hB : B = loadBlock al w f p) :
    Implements e B.code B.pre (fun m m' rs M => LoadSpec e p.toNat w m m' (B.out rs) ∧
        M = (({} : Mon).onRd .plain).onFence f) := by
  subst hB
  refine implements_straight 20 ?_
  intro rs m h
  simp [asm] at h
  simp [asm, h, setWidth_signExtend hw, LoadSpec]

theorem store_impl (e : Endian) (al : Alloc storeKind) {w : Nat} (amo : Bool) (p : BitVec W)
    (val : BitVec w) (B : Block W w) (hB : B = storeBlock al w amo p val) :
    Implements e B.code B.pre (fun m m' _ M => StoreSpec e p.toNat w val m m' ∧
        M = if amo then (({} : Mon).onRd { full := true }).onWr { full := true } else ({} : Mon).onWr .plain) := by
  subst hB
  refine implements_straight 20 ?_
  intro rs m h
  simp [asm] at h
  cases amo <;> simp [asm, h, StoreSpec]

theorem sub_store_impl (e : Endian) (al : Alloc storeKind) {w : Nat} (f : Pairs × Pairs) (p : BitVec W)
    (val : BitVec w) (B : Block W w) (hB : B = subStoreBlock al w f p val) :
    Implements e B.code B.pre (fun m m' _ M => StoreSpec e p.toNat w val m m' ∧
        M = ((({} : Mon).onFence f.2).onWr .plain).onFence f.1) := by
  subst hB
  refine implements_straight 20 ?_
  intro rs m h
  simp [asm] at h
  simp [asm, h, StoreSpec]

/-- monitor of a completed LL/SC pair -/
abbrev rmwMon : Mon := ((({} : Mon).onRd .plain).onWr { full := true }).onFence Pairs.full
/-- monitor of a failed comparison -/
abbrev failMon (f : Pairs) : Mon := (({} : Mon).onRd .plain).onFence f

theorem swap_impl (e : Endian) (al : Alloc swapKind) {w : Nat} (hw : w ≤ W) (p : BitVec W)
    (val : BitVec w) (B : Block W w) (hB : B = swapBlock al w p val) :
    Implements e B.code B.pre (fun m m' rs M => SwapSpec e p.toNat w val m m' (B.out rs) ∧
        M = (({} : Mon).onRd { full := true }).onWr { full := true }) := by
  subst hB
  refine implements_straight 20 ?_
  intro rs m h
  simp [asm] at h
  simp [asm, h, SwapSpec, setWidth_signExtend hw]

/-- Word/doubleword CAS, provided the `old` operand arrives sign-extended in its register. -/
theorem cas_impl (e : Endian) (al : Alloc casKind) {w : Nat} (hw8 : w % 8 = 0) (hw : w ≤ W) (hw0 : 0 < w)
    (f : Pairs) (p : BitVec W) (old new : BitVec w) (B : Block W w)
    (hB : B = casBlock al w f p old new) :
    Implements e B.code (fun rs => B.pre rs ∧ rs.r (al .old) = old.signExtend W)
      (fun m m' rs M =>
        (CasSpec e p.toNat w old new m m' (B.out rs) (B.ok rs) ∧ B.assumes rs) ∧
        M = if B.ok rs then rmwMon else failMon f) := by
  subst hB
  have hW : 0 < W := by omega
  have hW' : W ≠ 0 := by omega
  refine implements_loop 0 (fun rs g => (rs.r (al .dst) = p ∧ rs.r (al .old) = old.signExtend W ∧
        (rs.r (al .new)).setWidth w = new) ∧ g.Clean ∧
        g.mon.onRd .plain = ({} : Mon).onRd .plain) 40 ?_ ?_
  · rintro rs g ⟨⟨rfl, ho, rfl⟩, hc, hm⟩
    simp [asm, ho, hc, hm, signExtend_inj hw, setWidth_signExtend hw, one_ne_zero hW, hW', CasSpec]
    intro m h m1 hag
    simp [h, load_congr hw8 hag]
  · rintro rs m ⟨h, h'⟩
    simp [asm] at h
    simp [asm, h, h']

/-- Word/doubleword CAS with arbitrary upper bits in the `old` register. -/
theorem cas_impl_weak (e : Endian) (al : Alloc casKind) {w : Nat} (hw8 : w % 8 = 0) (hw : w ≤ W) (hw0 : 0 < w)
    (f : Pairs) (p : BitVec W) (old new : BitVec w) (B : Block W w)
    (hB : B = casBlock al w f p old new) :
    Implements e B.code B.pre
      (fun m m' rs M =>
        (WeakCasSpec e p.toNat w old new m m' (B.out rs) (B.ok rs) ∧ B.assumes rs) ∧
        M = if B.ok rs then rmwMon else failMon f) := by
  subst hB
  have hW : 0 < W := by omega
  have hW' : W ≠ 0 := by omega
  refine implements_loop 0 (fun rs g => (rs.r (al .dst) = p ∧ (rs.r (al .old)).setWidth w = old ∧
        (rs.r (al .new)).setWidth w = new) ∧ g.Clean ∧
        g.mon.onRd .plain = ({} : Mon).onRd .plain) 40 ?_ ?_
  · rintro rs g ⟨⟨rfl, rfl, rfl⟩, hc, hm⟩
    simp [asm, hc, hm, signExtend_inj hw, setWidth_signExtend hw, one_ne_zero hW, hW', WeakCasSpec]
    intro m h m1 hag
    simp [load_congr hw8 hag]
    rw [← h, setWidth_signExtend hw]
  · rintro rs m h
    simp [asm] at h
    simp [asm, h]

theorem sub_facts (e : Endian) (hW : 32 ≤ W) {w : Nat} (hw : SubSize w) {P : Nat} (p : BitVec P)
    (hal : SubPtr W w p) :
    (sub W e w p).1.toNat + p.toNat % 4 = p.toNat ∧
      (sub W e w p).2.1.toNat % 32 = bitPos e 32 w (p.toNat % 4) ∧ (sub W e w p).2.2 = lowMask W w := by
  have hP : 32 ≤ P ∧ P ≤ W := hal.le hW
  have h := subword_noshift (R := W) (e == .little) e (by omega) (by omega) hw p hal.aligned (by cases e <;> decide)
  refine ⟨?_, h.2.1, h.2.2⟩
  simp only [sub]
  rw [BitVec.toNat_setWidth_of_le hP.2]
  exact h.1

theorem sub_swap_impl (e : Endian) (al : Alloc subSwapKind) (hW : 32 ≤ W) {w : Nat} (hw : SubSize w)
    {P : Nat} (p : BitVec P) (hal : SubPtr W w p) (val : BitVec w) (B : Block W w)
    (hB : B = subSwapBlock e al w p val) :
    Implements e B.code B.pre
      (fun m m' rs M => SwapSpec e p.toNat w val m m' (B.out rs) ∧ M = rmwMon) := by
  subst hB
  have hw8 := hw.mod8
  have hfit : 8 * (p.toNat % 4) + w ≤ 32 := subword_fit hw hal.aligned
  obtain ⟨hA, hsh, hmk⟩ := sub_facts e hW hw p hal
  generalize hoff : p.toNat % 4 = off at *
  generalize hAA : (sub W e w p).1.toNat = A at *
  have hW0 : 0 < W := by omega
  have hmask : (lowMask W w).setWidth 32 = lowMask 32 w := lowMask_setWidth hW
  have hs32 := setWidth_sext32 (w := w) hW hw.le
  refine implements_loop 2 (fun rs g => ((rs.r (al .dst)).toNat = A ∧
      (rs.r (al .shift)).toNat % 32 = bitPos e 32 w off ∧
      (rs.r (al .mask)).setWidth 32 = lowMask 32 w <<< bitPos e 32 w off ∧
      (rs.r (al .val)).setWidth 32 = val.setWidth 32 <<< bitPos e 32 w off) ∧ g.Clean ∧
      g.mon.onRd .plain = ({} : Mon).onRd .plain) 40 ?_ ?_
  · rintro rs g ⟨⟨h1, hs, hma, hv⟩, hc, hm⟩
    simp [asm, hc, hm, hs, hma, hv, h1, setWidth_signExtend hW, one_ne_zero hW0, BitVec.setWidth_xor, BitVec.setWidth_and, BitVec.setWidth_or, BitVec.setWidth_not hW,
      SwapSpec, hs32, isSext_sext hW]
    intro m m1 hag
    rw [← load_congr (by decide) hag, 
      store_blend_or (by decide) hw8 hfit, extract_shift (by decide) hw8 hfit, hA]
    exact ⟨rfl, rfl⟩
  · rintro rs m h
    simp [asm] at h
    simp [asm, h, hsh, hmk, hAA, setWidth_signExtend hW, hmask, zeroExtend_eq e hw8 hw.le]

theorem sub_cas_impl (e : Endian) (al : Alloc subCasKind) (hW : 32 ≤ W) {w : Nat} (hw : SubSize w)
    (f : Pairs) {P : Nat} (p : BitVec P) (hal : SubPtr W w p) (old new : BitVec w) (B : Block W w)
    (hB : B = subCasBlock e al w f p old new) :
    Implements e B.code B.pre
      (fun m m' rs M =>
        (CasSpec e p.toNat w old new m m' (B.out rs) (B.ok rs) ∧ B.assumes rs) ∧
        M = if B.ok rs then rmwMon else failMon f) := by
  subst hB
  have hw8 := hw.mod8
  have hfit : 8 * (p.toNat % 4) + w ≤ 32 := subword_fit hw hal.aligned
  obtain ⟨hA, hsh, hmk⟩ := sub_facts e hW hw p hal
  generalize hoff : p.toNat % 4 = off at *
  generalize hAA : (sub W e w p).1.toNat = A at *
  have hW0 : 0 < W := by omega
  have hW' : W ≠ 0 := by omega
  have hmask : (lowMask W w).setWidth 32 = lowMask 32 w := lowMask_setWidth hW
  have hs32 := setWidth_sext32 (w := w) hW hw.le
  refine implements_loop 3 (fun rs g => ((rs.r (al .dst)).toNat = A ∧
      (rs.r (al .shift)).toNat % 32 = bitPos e 32 w off ∧
      rs.r (al .mask) = (lowMask 32 w <<< bitPos e 32 w off).signExtend W ∧
      rs.r (al .old) = (old.setWidth 32 <<< bitPos e 32 w off).signExtend W ∧
      rs.r (al .new) = (new.setWidth 32 <<< bitPos e 32 w off).signExtend W) ∧ g.Clean ∧
      g.mon.onRd .plain = ({} : Mon).onRd .plain) 40 ?_ ?_
  · rintro rs g ⟨⟨h1, hs, hma, ho, hn⟩, hc, hm⟩
    simp [asm, hc, hm, hs, hma, ho, hn, h1, setWidth_signExtend hW, BitVec.setWidth_xor, BitVec.setWidth_and, BitVec.setWidth_or, BitVec.setWidth_not hW,
      CasSpec, hs32, ← BitVec.signExtend_and, signExtend_inj hW, masked_eq_iff (C := 32) (by decide) hw8 hfit,
      masked_eq_iff' (C := 32) (by decide) hw8 hfit, isSext_sext hW,
      extract_shift (C := 32) (by decide) hw8 hfit, one_ne_zero hW0, hW', hA]
    intro m h m1 hag
    have h2 := load_congr_sub (e := e) (by decide) hw8 hfit hag
    rw [hA] at h2
    simp [h, h2]
    rw [← load_congr (by decide) hag, 
      store_blend_or (by decide) hw8 hfit, hA]
  · rintro rs m h
    simp [asm] at h
    simp [asm, h, hsh, hmk, hAA, setWidth_signExtend hW, hmask, zeroExtend_eq e hw8 hw.le]

end Verif.LoongArch
