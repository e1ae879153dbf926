import Verif.Arch.LegacyLoongArch
import Verif.Proofs.LoongArch
set_option linter.unusedSimpArgs false
namespace Verif.LegacyLoongArch
open LoongArch (sub sub_facts rmwMon failMon)
variable {W : Nat}

theorem load_impl (e : Endian) (al : Alloc loadKind) {w : Nat} (hw : w ≤ W) (f : Pairs)
    (po p : BitVec W) (B : Block W w) (hB : B = loadBlock al w f po p) :
    Implements e B.code B.pre (fun m m' rs M => LoadSpec e p.toNat w m m' (B.out rs) ∧
        M = (({} : Mon).onRd .plain).onFence f) := by
  subst hB
  refine implements_straight 20 ?_
  intro rs m h
  simp [asm] at h
  simp [asm, h, setWidth_signExtend hw, LoadSpec]

theorem store_impl (e : Endian) (al : Alloc storeKind) {w : Nat} (hw : w ≤ W) (amo : Bool) (pv p : BitVec W)
    (val : BitVec w) (B : Block W w) (hB : B = storeBlock al w amo pv p val) :
    Implements e B.code B.pre (fun m m' _ M => StoreSpec e p.toNat w val m m' ∧
        M = if amo then (({} : Mon).onRd { full := true }).onWr { full := true } else ({} : Mon).onWr .plain) := by
  subst hB
  refine implements_straight 20 ?_
  intro rs m h
  simp [asm] at h
  cases amo <;> simp [asm, h, StoreSpec, setWidth_signExtend hw]

theorem sub_store_impl (e : Endian) (al : Alloc storeKind) {w : Nat} (hw : w ≤ W) (f : Pairs × Pairs)
    (pv p : BitVec W) (val : BitVec w) (B : Block W w) (hB : B = subStoreBlock al w f pv p val) :
    Implements e B.code B.pre (fun m m' _ M => StoreSpec e p.toNat w val m m' ∧
        M = ((({} : Mon).onFence f.2).onWr .plain).onFence f.1) := by
  subst hB
  refine implements_straight 20 ?_
  intro rs m h
  simp [asm] at h
  simp [asm, h, StoreSpec, setWidth_signExtend hw]

theorem swap_impl (e : Endian) (al : Alloc swapKind) {w : Nat} (hw : w ≤ W) (po pv p : BitVec W)
    (val : BitVec w) (hb : pv ≠ po) (B : Block W w) (hB : B = swapBlock al w po pv p val) :
    Implements e B.code B.pre (fun m m' rs M => SwapSpec e p.toNat w val m m' (B.out rs) ∧
        M = (({} : Mon).onRd { full := true }).onWr { full := true }) := by
  subst hB
  refine implements_straight 20 ?_
  intro rs m h
  simp [asm] at h
  simp [asm, h, SwapSpec, setWidth_signExtend hw, readCell_miss hb]

theorem cas_impl (e : Endian) (al : Alloc casKind) {w : Nat} (hw8 : w % 8 = 0) (hw : w ≤ W) (hw0 : 0 < w)
    (f : Pairs) (po pold pnew p : BitVec W) (old new : BitVec w) (hb : pold ≠ po ∧ pnew ≠ po ∧ pnew ≠ pold)
    (B : Block W w) (hB : B = casBlock al w f po pold pnew p old new) :
    Implements e B.code B.pre
      (fun m m' rs M =>
        (CasSpec e p.toNat w old new m m' (B.out rs) (B.ok rs) ∧ B.assumes rs) ∧
        M = if B.ok rs then rmwMon else failMon f) := by
  subst hB
  have hW : 0 < W := by omega
  have hW' : W ≠ 0 := by omega
  refine implements_loop 2 (fun rs g => (rs.r (al .dst) = p ∧ rs.r (al .out) = po ∧
        rs.r (al .old) = old.signExtend W ∧ rs.r (al .new) = new.signExtend W) ∧ g.Clean ∧
        g.mon.onRd .plain = ({} : Mon).onRd .plain) 40 ?_ ?_
  · rintro rs g ⟨⟨rfl, ho, hol, hn⟩, hc, hm⟩
    simp [asm, ho, hol, hn, hc, hm, signExtend_inj hw, setWidth_signExtend hw, one_ne_zero hW, hW', CasSpec]
    intro m
    split <;> rename_i h
    rotate_left
    · simp [h]
    · intro m1 hag
      simp [h, load_congr hw8 hag]
  · rintro rs m h
    simp [asm] at h
    simp [asm, h, readCell_miss hb.1, readCell_miss hb.2.1, readCell_miss hb.2.2, setWidth_signExtend hw]

theorem sub_swap_impl (e : Endian) (al : Alloc subSwapKind) (hW : 32 ≤ W) {w : Nat} (hw : SubSize w)
    (po pv : BitVec W) {P : Nat} (p : BitVec P) (hal : SubPtr W w p) (val : BitVec w) (hb : pv ≠ po) (B : Block W w)
    (hB : B = subSwapBlock e al w po pv p val) :
    Implements e B.code B.pre
      (fun m m' rs M => SwapSpec e p.toNat w val m m' (B.out rs) ∧ M = rmwMon) := by
  subst hB
  have hw8 := hw.mod8
  have hfit : 8 * (p.toNat % 4) + w ≤ 32 := subword_fit hw hal.aligned
  obtain ⟨hA, hsh, hmk⟩ := sub_facts e hW hw p hal
  generalize hoff : p.toNat % 4 = off at *
  generalize hAA : (sub W e w p).1.toNat = A at *
  have hW0 : 0 < W := by omega
  have hmask : (lowMask W w).setWidth 32 = lowMask 32 w := lowMask_setWidth hW
  have hs32 := setWidth_sext32 (w := w) hW hw.le
  have hv32 : (val.setWidth W).setWidth 32 = val.setWidth 32 := BitVec.setWidth_setWidth_of_le val hW
  refine implements_loop 5 (fun rs g => ((rs.r (al .dst)).toNat = A ∧ rs.r (al .out) = po ∧
      (rs.r (al .shift)).toNat % 32 = bitPos e 32 w off ∧
      (rs.r (al .mask)).setWidth 32 = lowMask 32 w <<< bitPos e 32 w off ∧
      (rs.r (al .val)).setWidth 32 = val.setWidth 32 <<< bitPos e 32 w off) ∧ g.Clean ∧
      g.mon.onRd .plain = ({} : Mon).onRd .plain) 40 ?_ ?_
  · rintro rs g ⟨⟨h1, ho, hs, hma, hv⟩, hc, hm⟩
    simp [asm, hc, hm, hs, hma, hv, h1, ho, setWidth_signExtend hW, one_ne_zero hW0, BitVec.setWidth_xor, BitVec.setWidth_and, BitVec.setWidth_or, BitVec.setWidth_not hW,
      SwapSpec, hs32, isSext_sext hW]
    intro m m1 hag
    rw [← load_congr (by decide) hag, BitVec.xor_comm (load e m1 _ 32), BitVec.xor_comm (load e m1 _ 32),
      store_blend_xor (by decide) hw8 hfit, extract_shift (by decide) hw8 hfit, hA]
    exact ⟨rfl, rfl⟩
  · rintro rs m h
    simp [asm] at h
    simp [asm, h, hsh, hmk, hAA, setWidth_signExtend hW, hmask, readCell_miss hb, hv32]

theorem sub_cas_impl (e : Endian) (al : Alloc subCasKind) (hW : 32 ≤ W) {w : Nat} (hw : SubSize w)
    (f : Pairs) (po pold pnew : BitVec W) {P : Nat} (p : BitVec P) (hal : SubPtr W w p) (old new : BitVec w)
    (hb : pold ≠ po ∧ pnew ≠ po ∧ pnew ≠ pold) (B : Block W w)
    (hB : B = subCasBlock e al w f po pold pnew p old new) :
    Implements e B.code B.pre
      (fun m m' rs M =>
        (CasSpec e p.toNat w old new m m' (B.out rs) (B.ok rs) ∧ B.assumes rs) ∧
        M = if B.ok rs then rmwMon else failMon f) := by
  subst hB
  have hw8 := hw.mod8
  have hfit : 8 * (p.toNat % 4) + w ≤ 32 := subword_fit hw hal.aligned
  obtain ⟨hA, hsh, hmk⟩ := sub_facts e hW hw p hal
  generalize hoff : p.toNat % 4 = off at *
  generalize hAA : (sub W e w p).1.toNat = A at *
  have hW0 : 0 < W := by omega
  have hW' : W ≠ 0 := by omega
  have hmask : (lowMask W w).setWidth 32 = lowMask 32 w := lowMask_setWidth hW
  have hs32 := setWidth_sext32 (w := w) hW hw.le
  have hv32 : ∀ x : BitVec w, (x.setWidth W).setWidth 32 = x.setWidth 32 :=
    fun x => BitVec.setWidth_setWidth_of_le x hW
  refine implements_loop 8 (fun rs g => ((rs.r (al .dst)).toNat = A ∧ rs.r (al .out) = po ∧
      (rs.r (al .shift)).toNat % 32 = bitPos e 32 w off ∧
      rs.r (al .mask) = (lowMask 32 w <<< bitPos e 32 w off).signExtend W ∧
      rs.r (al .tmp) = (lowMask 32 w <<< bitPos e 32 w off).signExtend W ∧
      rs.r (al .old) = (old.setWidth 32 <<< bitPos e 32 w off).signExtend W ∧
      rs.r (al .tmp2) = (old.setWidth 32 <<< bitPos e 32 w off).signExtend W ∧
      rs.r (al .new) = (new.setWidth 32 <<< bitPos e 32 w off).signExtend W) ∧ g.Clean ∧
      g.mon.onRd .plain = ({} : Mon).onRd .plain) 40 ?_ ?_
  · rintro rs g ⟨⟨h1, hou, hs, hma, hma', ho, ho', hn⟩, hc, hm⟩
    simp [asm, hc, hm, hs, hma, ho, hma', ho', hn, h1, hou, setWidth_signExtend hW, BitVec.setWidth_xor, BitVec.setWidth_and, BitVec.setWidth_or, BitVec.setWidth_not hW,
      CasSpec, hs32, ← BitVec.signExtend_and, signExtend_inj hW, masked_eq_iff (C := 32) (by decide) hw8 hfit,
      masked_eq_iff' (C := 32) (by decide) hw8 hfit, isSext_sext hW,
      extract_shift (C := 32) (by decide) hw8 hfit, one_ne_zero hW0, hW', hA]
    intro m
    split <;> rename_i h
    rotate_left
    · simp [h]
    intro m1 hag
    have h2 := load_congr_sub (e := e) (by decide) hw8 hfit hag
    rw [hA] at h2
    simp [h, h2]
    rw [← load_congr (by decide) hag,
      store_blend_or (by decide) hw8 hfit, hA]
  · rintro rs m h
    simp [asm] at h
    simp [asm, h, hsh, hmk, hAA, setWidth_signExtend hW, hmask, readCell_miss hb.1, readCell_miss hb.2.1,
      readCell_miss hb.2.2, hv32]

end Verif.LegacyLoongArch
