/-
C20: weak compare_exchange blocks (one attempt of load-linked / store-conditional) that run alone do not fail
spuriously.
-/
import Verif.Core.Alone
import Verif.Proofs.Arm
import Verif.Proofs.Armv8
import Verif.Proofs.AArch64
import Verif.Proofs.PowerPC
import Verif.Proofs.LegacyArm
import Verif.Proofs.LegacyArmv8
import Verif.Proofs.LegacyAArch64

namespace Verif.Arm
theorem weak_alone (e : Endian) (c : Conf) (al : Alloc (casKind c)) {w : Nat} (hw : w ≤ 32)
    (hw8 : w % 8 = 0) (g : WeakProg) (p : BitVec 32) (old new : BitVec w) (B : Block 32 w)
    (hB : B = casFrame e c al w (weakAsm c al w g) p old new) {m m' : Mem} {rs : RS 32} (hr : B.Alone e m rs m') :
    load e m p.toNat w = old → B.ok rs = true := by
  subst hB
  refine hr.post (Q := fun m rs => load e m p.toNat w = old → Block.ok _ rs = true) 60 ?_
  clear hr
  obtain ⟨k, v⟩ := c
  have hz := zeroExtend_eq e hw8 hw
  cases g <;> cases k <;> cases v <;>
  · rintro rs m resv h
    simp [asm] at h
    simp [asm, h, hz, setWidth_inj hw, BitVec.setWidth_setWidth_of_le _ hw, hw]

theorem weakd_alone (e : Endian) (c : Conf) (al : Alloc (casdKind c)) (g : WeakProg) (p : BitVec 32)
    (old new : BitVec 64) (B : Block 32 64) (hB : B = casdFrame e c al (weakdAsm e c al g) p old new)
    {m m' : Mem} {rs : RS 32} (hr : B.Alone e m rs m') :
    load e m p.toNat 64 = old → B.ok rs = true := by
  subst hB
  refine hr.post (Q := fun m rs => load e m p.toNat 64 = old → Block.ok _ rs = true) 60 ?_
  clear hr
  obtain ⟨k, v⟩ := c
  cases g <;> cases k <;> cases v <;>
  · rintro rs m resv h
    simp [asm, pairOf_true] at h
    simp [asm, h, -BitVec.or_eq_zero_iff, pair_cmp, ofPair_true, join_word]
end Verif.Arm

namespace Verif.Armv8
theorem weak_alone (e : Endian) (c : Conf) (al : Alloc casKind) {w : Nat} (hw : w ≤ 32)
    (hw8 : w % 8 = 0) (o : Bool × Bool) (p : BitVec 32) (old new : BitVec w) (B : Block 32 w) (hB : B = casFrame e al w (weakAsm c al w o) p old new)
    {m m' : Mem} {rs : RS 32} (hr : B.Alone e m rs m') : load e m p.toNat w = old → B.ok rs = true := by
  subst hB
  refine hr.post (Q := fun m rs => load e m p.toNat w = old → Block.ok _ rs = true) 60 ?_
  clear hr
  obtain ⟨k⟩ := c
  have hz := zeroExtend_eq e hw8 hw
  cases k <;>
  · rintro rs m resv h
    simp [asm] at h
    simp [asm, h, hz, setWidth_inj hw, BitVec.setWidth_setWidth_of_le _ hw, hw]

theorem weakd_alone (e : Endian) (c : Conf) (al : Alloc casdKind) (o : Bool × Bool) (p : BitVec 32)
    (old new : BitVec 64) (B : Block 32 64) (hB : B = casdFrame e al (weakdAsm e c al o) p old new)
    {m m' : Mem} {rs : RS 32} (hr : B.Alone e m rs m') : load e m p.toNat 64 = old → B.ok rs = true := by
  subst hB
  refine hr.post (Q := fun m rs => load e m p.toNat 64 = old → Block.ok _ rs = true) 60 ?_
  clear hr
  obtain ⟨k⟩ := c
  cases k <;>
  · rintro rs m resv h
    simp [asm, pairOf_true] at h
    simp [asm, h, -BitVec.or_eq_zero_iff, pair_cmp, ofPair_true, join_word]

end Verif.Armv8

namespace Verif.AArch64
theorem weak_alone (e : Endian) (al : Alloc weakKind) {w : Nat} (hw : WSize w)
    (o : RO) (p : BitVec 64) (old new : BitVec w) (B : Block 64 w) (hB : B = weakBlock al w o p old new)
    {m m' : Mem} {rs : RS 64} (hr : B.Alone e m rs m') : load e m p.toNat w = old → B.ok rs = true := by
  subst hB
  refine hr.post (Q := fun m rs => load e m p.toNat w = old → Block.ok _ rs = true) 60 ?_
  clear hr
  have hle := (word_facts hw).1
  have hz := lo_zext hw
  rintro rs m resv h
  simp [asm] at h
  obtain ⟨h1, h2, h3⟩ := h
  simp [asm, h1, h2, h3, lo_of h2, hz, setWidth_inj hle, BitVec.setWidth_setWidth_of_le _ hle, hle]

end Verif.AArch64

namespace Verif.PowerPC
variable {W : Nat}
theorem weak_alone (e : Endian) (al : Alloc casKind) (hW : 32 ≤ W) {w : Nat} (hw : SubSize w ∨ WordSize W w)
    (o : CO) (p : BitVec W) (old new : BitVec w) (B : Block W w) (hB : B = weakBlock e al w o p old new)
    {m m' : Mem} {rs : RS W} (hr : B.Alone e m rs m') : load e m p.toNat w = old → B.ok rs = true := by
  subst hB
  refine hr.post (Q := fun m rs => load e m p.toNat w = old → Block.ok _ rs = true) 60 ?_
  clear hr
  obtain ⟨h1, h2, h3, hw8⟩ := cmpBits_facts hW hw
  have ht := test_crVal (W := W) hW
  rintro rs m resv h
  simp [asm] at h
  have ho := zxArg_pre hW hw h.2.1
  simp [asm, h, ho, ht, setWidth_inj h1, BitVec.setWidth_setWidth_of_le _ h2,
      BitVec.setWidth_setWidth_of_le _ h3, h3, h2, eq_comm (a := old)]

theorem sub_weak_alone (e : Endian) (al : Alloc subCasKind) (hW : 32 ≤ W) {w : Nat} (hw : SubSize w)
    (o : CO) (p : BitVec W) (hal : p.toNat % (w / 8) = 0) (old new : BitVec w) (B : Block W w) (hB : B = subWeakBlock e al w o p old new)
    {m m' : Mem} {rs : RS W} (hr : B.Alone e m rs m') : load e m p.toNat w = old → B.ok rs = true := by
  subst hB
  refine hr.post (Q := fun m rs => load e m p.toNat w = old → Block.ok _ rs = true) 60 ?_
  clear hr
  have hw8 := hw.mod8
  have hfit : 8 * (p.toNat % 4) + w ≤ 32 := subword_fit hw hal
  obtain ⟨hA, hsh, hmk⟩ := sub_facts e hW hw p hal
  have hlt := bitPos_lt (e := e) hw hal
  generalize hoff : p.toNat % 4 = off at *
  generalize hAA : (sub e w p).1.toNat = A at *
  have h64 : bitPos e 32 w off % 64 = bitPos e 32 w off := Nat.mod_eq_of_lt (by omega)
  have hcb : cmpBits w = 32 := by rcases hw with rfl | rfl <;> rfl
  have hwW : w ≤ W := Nat.le_trans hw.le hW
  have hmk2 := mask32 (w := w) (k := bitPos e 32 w off) hW
  have ht := test_crVal (W := W) hW
  rintro rs m resv h
  simp [asm] at h
  have hv := zxArg_pre hW (.inl hw) h.2.2.2.1
  have hv2 := zxArg_pre hW (.inl hw) h.2.2.2.2
  rw [hcb] at hv hv2
  simp [asm, h, hsh, hmk, hAA, h64, hv, hv2, hmk2, ht, BitVec.setWidth_or, BitVec.setWidth_and, BitVec.setWidth_not hW,
      BitVec.setWidth_setWidth_of_le _ hW, BitVec.setWidth_setWidth_of_le _ hwW, hW, hwW, srw_low hW hwW,
      masked_eq_iff (C := 32) (by decide) hw8 hfit, extract_shift (C := 32) (by decide) hw8 hfit, hA]

theorem weakq_alone (e : Endian) (al : Alloc casqKind) (o : CO)
    (p : BitVec 64) (old new : BitVec 128) (B : Block 64 128) (hB : B = weakqBlock e al o p old new)
    {m m' : Mem} {rs : RS 64} (hr : B.Alone e m rs m') : load e m p.toNat 128 = old → B.ok rs = true := by
  subst hB
  refine hr.post (Q := fun m rs => load e m p.toNat 128 = old → Block.ok _ rs = true) 60 ?_
  clear hr
  have ht := test_crVal (W := 64) (by decide)
  rintro rs m resv h
  simp [asm, pairOf_num] at h
  obtain ⟨hd, ho0, ho1, hn0, hn1⟩ := h
  simp [asm, -BitVec.or_eq_zero_iff, hd, ho0, ho1, hn0, hn1, ht, ofPair_num, joinHL_halves, half_cmp]

end Verif.PowerPC

namespace Verif.LegacyArm
open Arm (Conf WeakProg pair_cmp)
theorem weak_alone (e : Endian) (c : Conf) (al : Alloc (casKind c)) {w : Nat} (hw : w ≤ 32)
    (g : WeakProg) (po pold pnew p : BitVec 32) (old new : BitVec w)
    (hb : Distinct po pold pnew) (B : Block 32 w) (hB : B = casFrame c al w (weakAsm c al w po pold pnew g) po pold pnew p old new)
    {m m' : Mem} {rs : RS 32} (hr : B.Alone e m rs m') : load e m p.toNat w = old → B.ok rs = true := by
  subst hB
  refine hr.post (Q := fun m rs => load e m p.toNat w = old → Block.ok _ rs = true) 60 ?_
  clear hr
  obtain ⟨k, v⟩ := c
  cases g <;> cases k <;> cases v <;>
  · rintro rs m resv h
    simp [asm] at h
    simp [asm, h, readCell_miss hb.1, readCell_miss hb.2.1, readCell_miss hb.2.2, setWidth_inj hw,
      BitVec.setWidth_setWidth_of_le _ hw, hw]

theorem weakd_alone (e : Endian) (c : Conf) (al : Alloc (casdKind c)) (g : WeakProg) (po pold pnew p : BitVec 32)
    (old new : BitVec 64) (hb : Distinct po pold pnew) (B : Block 32 64) (hB : B = casdFrame e c al (weakdAsm e c al po pold pnew g) po pold pnew p old new)
    {m m' : Mem} {rs : RS 32} (hr : B.Alone e m rs m') : load e m p.toNat 64 = old → B.ok rs = true := by
  subst hB
  refine hr.post (Q := fun m rs => load e m p.toNat 64 = old → Block.ok _ rs = true) 60 ?_
  clear hr
  obtain ⟨k, v⟩ := c
  cases g <;> cases k <;> cases v <;>
  · rintro rs m resv h
    simp [asm] at h
    simp [asm, h, readCell2_miss hb.1, readCell2_miss hb.2.1, readCell2_miss hb.2.2, -BitVec.or_eq_zero_iff, pair_cmp,
      join_word]

end Verif.LegacyArm

namespace Verif.LegacyArmv8
open Armv8 (Conf)
open Arm (pair_cmp)
theorem weak_alone (e : Endian) (c : Conf) (al : Alloc casKind) {w : Nat} (hw : w ≤ 32)
    (o : Bool × Bool) (po pold pnew p : BitVec 32) (old new : BitVec w)
    (hb : Distinct po pold pnew) (B : Block 32 w) (hB : B = casFrame al w (weakAsm c al w o po pold pnew) po pold pnew p old new)
    {m m' : Mem} {rs : RS 32} (hr : B.Alone e m rs m') : load e m p.toNat w = old → B.ok rs = true := by
  subst hB
  refine hr.post (Q := fun m rs => load e m p.toNat w = old → Block.ok _ rs = true) 60 ?_
  clear hr
  obtain ⟨k⟩ := c
  cases k <;>
  · rintro rs m resv h
    simp [asm] at h
    simp [asm, h, readCell_miss hb.1, readCell_miss hb.2.1, readCell_miss hb.2.2, setWidth_inj hw,
      BitVec.setWidth_setWidth_of_le _ hw, hw]

theorem weakd_alone (e : Endian) (c : Conf) (al : Alloc casdKind) (o : Bool × Bool) (po pold pnew p : BitVec 32)
    (old new : BitVec 64) (hb : Distinct po pold pnew) (B : Block 32 64) (hB : B = casdFrame e al (weakdAsm e c al o po pold pnew) po pold pnew p old new)
    {m m' : Mem} {rs : RS 32} (hr : B.Alone e m rs m') : load e m p.toNat 64 = old → B.ok rs = true := by
  subst hB
  refine hr.post (Q := fun m rs => load e m p.toNat 64 = old → Block.ok _ rs = true) 60 ?_
  clear hr
  obtain ⟨k⟩ := c
  cases k <;>
  · rintro rs m resv h
    simp [asm] at h
    simp [asm, h, readCell2_miss hb.1, readCell2_miss hb.2.1, readCell2_miss hb.2.2, -BitVec.or_eq_zero_iff, pair_cmp,
      join_word]

end Verif.LegacyArmv8

namespace Verif.LegacyAArch64
open AArch64 (WSize RO word_facts lo_zext)
theorem weak_alone (e : Endian) (al : Alloc casKind) {w : Nat} (hw : WSize w)
    (o : RO) (po pold pnew p : BitVec 64) (hd : Distinct po pold pnew) (old new : BitVec w) (B : Block 64 w) (hB : B = weakBlock al w o po pold pnew p old new)
    {m m' : Mem} {rs : RS 64} (hr : B.Alone e m rs m') : load e m p.toNat w = old → B.ok rs = true := by
  subst hB
  refine hr.post (Q := fun m rs => load e m p.toNat w = old → Block.ok _ rs = true) 60 ?_
  clear hr
  have hle := (word_facts hw).1
  have hz := lo_zext hw
  rintro rs m resv h
  simp [asm] at h
  simp [asm, h, readCell_miss hd.1, readCell_miss hd.2.1, readCell_miss hd.2.2, hz, setWidth_inj hle,
    BitVec.setWidth_setWidth_of_le _ hle, hle]

end Verif.LegacyAArch64
