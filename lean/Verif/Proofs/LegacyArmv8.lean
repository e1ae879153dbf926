import Verif.Arch.LegacyArmv8
import Verif.Proofs.Armv8
set_option linter.unusedSimpArgs false
set_option maxRecDepth 4000
namespace Verif.LegacyArmv8
open Armv8 (Conf rd wr rdMon rmwMon pair_cmp word_facts)

theorem load_impl (e : Endian) (al : Alloc loadKind) {w : Nat} (hw : w ≤ 32) (o : Bool)
    (po p : BitVec 32) (B : Block 32 w) (hB : B = loadBlock al w o po p) :
    Implements e B.code B.pre (fun m m' rs M => LoadSpec e p.toNat w m m' (B.out rs) ∧ M = rdMon o) := by
  subst hB
  refine implements_straight 20 ?_
  intro rs m h
  simp [asm] at h
  simp [asm, h, LoadSpec, BitVec.setWidth_setWidth_of_le _ hw, hw]

theorem store_impl (e : Endian) (al : Alloc storeKind) {w : Nat} (hw : w ≤ 32) (o : Bool)
    (pv p : BitVec 32) (val : BitVec w) (B : Block 32 w) (hB : B = storeBlock al w o pv p val) :
    Implements e B.code B.pre (fun m m' _ M => StoreSpec e p.toNat w val m m' ∧
        M = ({} : Mon).onWr (wr o)) := by
  subst hB
  refine implements_straight 20 ?_
  intro rs m h
  simp [asm] at h
  simp [asm, h, StoreSpec, BitVec.setWidth_setWidth_of_le _ hw, hw]

theorem swap_impl (e : Endian) (al : Alloc swapKind) {w : Nat} (hw : w ≤ 32)
    (hw8 : w % 8 = 0) (o : Bool × Bool)
    (po pv p : BitVec 32) (val : BitVec w) (hb : pv ≠ po) (B : Block 32 w)
    (hB : B = swapBlock al w o po pv p val) :
    Implements e B.code B.pre (fun m m' rs M => SwapSpec e p.toNat w val m m' (B.out rs) ∧
        M = rmwMon o) := by
  subst hB
  refine implements_loop 1 (fun rs g => (rs.r (al .dst) = p ∧ (rs.r (al .val)).setWidth w = val ∧
      rs.r (al .out) = po) ∧ g.Clean ∧ g.mon.onRd (rd o.1) = rdMon o.1) 40 ?_ ?_
  · rintro rs g ⟨⟨rfl, rfl, ho⟩, hc, hm⟩
    simp [asm, hc, hm, ho, SwapSpec, BitVec.setWidth_setWidth_of_le _ hw, hw]
    intro m m' ha
    exact (load_congr hw8 ha).symm
  · rintro rs m h
    simp [asm] at h
    simp [asm, h, readCell_miss hb, BitVec.setWidth_setWidth_of_le _ hw, hw]

theorem cas_impl (e : Endian) (c : Conf) (al : Alloc casKind) {w : Nat} (hw : w ≤ 32)
    (hw8 : w % 8 = 0) (o : Bool × Bool) (po pold pnew p : BitVec 32) (old new : BitVec w)
    (hb : Distinct po pold pnew) (B : Block 32 w)
    (hB : B = casFrame al w (casAsm c al w o po pold pnew) po pold pnew p old new) :
    Implements e B.code B.pre
      (fun m m' rs M => (CasSpec e p.toNat w old new m m' (B.out rs) (B.ok rs) ∧ B.assumes rs) ∧
        M = if B.ok rs then rmwMon o else rdMon o.1) := by
  subst hB
  obtain ⟨k⟩ := c
  cases k <;>
  · refine implements_loop 2 (fun rs g => (rs.r (al .dst) = p ∧ rs.r (al .old) = old.setWidth 32 ∧
        (rs.r (al .new)).setWidth w = new ∧ rs.r (al .out) = po) ∧
        g.Clean ∧ g.mon.onRd (rd o.1) = rdMon o.1) 60 ?_ ?_
    · rintro rs g ⟨⟨rfl, ho, rfl, hpo⟩, hc, hm⟩
      simp [asm, hc, hm, ho, hpo, CasSpec, setWidth_inj hw, BitVec.setWidth_setWidth_of_le _ hw, hw]
      intro m h1 m' ha
      rw [load_congr hw8 ha]
      exact ⟨rfl, h1⟩
    · rintro rs m h
      simp [asm] at h
      simp [asm, h, readCell_miss hb.1, readCell_miss hb.2.1, readCell_miss hb.2.2,
        BitVec.setWidth_setWidth_of_le _ hw, hw]

theorem weak_impl (e : Endian) (c : Conf) (al : Alloc casKind) {w : Nat} (hw : w ≤ 32)
    (hw8 : w % 8 = 0) (o : Bool × Bool) (po pold pnew p : BitVec 32) (old new : BitVec w)
    (hb : Distinct po pold pnew) (B : Block 32 w)
    (hB : B = casFrame al w (weakAsm c al w o po pold pnew) po pold pnew p old new) :
    Implements e B.code B.pre
      (fun m m' rs M => (WeakCasSpec e p.toNat w old new m m' (B.out rs) (B.ok rs) ∧ B.assumes rs) ∧
        M = if B.ok rs then rmwMon o else rdMon o.1) := by
  subst hB
  obtain ⟨k⟩ := c
  cases k <;>
  · refine implements_straight 60 ?_
    rintro rs m h
    simp [asm] at h
    simp [asm, h, readCell_miss hb.1, readCell_miss hb.2.1, readCell_miss hb.2.2, WeakCasSpec, setWidth_inj hw,
      BitVec.setWidth_setWidth_of_le _ hw, hw]
    intro m h1 m' ha
    rw [load_congr hw8 ha]
    exact ⟨rfl, h1⟩

/-! ### 64 bits -/

theorem loadd_impl (e : Endian) (al : Alloc loaddKind) (o : Bool)
    (po p : BitVec 32) (B : Block 32 64) (hB : B = loaddBlock e al o po p) :
    Implements e B.code B.pre (fun m m' rs M => LoadSpec e p.toNat 64 m m' (B.out rs) ∧ M = rdMon o) := by
  subst hB
  refine implements_straight 20 ?_
  intro rs m h
  simp [asm] at h
  simp [asm, h, LoadSpec, join_word]

theorem stored_impl (e : Endian) (al : Alloc storedKind) (o : Bool × Bool)
    (pv p : BitVec 32) (val : BitVec 64) (B : Block 32 64) (hB : B = storedBlock e al o pv p val) :
    Implements e B.code B.pre (fun m m' _ M => StoreSpec e p.toNat 64 val m m' ∧ M = rmwMon o) := by
  subst hB
  refine implements_loop 1 (fun rs g => (rs.r (al .dst) = p ∧ rs.r (al .val_lo) = word0 e 32 val ∧
        rs.r (al .val_hi) = word1 e 32 val) ∧
      g.Clean ∧ g.mon.onRd (rd o.1) = rdMon o.1) 40 ?_ ?_
  · rintro rs g ⟨⟨rfl, h0, h1⟩, hc, hm⟩
    simp [asm, hc, hm, h0, h1, StoreSpec, join_word]
  · rintro rs m h
    simp [asm] at h
    simp [asm, h]

theorem swapd_impl (e : Endian) (al : Alloc swapdKind) (o : Bool × Bool)
    (po pv p : BitVec 32) (val : BitVec 64) (hb : pv ≠ po) (B : Block 32 64)
    (hB : B = swapdBlock e al o po pv p val) :
    Implements e B.code B.pre (fun m m' rs M => SwapSpec e p.toNat 64 val m m' (B.out rs) ∧
        M = rmwMon o) := by
  subst hB
  refine implements_loop 1 (fun rs g => (rs.r (al .dst) = p ∧ rs.r (al .val_lo) = word0 e 32 val ∧
        rs.r (al .val_hi) = word1 e 32 val ∧ rs.r (al .out) = po) ∧
      g.Clean ∧ g.mon.onRd (rd o.1) = rdMon o.1) 40 ?_ ?_
  · rintro rs g ⟨⟨rfl, h0, h1, ho⟩, hc, hm⟩
    simp [asm, hc, hm, h0, h1, ho, SwapSpec, join_word]
    intro m m' ha
    exact (load_congr (w := 64) rfl ha).symm
  · rintro rs m h
    simp [asm] at h
    simp [asm, h, readCell2_miss hb]

theorem casd_impl (e : Endian) (c : Conf) (al : Alloc casdKind) (o : Bool × Bool) (po pold pnew p : BitVec 32)
    (old new : BitVec 64) (hb : Distinct po pold pnew) (B : Block 32 64)
    (hB : B = casdFrame e al (casdAsm e c al o po pold pnew) po pold pnew p old new) :
    Implements e B.code B.pre
      (fun m m' rs M => (CasSpec e p.toNat 64 old new m m' (B.out rs) (B.ok rs) ∧ B.assumes rs) ∧
        M = if B.ok rs then rmwMon o else rdMon o.1) := by
  subst hB
  obtain ⟨k⟩ := c
  cases k <;>
  · refine implements_loop 2 (fun rs g => (rs.r (al .dst) = p ∧ rs.r (al .old_lo) = word0 e 32 old ∧
        rs.r (al .old_hi) = word1 e 32 old ∧ rs.r (al .new_lo) = word0 e 32 new ∧
        rs.r (al .new_hi) = word1 e 32 new ∧ rs.r (al .out) = po) ∧
        g.Clean ∧ g.mon.onRd (rd o.1) = rdMon o.1) 60 ?_ ?_
    · rintro rs g ⟨⟨rfl, ho0, ho1, hn0, hn1, hpo⟩, hc, hm⟩
      simp [asm, hc, hm, ho0, ho1, hn0, hn1, hpo, CasSpec, -BitVec.or_eq_zero_iff, pair_cmp, join_word]
      intro m h1 m' ha
      rw [load_congr (w := 64) rfl ha]
      exact ⟨rfl, h1⟩
    · rintro rs m h
      simp [asm] at h
      simp [asm, h, readCell2_miss hb.1, readCell2_miss hb.2.1, readCell2_miss hb.2.2]

theorem weakd_impl (e : Endian) (c : Conf) (al : Alloc casdKind) (o : Bool × Bool) (po pold pnew p : BitVec 32)
    (old new : BitVec 64) (hb : Distinct po pold pnew) (B : Block 32 64)
    (hB : B = casdFrame e al (weakdAsm e c al o po pold pnew) po pold pnew p old new) :
    Implements e B.code B.pre
      (fun m m' rs M => (WeakCasSpec e p.toNat 64 old new m m' (B.out rs) (B.ok rs) ∧ B.assumes rs) ∧
        M = if B.ok rs then rmwMon o else rdMon o.1) := by
  subst hB
  obtain ⟨k⟩ := c
  cases k <;>
  · refine implements_straight 60 ?_
    rintro rs m h
    simp [asm] at h
    simp [asm, h, readCell2_miss hb.1, readCell2_miss hb.2.1, readCell2_miss hb.2.2, WeakCasSpec,
      -BitVec.or_eq_zero_iff, pair_cmp, join_word]
    intro m h1 m' ha
    rw [load_congr (w := 64) rfl ha]
    exact ⟨rfl, h1⟩

end Verif.LegacyArmv8
