import Verif.Arch.LegacyArm
import Verif.Proofs.Arm
set_option linter.unusedSimpArgs false
set_option maxRecDepth 4000
namespace Verif.LegacyArm
open Arm (Conf CasProg WeakProg dmb word_facts CasMons mon1 mon2 mon3 casMons weakMons rmwMon Reading reading_mk pair_cmp)

theorem load_impl (e : Endian) (c : Conf) (al : Alloc (loadKind c)) {w : Nat} (hw : w ≤ 32) (f : Pairs)
    (po p : BitVec 32) (B : Block 32 w) (hB : B = loadBlock c al w f po p) :
    Implements e B.code B.pre (fun m m' rs M => LoadSpec e p.toNat w m m' (B.out rs) ∧
        M = (({} : Mon).onRd .plain).onFence f) := by
  subst hB
  obtain ⟨k, v⟩ := c
  cases k <;>
  · refine implements_straight 20 ?_
    intro rs m h
    simp [asm] at h
    simp [asm, h, LoadSpec, BitVec.setWidth_setWidth_of_le _ hw, hw]

theorem store_impl (e : Endian) (c : Conf) (al : Alloc (storeKind c)) {w : Nat} (hw : w ≤ 32) (f : Pairs × Pairs)
    (pv p : BitVec 32) (val : BitVec w) (B : Block 32 w) (hB : B = storeBlock c al w f pv p val) :
    Implements e B.code B.pre (fun m m' _ M => StoreSpec e p.toNat w val m m' ∧
        M = ((({} : Mon).onFence f.2).onWr .plain).onFence f.1) := by
  subst hB
  obtain ⟨k, v⟩ := c
  cases k <;>
  · refine implements_straight 20 ?_
    intro rs m h
    simp [asm] at h
    simp [asm, h, StoreSpec, BitVec.setWidth_setWidth_of_le _ hw, hw]

theorem swap_impl (e : Endian) (c : Conf) (al : Alloc (swapKind c)) {w : Nat} (hw : w ≤ 32)
    (hw8 : w % 8 = 0) (f : Pairs × Pairs)
    (po pv p : BitVec 32) (val : BitVec w) (hb : pv ≠ po) (B : Block 32 w) (hB : B = swapBlock c al w f po pv p val) :
    Implements e B.code B.pre (fun m m' rs M => SwapSpec e p.toNat w val m m' (B.out rs) ∧
        M = rmwMon f) := by
  subst hB
  obtain ⟨k, v⟩ := c
  cases k <;>
  · refine implements_loop 3 (fun rs g => (rs.r (al .dst) = p ∧ (rs.r (al .val)).setWidth w = val ∧ rs.r (al .out) = po) ∧
      g.Clean ∧ g.mon.onRd .plain = (({} : Mon).onFence f.2).onRd .plain) 40 ?_ ?_
    · rintro rs g ⟨⟨rfl, rfl, hpo⟩, hc, hm⟩
      simp [asm, hc, hm, hpo, SwapSpec, BitVec.setWidth_setWidth_of_le _ hw, hw]
      intro m m' ha
      exact (load_congr hw8 ha).symm
    · rintro rs m h
      simp [asm] at h
      simp [asm, h, readCell_miss hb, BitVec.setWidth_setWidth_of_le _ hw, hw]


theorem cas_impl (e : Endian) (c : Conf) (al : Alloc (casKind c)) {w : Nat} (hw : w ≤ 32)
    (hw8 : w % 8 = 0) (g : CasProg) (po pold pnew p : BitVec 32) (old new : BitVec w)
    (hb : Distinct po pold pnew) (B : Block 32 w)
    (hB : B = casFrame c al w (casAsm c al w po pold pnew g) po pold pnew p old new) :
    Implements e B.code B.pre
      (fun m m' rs M => (CasSpec e p.toNat w old new m m' (B.out rs) (B.ok rs) ∧ B.assumes rs) ∧
        M ∈ if B.ok rs then (casMons g).ok else (casMons g).fail) := by
  subst hB
  obtain ⟨k, v⟩ := c
  cases g with
  | storeRelaxed fs ff =>
    cases k <;> cases v <;>
    · refine implements_loop 2 (fun rs g => (rs.r (al .dst) = p ∧ rs.r (al .old) = old.setWidth 32 ∧
        (rs.r (al .new)).setWidth w = new ∧ rs.r (al .out) = po) ∧ g.Clean ∧ g.mon.onRd .plain = mon1) 60 ?_ ?_
      · rintro rs g ⟨⟨rfl, ho, rfl, hpo⟩, hc, hm⟩
        simp [asm, hc, hm, ho, hpo, CasSpec, casMons, setWidth_inj hw, BitVec.setWidth_setWidth_of_le _ hw, hw]
        intro m h1 m' ha
        rw [load_congr hw8 ha]
        exact ⟨rfl, h1⟩
      · rintro rs m h
        simp [asm] at h
        simp [asm, h, readCell_miss hb.1, readCell_miss hb.2.1, readCell_miss hb.2.2, BitVec.setWidth_setWidth_of_le _ hw, hw]
  | release ff =>
    cases k <;> cases v <;>
    · refine implements_loop 7 (fun rs g => (rs.r (al .dst) = p ∧ rs.r (al .old) = old.setWidth 32 ∧
        (rs.r (al .new)).setWidth w = new ∧ rs.r (al .tmp) = old.setWidth 32 ∧ rs.r (al .out) = po) ∧
        Reading e p.toNat w old g) 60 ?_ ?_
      · rintro rs g ⟨⟨rfl, ho, rfl, hout, hpo⟩, m, M, hM, rfl, hl⟩
        rcases hM with rfl | rfl <;>
        · simp [asm, ho, hout, hpo, CasSpec, casMons, setWidth_inj hw, BitVec.setWidth_setWidth_of_le _ hw, hw, reading_mk]
          intro m' ha
          rw [load_congr hw8 ha]
          exact ⟨hl.symm, hl⟩
      · rintro rs m h
        simp [asm] at h
        simp [asm, h, readCell_miss hb.1, readCell_miss hb.2.1, readCell_miss hb.2.2, reading_mk, CasSpec, casMons, setWidth_inj hw, BitVec.setWidth_setWidth_of_le _ hw, hw]
  | acqrel ff =>
    cases k <;> cases v <;>
    · refine implements_loop 7 (fun rs g => (rs.r (al .dst) = p ∧ rs.r (al .old) = old.setWidth 32 ∧
        (rs.r (al .new)).setWidth w = new ∧ rs.r (al .tmp) = old.setWidth 32 ∧ rs.r (al .out) = po) ∧
        Reading e p.toNat w old g) 60 ?_ ?_
      · rintro rs g ⟨⟨rfl, ho, rfl, hout, hpo⟩, m, M, hM, rfl, hl⟩
        rcases hM with rfl | rfl <;>
        · simp [asm, ho, hout, hpo, CasSpec, casMons, setWidth_inj hw, BitVec.setWidth_setWidth_of_le _ hw, hw, reading_mk]
          intro m' ha
          rw [load_congr hw8 ha]
          exact ⟨hl.symm, hl⟩
      · rintro rs m h
        simp [asm] at h
        simp [asm, h, readCell_miss hb.1, readCell_miss hb.2.1, readCell_miss hb.2.2, reading_mk, CasSpec, casMons, setWidth_inj hw, BitVec.setWidth_setWidth_of_le _ hw, hw]

theorem weak_impl (e : Endian) (c : Conf) (al : Alloc (casKind c)) {w : Nat} (hw : w ≤ 32)
    (hw8 : w % 8 = 0) (g : WeakProg) (po pold pnew p : BitVec 32) (old new : BitVec w)
    (hb : Distinct po pold pnew) (B : Block 32 w)
    (hB : B = casFrame c al w (weakAsm c al w po pold pnew g) po pold pnew p old new) :
    Implements e B.code B.pre
      (fun m m' rs M => (WeakCasSpec e p.toNat w old new m m' (B.out rs) (B.ok rs) ∧ B.assumes rs) ∧
        M ∈ if B.ok rs then (weakMons g).ok else (weakMons g).fail) := by
  subst hB
  obtain ⟨k, v⟩ := c
  cases g <;> cases k <;> cases v <;>
  · refine implements_straight 60 ?_
    rintro rs m h
    simp [asm] at h
    simp [asm, h, readCell_miss hb.1, readCell_miss hb.2.1, readCell_miss hb.2.2, WeakCasSpec, weakMons, setWidth_inj hw, BitVec.setWidth_setWidth_of_le _ hw, hw]
    intro m h1 m' ha
    rw [load_congr hw8 ha]
    exact ⟨rfl, h1⟩

/-! ### 64 bits -/

theorem loadd_impl (e : Endian) (c : Conf) (al : Alloc (loaddKind c)) (f : Pairs)
    (po p : BitVec 32) (B : Block 32 64) (hB : B = loaddBlock e c al f po p) :
    Implements e B.code B.pre (fun m m' rs M => LoadSpec e p.toNat 64 m m' (B.out rs) ∧
        M = (({} : Mon).onRd .plain).onFence f) := by
  subst hB
  obtain ⟨k, v⟩ := c
  cases k <;> cases v <;>
  · refine implements_straight 20 ?_
    intro rs m h
    simp [asm] at h
    simp [asm, h, LoadSpec, join_word]

theorem stored_impl (e : Endian) (c : Conf) (al : Alloc (storedKind c)) (f : Pairs × Pairs)
    (pv p : BitVec 32) (val : BitVec 64) (B : Block 32 64) (hB : B = storedBlock e c al f pv p val) :
    Implements e B.code B.pre (fun m m' _ M => StoreSpec e p.toNat 64 val m m' ∧
        M = rmwMon f) := by
  subst hB
  obtain ⟨k, v⟩ := c
  cases k <;>
  · refine implements_loop 3 (fun rs g => (rs.r (al .dst) = p ∧ rs.r (al .val_lo) = word0 e 32 val ∧
        rs.r (al .val_hi) = word1 e 32 val) ∧
      g.Clean ∧ g.mon.onRd .plain = (({} : Mon).onFence f.2).onRd .plain) 40 ?_ ?_
    · rintro rs g ⟨⟨rfl, h0, h1⟩, hc, hm⟩
      simp [asm, hc, hm, h0, h1, StoreSpec, join_word]
    · rintro rs m h
      simp [asm] at h
      simp [asm, h]

theorem swapd_impl (e : Endian) (c : Conf) (al : Alloc (swapdKind c)) (f : Pairs × Pairs)
    (po pv p : BitVec 32) (val : BitVec 64) (hb : pv ≠ po) (B : Block 32 64) (hB : B = swapdBlock e c al f po pv p val) :
    Implements e B.code B.pre (fun m m' rs M => SwapSpec e p.toNat 64 val m m' (B.out rs) ∧
        M = rmwMon f) := by
  subst hB
  obtain ⟨k, v⟩ := c
  cases k <;>
  · refine implements_loop 3 (fun rs g => (rs.r (al .dst) = p ∧ rs.r (al .val_lo) = word0 e 32 val ∧
        rs.r (al .val_hi) = word1 e 32 val ∧ rs.r (al .out) = po) ∧
      g.Clean ∧ g.mon.onRd .plain = (({} : Mon).onFence f.2).onRd .plain) 40 ?_ ?_
    · rintro rs g ⟨⟨rfl, h0, h1, hpo⟩, hc, hm⟩
      simp [asm, hc, hm, h0, h1, hpo, SwapSpec, join_word]
      intro m m' ha
      exact (load_congr (w := 64) rfl ha).symm
    · rintro rs m h
      simp [asm] at h
      simp [asm, h, readCell2_miss hb]

theorem casd_impl (e : Endian) (c : Conf) (al : Alloc (casdKind c)) (g : CasProg) (po pold pnew p : BitVec 32)
    (old new : BitVec 64) (hb : Distinct po pold pnew) (B : Block 32 64) (hB : B = casdFrame e c al (casdAsm e c al po pold pnew g) po pold pnew p old new) :
    Implements e B.code B.pre
      (fun m m' rs M => (CasSpec e p.toNat 64 old new m m' (B.out rs) (B.ok rs) ∧ B.assumes rs) ∧
        M ∈ if B.ok rs then (casMons g).ok else (casMons g).fail) := by
  subst hB
  obtain ⟨k, v⟩ := c
  cases g with
  | storeRelaxed fs ff =>
    cases k <;> cases v <;>
    · refine implements_loop 2 (fun rs g => (rs.r (al .dst) = p ∧ rs.r (al .old_lo) = word0 e 32 old ∧
        rs.r (al .old_hi) = word1 e 32 old ∧ rs.r (al .new_lo) = word0 e 32 new ∧
        rs.r (al .new_hi) = word1 e 32 new ∧ rs.r (al .out) = po) ∧ g.Clean ∧ g.mon.onRd .plain = mon1) 60 ?_ ?_
      · rintro rs g ⟨⟨rfl, ho0, ho1, hn0, hn1, hpo⟩, hc, hm⟩
        simp [asm, hc, hm, hpo, ho0, ho1, hn0, hn1, CasSpec, casMons, -BitVec.or_eq_zero_iff, pair_cmp, join_word]
        intro m h1 m' ha
        rw [load_congr (w := 64) rfl ha]
        exact ⟨rfl, h1⟩
      · rintro rs m h
        simp [asm] at h
        simp [asm, h, readCell2_miss hb.1, readCell2_miss hb.2.1, readCell2_miss hb.2.2]
  | release ff =>
    cases k <;> cases v <;>
    · refine implements_loop 9 (fun rs g => (rs.r (al .dst) = p ∧ rs.r (al .old_lo) = word0 e 32 old ∧
        rs.r (al .old_hi) = word1 e 32 old ∧ rs.r (al .new_lo) = word0 e 32 new ∧
        rs.r (al .new_hi) = word1 e 32 new ∧ rs.r (al .prev_lo) = word0 e 32 old ∧
        rs.r (al .prev_hi) = word1 e 32 old ∧ rs.r (al .out) = po) ∧ Reading e p.toNat 64 old g) 60 ?_ ?_
      · rintro rs g ⟨⟨rfl, ho0, ho1, hn0, hn1, hp0, hp1, hpo⟩, m, M, hM, rfl, hl⟩
        rcases hM with rfl | rfl <;>
        · simp [asm, ho0, ho1, hn0, hn1, hp0, hp1, hpo, CasSpec, casMons, -BitVec.or_eq_zero_iff, pair_cmp, join_word, reading_mk]
          refine ⟨fun m h => by simp [h], ?_⟩
          intro m' ha
          rw [load_congr (w := 64) rfl ha]
          exact ⟨hl.symm, hl⟩
      · rintro rs m h
        simp [asm] at h
        simp [asm, h, readCell2_miss hb.1, readCell2_miss hb.2.1, readCell2_miss hb.2.2, reading_mk, CasSpec, casMons, -BitVec.or_eq_zero_iff, pair_cmp, join_word]
        exact fun m h => by simp [h]
  | acqrel ff =>
    cases k <;> cases v <;>
    · refine implements_loop 9 (fun rs g => (rs.r (al .dst) = p ∧ rs.r (al .old_lo) = word0 e 32 old ∧
        rs.r (al .old_hi) = word1 e 32 old ∧ rs.r (al .new_lo) = word0 e 32 new ∧
        rs.r (al .new_hi) = word1 e 32 new ∧ rs.r (al .prev_lo) = word0 e 32 old ∧
        rs.r (al .prev_hi) = word1 e 32 old ∧ rs.r (al .out) = po) ∧ Reading e p.toNat 64 old g) 60 ?_ ?_
      · rintro rs g ⟨⟨rfl, ho0, ho1, hn0, hn1, hp0, hp1, hpo⟩, m, M, hM, rfl, hl⟩
        rcases hM with rfl | rfl <;>
        · simp [asm, ho0, ho1, hn0, hn1, hp0, hp1, hpo, CasSpec, casMons, -BitVec.or_eq_zero_iff, pair_cmp, join_word, reading_mk]
          refine ⟨fun m h => by simp [h], ?_⟩
          intro m' ha
          rw [load_congr (w := 64) rfl ha]
          exact ⟨hl.symm, hl⟩
      · rintro rs m h
        simp [asm] at h
        simp [asm, h, readCell2_miss hb.1, readCell2_miss hb.2.1, readCell2_miss hb.2.2, reading_mk, CasSpec, casMons, -BitVec.or_eq_zero_iff, pair_cmp, join_word]
        exact fun m h => by simp [h]

theorem weakd_impl (e : Endian) (c : Conf) (al : Alloc (casdKind c)) (g : WeakProg) (po pold pnew p : BitVec 32)
    (old new : BitVec 64) (hb : Distinct po pold pnew) (B : Block 32 64) (hB : B = casdFrame e c al (weakdAsm e c al po pold pnew g) po pold pnew p old new) :
    Implements e B.code B.pre
      (fun m m' rs M => (WeakCasSpec e p.toNat 64 old new m m' (B.out rs) (B.ok rs) ∧ B.assumes rs) ∧
        M ∈ if B.ok rs then (weakMons g).ok else (weakMons g).fail) := by
  subst hB
  obtain ⟨k, v⟩ := c
  cases g <;> cases k <;> cases v <;>
  · refine implements_straight 60 ?_
    rintro rs m h
    simp [asm] at h
    simp [asm, h, readCell2_miss hb.1, readCell2_miss hb.2.1, readCell2_miss hb.2.2, WeakCasSpec, weakMons, -BitVec.or_eq_zero_iff, pair_cmp, join_word]
    intro m h1 m' ha
    rw [load_congr (w := 64) rfl ha]
    exact ⟨rfl, h1⟩

end Verif.LegacyArm
