import Verif.Arch.LegacyAArch64
import Verif.Proofs.AArch64
set_option linter.unusedSimpArgs false
set_option maxRecDepth 4000
namespace Verif.LegacyAArch64
open AArch64 (Conf Acq RO LdProg StProg rd rdx wr wrp rmwAcc lo ow dmbIsh dmbIshld ldarPairs noFence rmwOrd loadOrd
  storeOrd WSize word_facts lo_zext rdMon xMon amoMon amoRd word_cmp)

theorem load_impl (e : Endian) (al : Alloc loadKind) {w : Nat} (hw : w ≤ 64) (o : Acq)
    (po p : BitVec 64) (B : Block 64 w) (hB : B = loadBlock al w o po p) :
    Implements e B.code B.pre (fun m m' rs M => LoadSpec e p.toNat w m m' (B.out rs) ∧
      M = ({} : Mon).onRd (rd o)) := by
  subst hB
  refine implements_straight 20 ?_
  intro rs m h
  simp [asm] at h
  simp [asm, h, LoadSpec, BitVec.setWidth_setWidth_of_le _ hw, hw]

theorem store_impl (e : Endian) (al : Alloc storeKind) {w : Nat} (hw : w ≤ 64) (o : Bool × Pairs)
    (pv p : BitVec 64) (val : BitVec w) (B : Block 64 w) (hB : B = storeBlock al w o pv p val) :
    Implements e B.code B.pre (fun m m' _ M => StoreSpec e p.toNat w val m m' ∧
        M = (({} : Mon).onWr (wr o.1)).onFence o.2) := by
  subst hB
  refine implements_straight 20 ?_
  intro rs m h
  simp [asm] at h
  simp [asm, h, StoreSpec, BitVec.setWidth_setWidth_of_le _ hw, hw]

theorem swp_impl (e : Endian) (al : Alloc swpKind) {w : Nat} (hw : w ≤ 64) (o : RO)
    (po pv p : BitVec 64) (hd : pv ≠ po) (val : BitVec w) (B : Block 64 w) (hB : B = swpBlock al w o po pv p val) :
    Implements e B.code B.pre (fun m m' rs M => SwapSpec e p.toNat w val m m' (B.out rs) ∧
        M = amoMon o) := by
  subst hB
  refine implements_straight 20 ?_
  intro rs m h
  simp [asm] at h
  simp [asm, h, readCell_miss hd, SwapSpec, BitVec.setWidth_setWidth_of_le _ hw, hw]

theorem swap_impl (e : Endian) (al : Alloc swapKind) {w : Nat} (hw : w ≤ 64)
    (hw8 : w % 8 = 0) (o : RO)
    (po pv p : BitVec 64) (hd : pv ≠ po) (val : BitVec w) (B : Block 64 w) (hB : B = swapBlock al w o po pv p val) :
    Implements e B.code B.pre (fun m m' rs M => SwapSpec e p.toNat w val m m' (B.out rs) ∧
        M = xMon o) := by
  subst hB
  refine implements_loop 1 (fun rs g => (rs.r (al .dst) = p ∧ (rs.r (al .tmp2)).setWidth w = val ∧
      rs.r (al .out) = po) ∧ g.Clean ∧ g.mon.onRd (rdx o.acq) = rdMon o) 40 ?_ ?_
  · rintro rs g ⟨⟨rfl, rfl, ho⟩, hc, hm⟩
    simp [asm, hc, hm, ho, SwapSpec, BitVec.setWidth_setWidth_of_le _ hw, hw]
    intro m m' ha
    exact (load_congr hw8 ha).symm
  · rintro rs m h
    simp [asm] at h
    simp [asm, h, readCell_miss hd, BitVec.setWidth_setWidth_of_le _ hw, hw]

theorem casLse_impl (e : Endian) (al : Alloc casKind) {w : Nat} (hw : WSize w)
    (o : RO) (po pold pnew p : BitVec 64) (hd : Distinct po pold pnew) (old new : BitVec w) (B : Block 64 w)
    (hB : B = casLseBlock al w o po pold pnew p old new) :
    Implements e B.code B.pre
      (fun m m' rs M => (CasSpec e p.toNat w old new m m' (B.out rs) (B.ok rs) ∧ B.assumes rs) ∧
        M = if B.ok rs then amoMon o else amoRd o) := by
  subst hB
  have hle := (word_facts hw).1
  refine implements_straight 60 ?_
  rintro rs m h
  simp [asm] at h
  have hz := lo_zext hw
  simp [asm, h, readCell_miss hd.1, readCell_miss hd.2.1, readCell_miss hd.2.2, hz, CasSpec, setWidth_inj hle,
    BitVec.setWidth_setWidth_of_le _ hle, hle]
  intro m
  refine ⟨fun h => ?_, fun h => ?_⟩
  · simp [h]
  · simp [h]

theorem cas_impl (e : Endian) (al : Alloc casKind) {w : Nat} (hw : WSize w)
    (o : RO) (po pold pnew p : BitVec 64) (hd : Distinct po pold pnew) (old new : BitVec w) (B : Block 64 w)
    (hB : B = casBlock al w o po pold pnew p old new) :
    Implements e B.code B.pre
      (fun m m' rs M => (CasSpec e p.toNat w old new m m' (B.out rs) (B.ok rs) ∧ B.assumes rs) ∧
        M = if B.ok rs then xMon o else rdMon o) := by
  subst hB
  have hle := (word_facts hw).1
  have hw8 := (word_facts hw).2
  have hz := lo_zext hw
  refine implements_loop 2 (fun rs g => (rs.r (al .dst) = p ∧ rs.r (al .old_lo) = old.setWidth 64 ∧
        rs.r (al .new_lo) = new.setWidth 64 ∧ rs.r (al .out) = po) ∧
        g.Clean ∧ g.mon.onRd (rdx o.acq) = rdMon o) 60 ?_ ?_
  · rintro rs g ⟨⟨rfl, ho, hn, hpo⟩, hc, hm⟩
    simp [asm, hc, hm, ho, hn, hpo, hz, CasSpec, setWidth_inj hle, BitVec.setWidth_setWidth_of_le _ hle, hle]
    intro m h1 m' ha
    rw [load_congr hw8 ha]
    exact ⟨rfl, h1⟩
  · rintro rs m h
    simp [asm] at h
    simp [asm, h, readCell_miss hd.1, readCell_miss hd.2.1, readCell_miss hd.2.2]

theorem weak_impl (e : Endian) (al : Alloc casKind) {w : Nat} (hw : WSize w)
    (o : RO) (po pold pnew p : BitVec 64) (hd : Distinct po pold pnew) (old new : BitVec w) (B : Block 64 w)
    (hB : B = weakBlock al w o po pold pnew p old new) :
    Implements e B.code B.pre
      (fun m m' rs M => (WeakCasSpec e p.toNat w old new m m' (B.out rs) (B.ok rs) ∧ B.assumes rs) ∧
        (if B.ok rs then M = xMon o else M = rdMon o ∨ M = (rdMon o).onFence o.fence)) := by
  subst hB
  have hle := (word_facts hw).1
  have hw8 := (word_facts hw).2
  have hz := lo_zext hw
  refine implements_straight 60 ?_
  rintro rs m h
  simp [asm] at h
  simp [asm, h, readCell_miss hd.1, readCell_miss hd.2.1, readCell_miss hd.2.2, hz, WeakCasSpec, setWidth_inj hle,
    BitVec.setWidth_setWidth_of_le _ hle, hle]
  intro m h1 m' ha
  rw [load_congr hw8 ha]
  exact ⟨rfl, h1⟩

/-! ### 128 bits -/

theorem ldp_impl (e : Endian) (al : Alloc ldpKind) (a : Acq) (f : Pairs)
    (po p : BitVec 64) (B : Block 64 128) (hB : B = ldpBlock e al a f po p) :
    Implements e B.code B.pre (fun m m' rs M => LoadSpec e p.toNat 128 m m' (B.out rs) ∧
      M = (({} : Mon).onRd (rd a)).onFence f) := by
  subst hB
  refine implements_straight 20 ?_
  intro rs m h
  simp [asm] at h
  simp [asm, h, LoadSpec, join_word]

theorem ldar_impl (e : Endian) (al : Alloc ldarKind) (a : Acq) (f : Pairs)
    (po p : BitVec 64) (B : Block 64 128) (hB : B = ldarBlock e al a f po p) :
    Implements e B.code B.pre (fun m m' rs M => LoadSpec e p.toNat 128 m m' (B.out rs) ∧
      M = (((({} : Mon).onRd (rd .sc)).onFence ldarPairs).onRd (rd a)).onFence f) := by
  subst hB
  refine implements_straight 20 ?_
  intro rs m h
  simp [asm] at h
  simp [asm, h, LoadSpec, join_word]

theorem ldcasp_impl (e : Endian) (al : Alloc ldcaspKind) (a l : Bool)
    (po p : BitVec 64) (B : Block 64 128) (hB : B = ldcaspBlock e al a l po p) :
    Implements e B.code B.pre (fun m m' rs M => LoadSpec e p.toNat 128 m m' (B.out rs) ∧
      (M = ({} : Mon).onRd (rmwAcc a l) ∨ M = (({} : Mon).onRd (rmwAcc a l)).onWr (rmwAcc a l))) := by
  subst hB
  refine implements_straight 20 ?_
  intro rs m h
  simp [asm] at h
  simp [asm, h, LoadSpec, join_word]
  intro m y
  rw [← y, store_load (w := 128) rfl]

theorem ldxp_impl (e : Endian) (al : Alloc ldxpKind) (a l : Bool)
    (po p : BitVec 64) (B : Block 64 128) (hB : B = ldxpBlock e al a l po p) :
    Implements e B.code B.pre (fun m m' rs M => LoadSpec e p.toNat 128 m m' (B.out rs) ∧
      M = (({} : Mon).onRd (rdx a)).onWr (wr l)) := by
  subst hB
  refine implements_loop 0 (fun rs g => (rs.r (al .src) = p ∧ rs.r (al .out) = po) ∧
      g.Clean ∧ g.mon.onRd (rdx a) = ({} : Mon).onRd (rdx a)) 40 ?_ ?_
  · rintro rs g ⟨⟨rfl, hpo⟩, hc, hm⟩
    have key : ∀ m0 m : Mem, Agree m m0 (rs.r (al .src)).toNat 16 →
        load e m0 (rs.r (al .src)).toNat 128 = load e m (rs.r (al .src)).toNat 128 ∧
        store e m (rs.r (al .src)).toNat 128 (load e m0 (rs.r (al .src)).toNat 128) = m := by
      intro m0 m ha
      have := load_congr (e := e) (w := 128) rfl ha
      rw [← this, store_load (w := 128) rfl]
      exact ⟨rfl, rfl⟩
    simp [asm, hc, hm, hpo, LoadSpec, join_word]
    exact fun m0 => ⟨fun m ha => key m0 m ha, fun mt m ha => key mt m ha⟩
  · rintro rs m h
    simp [asm] at h
    simp [asm, h]

theorem stp_impl (e : Endian) (al : Alloc stpKind) (il : Bool) (acq rel : Pairs)
    (pv p : BitVec 64) (val : BitVec 128) (B : Block 64 128) (hB : B = stpBlock e al il acq rel pv p val) :
    Implements e B.code B.pre (fun m m' _ M => StoreSpec e p.toNat 128 val m m' ∧
      M = ((({} : Mon).onFence rel).onWr (wrp il)).onFence acq) := by
  subst hB
  refine implements_straight 20 ?_
  intro rs m h
  simp [asm] at h
  simp [asm, h, StoreSpec, join_word]

theorem stswpp_impl (e : Endian) (al : Alloc stpKind) (o : RO)
    (pv p : BitVec 64) (val : BitVec 128) (B : Block 64 128) (hB : B = stswppBlock e al o pv p val) :
    Implements e B.code B.pre (fun m m' _ M => StoreSpec e p.toNat 128 val m m' ∧ M = amoMon o) := by
  subst hB
  refine implements_straight 20 ?_
  intro rs m h
  simp [asm] at h
  simp [asm, h, StoreSpec, join_word]

theorem swpp_impl (e : Endian) (al : Alloc swppKind) (o : RO)
    (po pv p : BitVec 64) (hd : pv ≠ po) (val : BitVec 128) (B : Block 64 128) (hB : B = swppBlock e al o po pv p val) :
    Implements e B.code B.pre (fun m m' rs M => SwapSpec e p.toNat 128 val m m' (B.out rs) ∧ M = amoMon o) := by
  subst hB
  refine implements_straight 20 ?_
  intro rs m h
  simp [asm] at h
  simp [asm, h, readCell2_miss hd, SwapSpec, join_word]

theorem stxp_impl (e : Endian) (al : Alloc stxpKind) (o : RO)
    (pv p : BitVec 64) (val : BitVec 128) (B : Block 64 128) (hB : B = stxpBlock e al o pv p val) :
    Implements e B.code B.pre (fun m m' _ M => StoreSpec e p.toNat 128 val m m' ∧ M = xMon o) := by
  subst hB
  refine implements_loop 1 (fun rs g => (rs.r (al .dst) = p ∧ rs.r (al .val_lo) = word0 e 64 val ∧
        rs.r (al .val_hi) = word1 e 64 val) ∧
      g.Clean ∧ g.mon.onRd (rdx o.acq) = rdMon o) 40 ?_ ?_
  · rintro rs g ⟨⟨rfl, h0, h1⟩, hc, hm⟩
    simp [asm, hc, hm, h0, h1, StoreSpec, join_word]
  · rintro rs m h
    simp [asm] at h
    simp [asm, h]

theorem swapx_impl (e : Endian) (al : Alloc swapxKind) (o : RO)
    (po pv p : BitVec 64) (hd : pv ≠ po) (val : BitVec 128) (B : Block 64 128) (hB : B = swapxBlock e al o po pv p val) :
    Implements e B.code B.pre (fun m m' rs M => SwapSpec e p.toNat 128 val m m' (B.out rs) ∧ M = xMon o) := by
  subst hB
  refine implements_loop 1 (fun rs g => (rs.r (al .dst) = p ∧ rs.r (al .val_lo) = word0 e 64 val ∧
        rs.r (al .val_hi) = word1 e 64 val ∧ rs.r (al .out) = po) ∧
      g.Clean ∧ g.mon.onRd (rdx o.acq) = rdMon o) 40 ?_ ?_
  · rintro rs g ⟨⟨rfl, h0, h1, hpo⟩, hc, hm⟩
    simp [asm, hc, hm, h0, h1, hpo, SwapSpec, join_word]
    have key : ∀ m0 m : Mem, Agree m m0 (rs.r (al .dst)).toNat 16 →
        load e m0 (rs.r (al .dst)).toNat 128 = load e m (rs.r (al .dst)).toNat 128 :=
      fun m0 m ha => (load_congr (w := 128) rfl ha).symm
    exact fun m0 => ⟨fun m ha => key m0 m ha, fun mt m ha => key mt m ha⟩
  · rintro rs m h
    simp [asm] at h
    simp [asm, h, readCell2_miss hd]

theorem casp_impl (e : Endian) (al : Alloc caspKind) (o : RO)
    (po pold pnew p : BitVec 64) (hd : Distinct po pold pnew) (old new : BitVec 128) (B : Block 64 128)
    (hB : B = caspBlock e al o po pold pnew p old new) :
    Implements e B.code B.pre
      (fun m m' rs M => (CasSpec e p.toNat 128 old new m m' (B.out rs) (B.ok rs) ∧ B.assumes rs) ∧
        M = if B.ok rs then amoMon o else amoRd o) := by
  subst hB
  refine implements_straight 60 ?_
  rintro rs m h
  simp [asm] at h
  simp [asm, h, readCell2_miss hd.1, readCell2_miss hd.2.1, readCell2_miss hd.2.2, CasSpec, join_word, word_cmp]
  intro m
  refine ⟨fun h => ?_, fun h => ?_⟩
  · simp [h]
  · simp [h]

theorem casx_impl (e : Endian) (al : Alloc casxKind) (o : RO)
    (po pold pnew p : BitVec 64) (hd : Distinct po pold pnew) (old new : BitVec 128) (B : Block 64 128)
    (hB : B = casxBlock e al o po pold pnew p old new) :
    Implements e B.code B.pre
      (fun m m' rs M => (CasSpec e p.toNat 128 old new m m' (B.out rs) (B.ok rs) ∧ B.assumes rs) ∧
        M = xMon o) := by
  subst hB
  refine implements_loop 2 (fun rs g => (rs.r (al .dst) = p ∧ rs.r (al .old_lo) = word0 e 64 old ∧
        rs.r (al .old_hi) = word1 e 64 old ∧ rs.r (al .new_lo) = word0 e 64 new ∧
        rs.r (al .new_hi) = word1 e 64 new ∧ rs.r (al .out) = po) ∧
        g.Clean ∧ g.mon.onRd (rdx o.acq) = rdMon o) 60 ?_ ?_
  · rintro rs g ⟨⟨rfl, ho0, ho1, hn0, hn1, hpo⟩, hc, hm⟩
    simp [asm, hc, hm, ho0, ho1, hn0, hn1, hpo, lo, CasSpec, join_word]
    have flag : ∀ x : BitVec 128, BitVec.setWidth 32
        (if word1 e 64 x = word1 e 64 old then
          BitVec.setWidth 64 (BitVec.setWidth 32 (if word0 e 64 x = word0 e 64 old then 0#64 else 1#64))
        else BitVec.setWidth 64
          (BitVec.setWidth 32 (if word0 e 64 x = word0 e 64 old then 0#64 else 1#64) + 1#32)) = 0#32 ↔
        x = old := by
      intro x
      rw [← word_cmp (e := e) (x := x)]
      by_cases h0 : word0 e 64 x = word0 e 64 old <;> by_cases h1 : word1 e 64 x = word1 e 64 old <;>
        simp [h0, h1]
    have key : ∀ m0 : Mem, if load e m0 (rs.r (al .dst)).toNat 128 = old then
          ∀ m : Mem, Agree m m0 (rs.r (al .dst)).toNat 16 →
            load e m0 (rs.r (al .dst)).toNat 128 = load e m (rs.r (al .dst)).toNat 128 ∧
              load e m (rs.r (al .dst)).toNat 128 = old
        else ∀ m : Mem, Agree m m0 (rs.r (al .dst)).toNat 16 →
            load e m0 (rs.r (al .dst)).toNat 128 = load e m (rs.r (al .dst)).toNat 128 ∧
              ¬load e m (rs.r (al .dst)).toNat 128 = old ∧
                store e m (rs.r (al .dst)).toNat 128 (load e m0 (rs.r (al .dst)).toNat 128) = m := by
      intro m0
      split
      · intro m ha
        have := load_congr (e := e) (w := 128) rfl ha
        simp_all
      · intro m ha
        have := load_congr (e := e) (w := 128) rfl ha
        rw [← this, store_load (w := 128) rfl]
        simp_all
    simp only [flag]
    exact fun m => ⟨key m, key⟩
  · rintro rs m h
    simp [asm] at h
    simp [asm, h, readCell2_miss hd.1, readCell2_miss hd.2.1, readCell2_miss hd.2.2]

end Verif.LegacyAArch64
