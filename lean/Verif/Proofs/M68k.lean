import Verif.Arch.M68k
import Verif.Core.BackendLemmas
set_option linter.unusedSimpArgs false
namespace Verif.M68k

/-- monitor of a read -/
abbrev rdMon : Mon := ({} : Mon).onRd .plain
/-- monitor of a write -/
abbrev wrMon : Mon := ({} : Mon).onWr .plain
/-- monitor of a read-modify-write -/
abbrev rmwMon : Mon := (({} : Mon).onRd .plain).onWr .plain

theorem Size.le {w : Nat} (hw : Size w) : w ≤ 32 := by rcases hw with (rfl | rfl) | rfl <;> decide
theorem Size.mod8 {w : Nat} (hw : Size w) : w % 8 = 0 := by rcases hw with (rfl | rfl) | rfl <;> decide

/-- the low bits of a merged register -/
theorem mergeLow_low {w : Nat} (hw : w ≤ 32) (x : BitVec w) (r : BitVec 32) : (mergeLow x r).setWidth w = x := by
  apply BitVec.eq_of_getLsbD_eq
  intro i hi
  have h32 : i < 32 := by omega
  simp only [mergeLow, BitVec.getLsbD_setWidth, BitVec.getLsbD_or, BitVec.getLsbD_shiftLeft, hi, h32]
  simp

theorem load_impl (al : Alloc loadKind) {w : Nat} (hw : w ≤ 32) (p : BitVec 32) (B : Block 32 w)
    (hB : B = loadBlock al w p) :
    Implements .big B.code B.pre (fun m m' rs M => LoadSpec .big p.toNat w m m' (B.out rs) ∧ M = rdMon) := by
  subst hB
  refine implements_straight 20 ?_
  intro rs m h
  simp [asm] at h
  simp [asm, h, LoadSpec, mergeLow_low hw]

theorem store_impl (al : Alloc storeKind) {w : Nat} (p : BitVec 32) (val : BitVec w) (B : Block 32 w)
    (hB : B = storeBlock al w p val) :
    Implements .big B.code B.pre (fun m m' _ M => StoreSpec .big p.toNat w val m m' ∧ M = wrMon) := by
  subst hB
  refine implements_straight 20 ?_
  intro rs m h
  simp [asm] at h
  simp [asm, h, StoreSpec]

theorem swap_impl (al : Alloc swapKind) {w : Nat} (hw : w ≤ 32) (p : BitVec 32) (val : BitVec w) (B : Block 32 w)
    (hB : B = swapBlock al w p val) :
    Implements .big B.code B.pre
      (fun m m' rs M => SwapSpec .big p.toNat w val m m' (B.out rs) ∧ M = rmwMon) := by
  subst hB
  refine implements_loop 1 (fun rs g => (rs.r (al .dst) = p ∧ (rs.r (al .val)).setWidth w = val) ∧
      g.Clean ∧ g.mon.onRd .plain = rdMon) 40 ?_ ?_
  · rintro rs g ⟨⟨rfl, rfl⟩, hc, hm⟩
    simp [asm, hc, hm, SwapSpec, mergeLow_low hw]
    intro m
    by_cases h : load .big m (rs.r (al .dst)).toNat w = (rs.r (al .out)).setWidth w
    · simp [h]
    · simp [h]
  · rintro rs m h
    simp [asm] at h
    simp [asm, h]

theorem cas_impl (al : Alloc casKind) {w : Nat} (hw : w ≤ 32) (p : BitVec 32) (old new : BitVec w) (B : Block 32 w)
    (hB : B = casBlock al w p old new) :
    Implements .big B.code B.pre
      (fun m m' rs M => CasSpec .big p.toNat w old new m m' (B.out rs) (B.ok rs) ∧
        M = if B.ok rs then rmwMon else rdMon) := by
  subst hB
  refine implements_straight 20 ?_
  rintro rs m h
  simp [asm] at h
  obtain ⟨rfl, rfl, rfl⟩ := h
  simp [asm, CasSpec, mergeLow_low hw, mergeLow_low (show 8 ≤ 32 by decide)]
  intro m
  by_cases h : load .big m (rs.r (al .dst)).toNat w = (rs.r (al .out)).setWidth w
  · simp [h]
  · simp [h, mergeLow_low hw]

end Verif.M68k
