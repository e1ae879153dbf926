/-
Small bit-vector facts shared by the architecture proofs.
-/
namespace Verif

theorem setWidth_signExtend {w W : Nat} (hw : w ≤ W) (x : BitVec w) :
    (x.signExtend W).setWidth w = x := by
  apply BitVec.eq_of_getLsbD_eq
  intro i hi
  simp [BitVec.getLsbD_signExtend, BitVec.getLsbD_setWidth, hi]
  omega

theorem signExtend_inj {w W : Nat} (hw : w ≤ W) {x y : BitVec w} :
    x.signExtend W = y.signExtend W ↔ x = y := by
  constructor
  · intro h
    have := congrArg (BitVec.setWidth w) h
    rwa [setWidth_signExtend hw, setWidth_signExtend hw] at this
  · rintro rfl; rfl

theorem one_ne_zero {W : Nat} (hW : 0 < W) : (1#W : BitVec W) ≠ 0#W := by
  intro h
  have := congrArg BitVec.toNat h
  simp at this; omega

/-- An arbitrary nonzero register value. -/
def nz (W j : Nat) : BitVec W := BitVec.ofNat W (j % (2 ^ W - 1) + 1)

theorem nz_ne {W : Nat} (hW : 0 < W) (j : Nat) : nz W j ≠ 0#W := by
  intro h
  have h1 := congrArg BitVec.toNat h
  have h2 : 2 ≤ 2 ^ W := Nat.pow_le_pow_right (n := 2) (by decide) hW
  have h3 : j % (2 ^ W - 1) < 2 ^ W - 1 := Nat.mod_lt _ (by omega)
  simp only [nz, BitVec.toNat_ofNat, Nat.zero_mod] at h1
  rw [Nat.mod_eq_of_lt (by omega)] at h1
  omega

end Verif

namespace Verif

theorem setWidth_inj {w W : Nat} (hw : w ≤ W) {x y : BitVec w} :
    x.setWidth W = y.setWidth W ↔ x = y := by
  constructor
  · intro h
    have := congrArg (BitVec.setWidth w) h
    simpa [BitVec.setWidth_setWidth_of_le _ hw, hw] using this
  · rintro rfl; rfl

end Verif
