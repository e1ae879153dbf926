/-
Object sizes and facts shared by the back ends that access 8/16-bit objects through the containing
aligned 32-bit word.
-/
import Verif.Core.Utils
import Verif.Core.BV

namespace Verif

/-- Object sizes that use word/doubleword code: 32 bits, and 64 bits on a 64-bit machine. -/
def WordSize (W w : Nat) : Prop := w = 32 ∨ (w = 64 ∧ W = 64)
/-- Sub-word sizes. -/
def SubSize (w : Nat) : Prop := w = 8 ∨ w = 16

theorem SubSize.mod8 {w : Nat} (h : SubSize w) : w % 8 = 0 := by rcases h with rfl | rfl <;> rfl
theorem SubSize.le {w : Nat} (h : SubSize w) : w ≤ 32 := by rcases h with rfl | rfl <;> decide
theorem SubSize.pos {w : Nat} (h : SubSize w) : 0 < w := by rcases h with rfl | rfl <;> decide
theorem WordSize.mod8 {W w : Nat} (h : WordSize W w) : w % 8 = 0 := by
  rcases h with rfl | ⟨rfl, _⟩ <;> rfl
theorem WordSize.pos {W w : Nat} (h : WordSize W w) : 0 < w := by
  rcases h with rfl | ⟨rfl, _⟩ <;> decide
theorem WordSize.le {W w : Nat} (hW : 32 ≤ W) (h : WordSize W w) : w ≤ W := by
  rcases h with rfl | ⟨rfl, rfl⟩ <;> omega
theorem WordSize.eqW {W w : Nat} (h : WordSize W w) (hne : w ≠ 32 ∨ W = 32) : w = W := by
  rcases h with rfl | ⟨rfl, h⟩ <;> omega
theorem size_le {W : Nat} (hW : 32 ≤ W) {w : Nat} (h : SubSize w ∨ WordSize W w) : w ≤ W := by
  rcases h with (rfl | rfl) | rfl | ⟨rfl, rfl⟩ <;> omega

theorem setWidth_sext32 {W w : Nat} (hW : 32 ≤ W) (hw : w ≤ 32) (x : BitVec 32) :
    (x.signExtend W).setWidth w = x.setWidth w := by
  rw [← BitVec.setWidth_setWidth_of_le (x.signExtend W) hw, setWidth_signExtend hW]

/-- `x` is the sign extension of its low 32 bits. -/
def IsSext {W : Nat} (x : BitVec W) : Prop := (x.setWidth 32).signExtend W = x
instance {W : Nat} (x : BitVec W) : Decidable (IsSext x) := by unfold IsSext; infer_instance

theorem isSext_sext {W : Nat} (hW : 32 ≤ W) (x : BitVec 32) : IsSext (x.signExtend W) := by
  unfold IsSext; rw [setWidth_signExtend hW]

end Verif
