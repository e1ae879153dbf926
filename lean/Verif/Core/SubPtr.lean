/-
Pointers to sub-word objects: aligned to their size; as wide as registers or, on 64-bit registers with an ILP32 ABI, 32
bits wide.
-/
import Verif.Core.Utils

namespace Verif

/-- A pointer `p` of `P` bits to an object of `w` bits on a machine with registers of `W` bits: aligned (the types in
src/lib.rs l.809-826), and of a width for which src/gen/utils.rs l.30-100 defines `ptr_reg!`. -/
structure SubPtr (W w : Nat) {P : Nat} (p : BitVec P) : Prop where
  aligned : p.toNat % (w / 8) = 0
  width : P = W ∨ (P = 32 ∧ W = 64)

theorem SubPtr.native {W w : Nat} {p : BitVec W} (h : p.toNat % (w / 8) = 0) : SubPtr W w p := ⟨h, .inl rfl⟩
theorem SubPtr.ilp32 {w : Nat} {p : BitVec 32} (h : p.toNat % (w / 8) = 0) : SubPtr 64 w p := ⟨h, .inr ⟨rfl, rfl⟩⟩

theorem SubPtr.le {W w P : Nat} {p : BitVec P} (h : SubPtr W w p) (hW : 32 ≤ W) : 32 ≤ P ∧ P ≤ W := by
  have := h.width; omega

/-- The aligned pointer as `ptr_reg!` passes it. -/
theorem SubPtr.subword_aligned {W w P R size : Nat} {p : BitVec P} (h : SubPtr W w p) (hW : 32 ≤ W) (cfg : SubWordCfg) :
    ((createSubWordMaskValues cfg P R size p).1.setWidth W).toNat = 4 * (p.toNat / 4) := by
  have := h.le hW
  rw [BitVec.toNat_setWidth_of_le this.2, Verif.subword_aligned _ (by omega)]

end Verif
