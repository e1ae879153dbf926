/-
Bit-level facts about an object inside its aligned container word, used by all sub-word back ends.
-/
import Verif.Core.Mem

namespace Verif

/-- The all-ones mask of a `w`-bit object in a `C`-bit register: `(1 << (size*8)) - 1`
(src/utils.rs l.288). -/
def lowMask (C w : Nat) : BitVec C := (BitVec.allOnes w).setWidth C

theorem getLsbD_lowMask {C w i : Nat} : (lowMask C w).getLsbD i = (decide (i < C) && decide (i < w)) := by
  simp [lowMask, BitVec.getLsbD_setWidth]

section
variable {e : Endian} {m : Mem} {A C w off : Nat}

/-- `((val<<s ^ X) & mask<<s) ^ X` inserts `val` (riscv, loongarch, mips, sparc, powerpc swap/CAS). -/
theorem store_blend_xor (hC : C % 8 = 0) (hw : w % 8 = 0) (hfit : 8 * off + w ≤ C) (v : BitVec w) :
    store e m A C
      (((v.setWidth C <<< bitPos e C w off ^^^ load e m A C) &&& (lowMask C w <<< bitPos e C w off))
        ^^^ load e m A C)
      = store e m (A + off) w v := by
  apply store_sub hC hw hfit
  intro i hi
  have hs : bitPos e C w off + w ≤ C := by cases e <;> simp only [bitPos] <;> omega
  simp only [BitVec.getLsbD_xor, BitVec.getLsbD_and, BitVec.getLsbD_shiftLeft, getLsbD_lowMask,
    BitVec.getLsbD_setWidth, hi, decide_true, Bool.true_and]
  generalize bitPos e C w off = s at *
  by_cases h1 : i < s
  · have : ¬ (s ≤ i ∧ i < s + w) := by omega
    simp [h1, this]
  · by_cases h2 : i < s + w
    · have h3 : s ≤ i ∧ i < s + w := by omega
      have h4 : i - s < w := by omega
      have h5 : i - s < C := by omega
      simp [h1, h3, h4, h5]
    · have h3 : ¬ (s ≤ i ∧ i < s + w) := by omega
      have h4 : ¬ i - s < w := by omega
      simp [h1, h3, h4]

/-- `(X & ~(mask<<s)) | val<<s` inserts `val`. -/
theorem store_blend_or (hC : C % 8 = 0) (hw : w % 8 = 0) (hfit : 8 * off + w ≤ C) (v : BitVec w) :
    store e m A C
      ((load e m A C &&& ~~~(lowMask C w <<< bitPos e C w off)) ||| (v.setWidth C <<< bitPos e C w off))
      = store e m (A + off) w v := by
  apply store_sub hC hw hfit
  intro i hi
  have hs : bitPos e C w off + w ≤ C := by cases e <;> simp only [bitPos] <;> omega
  simp only [BitVec.getLsbD_or, BitVec.getLsbD_not, BitVec.getLsbD_and, BitVec.getLsbD_shiftLeft,
    getLsbD_lowMask, BitVec.getLsbD_setWidth, hi, decide_true, Bool.true_and]
  generalize bitPos e C w off = s at *
  by_cases h1 : i < s
  · have : ¬ (s ≤ i ∧ i < s + w) := by omega
    simp [h1, this]
  · by_cases h2 : i < s + w
    · have h3 : s ≤ i ∧ i < s + w := by omega
      have h4 : i - s < w := by omega
      have h5 : i - s < C := by omega
      simp [h1, h3, h4, h5]
    · have h3 : ¬ (s ≤ i ∧ i < s + w) := by omega
      have h4 : ¬ i - s < w := by omega
      have h6 : v.getLsbD (i - s) = false := BitVec.getLsbD_of_ge _ _ (by omega)
      simp [h1, h3, h4, h6]

/-- Shifting the container right by `s` and truncating gives the object. -/
theorem extract_shift (hC : C % 8 = 0) (hw : w % 8 = 0) (hfit : 8 * off + w ≤ C) :
    (load e m A C >>> bitPos e C w off).setWidth w = load e m (A + off) w := by
  rw [← load_sub hC hw hfit]
  apply BitVec.eq_of_getLsbD_eq
  intro i hi
  simp [hi]

/-- Comparing the masked container with the shifted expected value compares the object. -/
theorem masked_eq_iff (hC : C % 8 = 0) (hw : w % 8 = 0) (hfit : 8 * off + w ≤ C) (v : BitVec w) :
    (load e m A C &&& (lowMask C w <<< bitPos e C w off) = v.setWidth C <<< bitPos e C w off)
      ↔ load e m (A + off) w = v := by
  have hs : bitPos e C w off + w ≤ C := by cases e <;> simp only [bitPos] <;> omega
  rw [← load_sub hC hw hfit]
  generalize bitPos e C w off = s at *
  constructor
  · intro h
    apply BitVec.eq_of_getLsbD_eq
    intro i hi
    have := congrArg (fun x => x.getLsbD (s + i)) h
    simp only [BitVec.getLsbD_and, BitVec.getLsbD_shiftLeft, getLsbD_lowMask,
      BitVec.getLsbD_setWidth] at this
    have h1 : s + i < C := by omega
    have h2 : ¬ s + i < s := by omega
    have h3 : s + i - s = i := by omega
    have h4 : i < C := by omega
    simp only [h1, h2, h3, h4, hi, decide_true, decide_false, Bool.not_false, Bool.and_true,
      Bool.true_and] at this
    rw [BitVec.getLsbD_extractLsb']
    simp [hi, this]
  · intro h
    apply BitVec.eq_of_getLsbD_eq
    intro i hi
    simp only [BitVec.getLsbD_and, BitVec.getLsbD_shiftLeft, getLsbD_lowMask,
      BitVec.getLsbD_setWidth, hi, decide_true, Bool.true_and]
    subst h
    by_cases h1 : i < s
    · simp [h1]
    · by_cases h2 : i < s + w
      · have h4 : i - s < w := by omega
        have h5 : i - s < C := by omega
        have h6 : s + (i - s) = i := by omega
        simp [h1, h4, h5, h6]
      · have h4 : ¬ i - s < w := by omega
        have h5 : i - s < C := by omega
        simp [h1, h4]

/-- Mirror image of `masked_eq_iff`. -/
theorem masked_eq_iff' (hC : C % 8 = 0) (hw : w % 8 = 0) (hfit : 8 * off + w ≤ C) (v : BitVec w) :
    (v.setWidth C <<< bitPos e C w off = load e m A C &&& (lowMask C w <<< bitPos e C w off))
      ↔ load e m (A + off) w = v := by
  rw [eq_comm, masked_eq_iff hC hw hfit]

theorem load_congr_sub {m' : Mem} (hC : C % 8 = 0) (hw : w % 8 = 0) (hfit : 8 * off + w ≤ C)
    (h : Agree m' m A (C / 8)) : load e m' (A + off) w = load e m (A + off) w :=
  load_congr hw (h.mono (by omega) (by omega))

theorem lowMask_setWidth {W C w : Nat} (h : C ≤ W) : (lowMask W w).setWidth C = lowMask C w := by
  apply BitVec.eq_of_getLsbD_eq
  intro i hi
  have h1 : i < W := by omega
  simp only [BitVec.getLsbD_setWidth, getLsbD_lowMask, hi, h1, decide_true, Bool.true_and]

end
end Verif
