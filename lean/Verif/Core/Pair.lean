/-
src/utils.rs: `Pair`, `MaybeUninit64`, `MaybeUninit128` — a double-width value seen as two
register-width halves.
-/
import Verif.Core.Utils
import Verif.Core.Attr

namespace Verif

/-- Byte offsets of the fields `lo` and `hi` of `Pair<T>` (src/utils.rs l.221-241), for `h`-bit halves;
`loFirst` is `cfg!(any(target_endian = "little", target_arch = "aarch64" | "arm" | "arm64ec"))`. -/
def pairLoOff (loFirst : Bool) (h : Nat) : Nat := if loFirst then 0 else h / 8
/-- see `pairLoOff` -/
def pairHiOff (loFirst : Bool) (h : Nat) : Nat := if loFirst then h / 8 else 0

/-- `MaybeUninitN { $ty: v }.pair` (src/utils.rs l.197-220): write the value into the `#[repr(C)]`
union, read the two fields of the pair. Result (lo, hi). -/
def pairOf (loFirst : Bool) (e : Endian) {w : Nat} (h : Nat) (v : BitVec w) : BitVec h × BitVec h :=
  let m := store e (fun _ => 0#8) 0 w v
  (load e m (pairLoOff loFirst h) h, load e m (pairHiOff loFirst h) h)

/-- `MaybeUninitN { pair: Pair { lo, hi } }.$ty`: write the two fields, read the value. -/
def ofPair (loFirst : Bool) (e : Endian) (w : Nat) {h : Nat} (lo hi : BitVec h) : BitVec w :=
  load e (store e (store e (fun _ => 0#8) (pairLoOff loFirst h) h lo) (pairHiOff loFirst h) h hi) 0 w

/-! ### The two words of a double-width access, in address order -/

/-- The word at the lower address. -/
def word0 (e : Endian) (h : Nat) {w : Nat} (x : BitVec w) : BitVec h := x.extractLsb' (bitPos e w h 0) h
/-- The word at the higher address. -/
def word1 (e : Endian) (h : Nat) {w : Nat} (x : BitVec w) : BitVec h :=
  x.extractLsb' (bitPos e w h (h / 8)) h
/-- The double-width value with word `a` at the lower and `b` at the higher address. -/
def join01 (e : Endian) (w : Nat) {h : Nat} (a b : BitVec h) : BitVec w :=
  match e with
  | .little => (b ++ a).setWidth w
  | .big => (a ++ b).setWidth w

section
variable {e : Endian} {w h : Nat}

theorem word0_load (hh : w = h + h) (h8 : h % 8 = 0) (m : Mem) (a : Nat) :
    word0 e h (load e m a w) = load e m a h := by
  rw [word0, load_sub (by omega) h8 (by omega)]; rfl

theorem word1_load (hh : w = h + h) (h8 : h % 8 = 0) (m : Mem) (a : Nat) :
    word1 e h (load e m a w) = load e m (a + h / 8) h := by
  rw [word1, load_sub (by omega) h8 (by omega)]

theorem pairOf_true (hh : w = h + h) (h8 : h % 8 = 0) (v : BitVec w) :
    pairOf true e h v = (word0 e h v, word1 e h v) := by
  simp only [pairOf, pairLoOff, pairHiOff, if_true]
  have h1 := word0_load (e := e) hh h8 (store e (fun _ => 0#8) 0 w v) 0
  have h2 := word1_load (e := e) hh h8 (store e (fun _ => 0#8) 0 w v) 0
  rw [load_store (by omega)] at h1 h2
  rw [h1, h2, Nat.zero_add]

theorem pairOf_false (hh : w = h + h) (h8 : h % 8 = 0) (v : BitVec w) :
    pairOf false e h v = (word1 e h v, word0 e h v) := by
  have := pairOf_true (e := e) hh h8 v
  simp only [pairOf, pairLoOff, pairHiOff, if_true, Prod.mk.injEq] at this
  simp only [pairOf, pairLoOff, pairHiOff, Bool.false_eq_true, if_false, this.1, this.2]

theorem join_word (hh : w = h + h) (h8 : h % 8 = 0) (x : BitVec w) : join01 e w (word0 e h x) (word1 e h x) = x := by
  apply BitVec.eq_of_getLsbD_eq
  intro i hi
  cases e <;>
  · simp only [join01, word0, word1, bitPos, BitVec.getLsbD_setWidth, BitVec.getLsbD_append,
      BitVec.getLsbD_extractLsb', hi, decide_true, Bool.true_and]
    by_cases h1 : i < h
    · simp only [h1, decide_true, if_true, Bool.true_and]
      congr 1; first | rfl | omega
    · have h2 : i - h < h := by omega
      simp only [h1, h2, decide_true, Bool.true_and, if_false]
      congr 1; omega

theorem word0_join (hh : w = h + h) (h8 : h % 8 = 0) (a b : BitVec h) : word0 e h (join01 e w a b) = a := by
  apply BitVec.eq_of_getLsbD_eq
  intro i hi
  cases e
  · have h0 : 0 + i < w := by omega
    have h1 : 0 + i < h := by omega
    simp [join01, word0, bitPos, BitVec.getLsbD_append, hi]
    intro _; omega
  · simp only [join01, word0, bitPos, BitVec.getLsbD_setWidth, BitVec.getLsbD_append,
      BitVec.getLsbD_extractLsb', hi, decide_true, Bool.true_and]
    have h1 : w - h - 8 * 0 + i < w := by omega
    have h2 : ¬ w - h - 8 * 0 + i < h := by omega
    have h3 : w - h - 8 * 0 + i - h = i := by omega
    simp only [h1, h2, h3, decide_true, Bool.true_and, if_false]

theorem word1_join (hh : w = h + h) (h8 : h % 8 = 0) (a b : BitVec h) : word1 e h (join01 e w a b) = b := by
  apply BitVec.eq_of_getLsbD_eq
  intro i hi
  cases e
  · simp only [join01, word1, bitPos, BitVec.getLsbD_setWidth, BitVec.getLsbD_append,
      BitVec.getLsbD_extractLsb', hi, decide_true, Bool.true_and]
    have h1 : 8 * (h / 8) + i < w := by omega
    have h2 : ¬ 8 * (h / 8) + i < h := by omega
    have h3 : 8 * (h / 8) + i - h = i := by omega
    simp only [h1, h2, h3, decide_true, Bool.true_and, if_false]
  · simp only [join01, word1, bitPos, BitVec.getLsbD_setWidth, BitVec.getLsbD_append,
      BitVec.getLsbD_extractLsb', hi, decide_true, Bool.true_and]
    have h1 : w - h - 8 * (h / 8) + i < w := by omega
    have h2 : w - h - 8 * (h / 8) + i < h := by omega
    have h3 : w - h - 8 * (h / 8) + i = i := by omega
    simp only [h3, hi, decide_true, Bool.true_and, if_true]
    have : i < w := by omega
    simp [this]

theorem word_ext (hh : w = h + h) (h8 : h % 8 = 0) {x y : BitVec w} (h0 : word0 e h x = word0 e h y)
    (h1 : word1 e h x = word1 e h y) : x = y := by
  rw [← join_word (e := e) hh h8 x, h0, h1, join_word hh h8]

theorem word_eq_iff (hh : w = h + h) (h8 : h % 8 = 0) {x y : BitVec w} :
    (word0 e h x = word0 e h y ∧ word1 e h x = word1 e h y) ↔ x = y :=
  ⟨fun ⟨h0, h1⟩ => word_ext hh h8 h0 h1, by rintro rfl; exact ⟨rfl, rfl⟩⟩

theorem ofPair_true (hh : w = h + h) (h8 : h % 8 = 0) (lo hi : BitVec h) :
    ofPair true e w lo hi = join01 e w lo hi := by
  apply word_ext (e := e) hh h8
  · rw [word0_join hh h8]
    simp only [ofPair, pairLoOff, pairHiOff, if_true]
    rw [word0_load hh h8, load_store_disjoint h8 (by omega), load_store h8]
  · rw [word1_join hh h8]
    simp only [ofPair, pairLoOff, pairHiOff, if_true]
    rw [word1_load hh h8, Nat.zero_add, load_store h8]

theorem ofPair_false (hh : w = h + h) (h8 : h % 8 = 0) (lo hi : BitVec h) :
    ofPair false e w lo hi = join01 e w hi lo := by
  apply word_ext (e := e) hh h8
  · rw [word0_join hh h8]
    simp only [ofPair, pairLoOff, pairHiOff, Bool.false_eq_true, if_false]
    rw [word0_load hh h8, load_store h8]
  · rw [word1_join hh h8]
    simp only [ofPair, pairLoOff, pairHiOff, Bool.false_eq_true, if_false]
    rw [word1_load hh h8, Nat.zero_add, load_store_disjoint h8 (by omega), load_store h8]

/-! ### The numeric view, on targets where `lo` is the numerically low half -/

/-- numerically low half -/
def lowHalf (h : Nat) {w : Nat} (x : BitVec w) : BitVec h := x.extractLsb' 0 h
/-- numerically high half -/
def highHalf (h : Nat) {w : Nat} (x : BitVec w) : BitVec h := x.extractLsb' h h
/-- value with the given halves -/
def joinHL (w : Nat) {h : Nat} (hi lo : BitVec h) : BitVec w := (hi ++ lo).setWidth w

theorem lowHalf_eq (hh : w = h + h) (h8 : h % 8 = 0) (x : BitVec w) :
    lowHalf h x = match e with | .little => word0 e h x | .big => word1 e h x := by
  cases e
  · rfl
  · have : w - h - 8 * (h / 8) = 0 := by omega
    simp only [lowHalf, word1, bitPos, this]

theorem highHalf_eq (hh : w = h + h) (h8 : h % 8 = 0) (x : BitVec w) :
    highHalf h x = match e with | .little => word1 e h x | .big => word0 e h x := by
  cases e
  · have : 8 * (h / 8) = h := by omega
    simp only [highHalf, word1, bitPos, this]
  · have : w - h - 8 * 0 = h := by omega
    simp only [highHalf, word0, bitPos, this]

theorem pairOf_num (hh : w = h + h) (h8 : h % 8 = 0) (v : BitVec w) :
    pairOf (e == .little) e h v = (lowHalf h v, highHalf h v) := by
  cases e
  · rw [show (Endian.little == Endian.little) = true from rfl, pairOf_true hh h8,
      lowHalf_eq (e := .little) hh h8, highHalf_eq (e := .little) hh h8]
  · rw [show (Endian.big == Endian.little) = false from rfl, pairOf_false hh h8,
      lowHalf_eq (e := .big) hh h8, highHalf_eq (e := .big) hh h8]

theorem ofPair_num (hh : w = h + h) (h8 : h % 8 = 0) (lo hi : BitVec h) :
    ofPair (e == .little) e w lo hi = joinHL w hi lo := by
  cases e
  · rw [show (Endian.little == Endian.little) = true from rfl, ofPair_true hh h8]; rfl
  · rw [show (Endian.big == Endian.little) = false from rfl, ofPair_false hh h8]; rfl

theorem joinHL_halves (hh : w = h + h) (x : BitVec w) : joinHL w (highHalf h x) (lowHalf h x) = x := by
  apply BitVec.eq_of_getLsbD_eq
  intro i hi
  simp only [joinHL, lowHalf, highHalf, BitVec.getLsbD_setWidth, BitVec.getLsbD_append,
    BitVec.getLsbD_extractLsb', hi, decide_true, Bool.true_and]
  by_cases h1 : i < h
  · simp [h1]
  · have h2 : i - h < h := by omega
    have h3 : h + (i - h) = i := by omega
    simp [h1, h2, h3]

theorem lowHalf_join (hh : w = h + h) (hi lo : BitVec h) : lowHalf h (joinHL w hi lo) = lo := by
  apply BitVec.eq_of_getLsbD_eq
  intro i h1
  have h2 : i < w := by omega
  simp [joinHL, lowHalf, BitVec.getLsbD_append, h1, h2]

theorem highHalf_join (hh : w = h + h) (hi lo : BitVec h) : highHalf h (joinHL w hi lo) = hi := by
  apply BitVec.eq_of_getLsbD_eq
  intro i h1
  have h2 : h + i < w := by omega
  simp only [joinHL, highHalf, BitVec.getLsbD_extractLsb', BitVec.getLsbD_setWidth, BitVec.getLsbD_append, h1, h2]
  simp

theorem half_eq_iff (hh : w = h + h) {x y : BitVec w} :
    (lowHalf h x = lowHalf h y ∧ highHalf h x = highHalf h y) ↔ x = y := by
  constructor
  · rintro ⟨h0, h1⟩
    rw [← joinHL_halves hh x, h0, h1, joinHL_halves hh]
  · rintro rfl; exact ⟨rfl, rfl⟩

end

/-- `(a ^ b) | (c ^ d) = 0` compares two pairs. -/
theorem xor_or_eq_zero {n : Nat} {a b c d : BitVec n} :
    (a ^^^ b ||| c ^^^ d) = 0#n ↔ a = b ∧ c = d := by
  rw [BitVec.or_eq_zero_iff, BitVec.xor_eq_zero_iff, BitVec.xor_eq_zero_iff]

end Verif
