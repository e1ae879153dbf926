/-
Byte-addressed memory with both endiannesses.

Models the memory that `AtomicMaybeUninit<T>` objects live in (src/lib.rs l.108-125: the object is
`#[repr(C)] struct { v: UnsafeCell<MaybeUninit<T>>, _align: [T::Align; 0] }`).
A `MaybeUninit` byte is represented by the eight bits the hardware sees; a byte that is
uninitialised for the Rust abstract machine simply has arbitrary bits here, so all theorems are
universally quantified over its content.
Addresses are natural numbers (the value of a pointer register); simplification: no address
translation and no wrap-around at the top of the address space.
-/

namespace Verif

/-- Byte order of the target (`target_endian`, src/utils.rs). -/
inductive Endian where
  | little
  | big
deriving DecidableEq, Repr

/-- Memory: the bits of each byte, by address. -/
abbrev Mem := Nat → BitVec 8

/-- Address offset of the byte of significance `k` (0 = least significant) in a `w`-bit object. -/
def byteIdx (e : Endian) (w k : Nat) : Nat :=
  match e with
  | .little => k
  | .big => w / 8 - 1 - k

/-- The `w`-bit value stored at address `a`. -/
def load (e : Endian) (m : Mem) (a w : Nat) : BitVec w :=
  (BitVec.iunfoldr (w := w) (fun i (_ : Unit) =>
    ((), (m (a + byteIdx e w (i.val / 8))).getLsbD (i.val % 8))) ()).2

/-- Memory after writing the `w`-bit value `v` at address `a`. -/
def store (e : Endian) (m : Mem) (a w : Nat) (v : BitVec w) : Mem :=
  fun x => if a ≤ x ∧ x < a + w / 8 then v.extractLsb' (8 * byteIdx e w (x - a)) 8 else m x

/-- Two memories hold the same bytes in `[a, a+n)`. -/
def Agree (m m' : Mem) (a n : Nat) : Prop := ∀ x, a ≤ x → x < a + n → m x = m' x

theorem getLsbD_load (e : Endian) (m : Mem) (a w i : Nat) :
    (load e m a w).getLsbD i
      = (decide (i < w) && (m (a + byteIdx e w (i / 8))).getLsbD (i % 8)) := by
  by_cases h : i < w
  · have := BitVec.iunfoldr_getLsbD (w := w) (fun _ => ())
      (f := fun i (_ : Unit) => ((), (m (a + byteIdx e w (i.val / 8))).getLsbD (i.val % 8)))
      (i := ⟨i, h⟩) (by intro; rfl)
    simpa [load, h] using this
  · simp only [h, decide_false, Bool.false_and]
    exact BitVec.getLsbD_of_ge _ _ (by omega)

theorem load_congr {e : Endian} {m m' : Mem} {a w : Nat} (hw : w % 8 = 0)
    (h : Agree m m' a (w / 8)) : load e m a w = load e m' a w := by
  apply BitVec.eq_of_getLsbD_eq
  intro i hi
  rw [getLsbD_load, getLsbD_load]
  have : m (a + byteIdx e w (i / 8)) = m' (a + byteIdx e w (i / 8)) := by
    apply h
    · omega
    · cases e <;> simp only [byteIdx] <;> omega
  rw [this]

theorem store_outside {e : Endian} {m : Mem} {a w : Nat} {v : BitVec w} {x : Nat}
    (h : x < a ∨ a + w / 8 ≤ x) : store e m a w v x = m x := by
  simp only [store]
  rw [if_neg]; omega

theorem load_store {e : Endian} {m : Mem} {a w : Nat} (hw : w % 8 = 0) (v : BitVec w) :
    load e (store e m a w v) a w = v := by
  apply BitVec.eq_of_getLsbD_eq
  intro i hi
  rw [getLsbD_load]
  simp only [store]
  rw [if_pos]
  · rw [BitVec.getLsbD_extractLsb']
    cases e
    · have : 8 * (byteIdx .little w (a + byteIdx .little w (i / 8) - a)) + i % 8 = i := by
        simp only [byteIdx]; omega
      rw [this]; simp [hi]; omega
    · have : 8 * (byteIdx .big w (a + byteIdx .big w (i / 8) - a)) + i % 8 = i := by
        simp only [byteIdx]; omega
      rw [this]; simp [hi]; omega
  · cases e <;> simp only [byteIdx] <;> omega

theorem store_load {e : Endian} {m : Mem} {a w : Nat} (hw : w % 8 = 0) :
    store e m a w (load e m a w) = m := by
  funext x
  simp only [store]
  split
  · apply BitVec.eq_of_getLsbD_eq
    intro i hi
    rw [BitVec.getLsbD_extractLsb', getLsbD_load]
    cases e
    · have h1 : (8 * byteIdx .little w (x - a) + i) / 8 = x - a := by simp only [byteIdx]; omega
      have h2 : (8 * byteIdx .little w (x - a) + i) % 8 = i := by simp only [byteIdx]; omega
      have h3 : 8 * byteIdx .little w (x - a) + i < w := by simp only [byteIdx]; omega
      have h4 : a + byteIdx .little w (x - a) = x := by simp only [byteIdx]; omega
      simp [h1, h2, h3, h4, hi]
    · have h1 : (8 * byteIdx .big w (x - a) + i) / 8 = w / 8 - 1 - (x - a) := by
        simp only [byteIdx]; omega
      have h2 : (8 * byteIdx .big w (x - a) + i) % 8 = i := by simp only [byteIdx]; omega
      have h3 : 8 * byteIdx .big w (x - a) + i < w := by simp only [byteIdx]; omega
      have h4 : a + byteIdx .big w (w / 8 - 1 - (x - a)) = x := by simp only [byteIdx]; omega
      rw [h1, h2, h4]; simp [h3, hi]
  · rfl

theorem store_store {e : Endian} {m : Mem} {a w : Nat} (u v : BitVec w) :
    store e (store e m a w u) a w v = store e m a w v := by
  funext x; simp only [store]; split <;> rfl

theorem agree_store_outside {e : Endian} {m : Mem} {a w : Nat} {v : BitVec w} {b n : Nat}
    (h : b + n ≤ a ∨ a + w / 8 ≤ b) : Agree (store e m a w v) m b n := by
  intro x h1 h2
  apply store_outside
  omega

theorem load_store_disjoint {e : Endian} {m : Mem} {a w : Nat} {v : BitVec w} {b w' : Nat}
    (hw' : w' % 8 = 0) (h : b + w' / 8 ≤ a ∨ a + w / 8 ≤ b) :
    load e (store e m a w v) b w' = load e m b w' :=
  load_congr hw' (agree_store_outside h)

/-- If the bytes of a word agree in two memories, storing the same value gives agreeing words and
changes each memory only there. -/
theorem Agree.symm {m m' : Mem} {a n : Nat} (h : Agree m m' a n) : Agree m' m a n :=
  fun x h1 h2 => (h x h1 h2).symm

theorem Agree.refl (m : Mem) (a n : Nat) : Agree m m a n := fun _ _ _ => rfl

theorem Agree.mono {m m' : Mem} {a n b k : Nat} (h : Agree m m' a n) (h1 : a ≤ b)
    (h2 : b + k ≤ a + n) : Agree m m' b k :=
  fun x hx1 hx2 => h x (by omega) (by omega)

/-- Bit position, inside a `C`-bit container, of a `w`-bit object at byte offset `off`. -/
def bitPos (e : Endian) (C w off : Nat) : Nat :=
  match e with
  | .little => 8 * off
  | .big => C - w - 8 * off

/-- An object inside a container word is a bit slice of the loaded container. -/
theorem load_sub {e : Endian} {m : Mem} {A C w off : Nat} (hC : C % 8 = 0) (hw : w % 8 = 0)
    (hfit : 8 * off + w ≤ C) :
    (load e m A C).extractLsb' (bitPos e C w off) w = load e m (A + off) w := by
  apply BitVec.eq_of_getLsbD_eq
  intro i hi
  rw [BitVec.getLsbD_extractLsb', getLsbD_load, getLsbD_load]
  cases e
  · have h1 : (8 * off + i) / 8 = off + i / 8 := by omega
    have h2 : (8 * off + i) % 8 = i % 8 := by omega
    have h3 : 8 * off + i < C := by omega
    simp [bitPos, byteIdx, hi, h1, h2, h3, Nat.add_assoc]
  · have h1 : A + (C / 8 - 1 - (C - w - 8 * off + i) / 8) = A + off + (w / 8 - 1 - i / 8) := by omega
    have h2 : (C - w - 8 * off + i) % 8 = i % 8 := by omega
    have h3 : C - w - 8 * off + i < C := by omega
    simp [bitPos, byteIdx, hi, h1, h2, h3]

/-- Writing back a container in which only the object's bit slice was replaced is the same as
writing the object: no neighbouring byte changes. -/
theorem store_sub {e : Endian} {m : Mem} {A C w off : Nat} (hC : C % 8 = 0) (hw : w % 8 = 0)
    (hfit : 8 * off + w ≤ C) {ins : BitVec C} {v : BitVec w}
    (h : ∀ i, i < C → ins.getLsbD i =
      if bitPos e C w off ≤ i ∧ i < bitPos e C w off + w then v.getLsbD (i - bitPos e C w off)
      else (load e m A C).getLsbD i) :
    store e m A C ins = store e m (A + off) w v := by
  funext x
  simp only [store]
  split
  · rename_i hx
    apply BitVec.eq_of_getLsbD_eq
    intro i hi
    rw [BitVec.getLsbD_extractLsb']
    have hb : 8 * byteIdx e C (x - A) + i < C := by cases e <;> simp only [byteIdx] <;> omega
    rw [h _ hb]
    split
    · rename_i hin
      rw [if_pos (by cases e <;> simp only [byteIdx, bitPos] at hin <;> omega)]
      rw [BitVec.getLsbD_extractLsb']
      have : 8 * byteIdx e C (x - A) + i - bitPos e C w off
          = 8 * byteIdx e w (x - (A + off)) + i := by
        cases e <;> simp only [byteIdx, bitPos] at hin ⊢ <;> omega
      simp [this, hi]
    · rename_i hout
      rw [if_neg (by cases e <;> simp only [byteIdx, bitPos] at hout <;> omega)]
      rw [getLsbD_load]
      have h1 : A + byteIdx e C ((8 * byteIdx e C (x - A) + i) / 8) = x := by
        cases e <;> simp only [byteIdx] <;> omega
      have h2 : (8 * byteIdx e C (x - A) + i) % 8 = i := by omega
      simp [h1, h2, hb, hi]
  · rename_i hx
    rw [if_neg (by omega)]

/-- A double-width value is the concatenation of its two halves in memory. -/
theorem load_halves {e : Endian} {m : Mem} {A w : Nat} (hw : w % 8 = 0) :
    load e m A (w + w) = match e with
      | .little => load e m (A + w / 8) w ++ load e m A w
      | .big => load e m A w ++ load e m (A + w / 8) w := by
  apply BitVec.eq_of_getLsbD_eq
  intro i hi
  cases e
  · simp only [BitVec.getLsbD_append, getLsbD_load, byteIdx]
    by_cases h : i < w
    · simp [h, hi]
    · have h1 : A + w / 8 + (i - w) / 8 = A + i / 8 := by omega
      have h2 : (i - w) % 8 = i % 8 := by omega
      have h3 : i - w < w := by omega
      simp [h, hi, h1, h2, h3]
  · simp only [BitVec.getLsbD_append, getLsbD_load, byteIdx]
    by_cases h : i < w
    · have h1 : A + ((w + w) / 8 - 1 - i / 8) = A + w / 8 + (w / 8 - 1 - i / 8) := by omega
      simp [h, hi, h1]
    · have h1 : A + ((w + w) / 8 - 1 - i / 8) = A + (w / 8 - 1 - (i - w) / 8) := by omega
      have h2 : (i - w) % 8 = i % 8 := by omega
      have h3 : i - w < w := by omega
      simp [h, hi, h1, h2, h3]

end Verif
