/-
Memory layout and construction of `AtomicMaybeUninit<T>` (src/lib.rs l.113-140, 160-275, 735-790,
src/utils.rs l.47-63).
-/
import Verif.Lin.HistoryProof
import Verif.Core.Pair

namespace Verif.Layout

/-- Size and alignment in bytes of a type. -/
structure Ty where
  size : Nat
  align : Nat

/-- `n` rounded up to a multiple of `a`. -/
def roundUp (n a : Nat) : Nat := (n + a - 1) / a * a

/-- `#[repr(C)]` layout algorithm (Rust reference, "The C representation"): running offset and maximal
alignment; returns the field offsets and the type. -/
def reprC : List Ty → List Nat × Ty :=
  go [] 0 1
where
  /-- one field after the other -/
  go (offs : List Nat) (cur al : Nat) : List Ty → List Nat × Ty
    | [] => (offs.reverse, ⟨roundUp cur al, al⟩)
    | f :: fs => go (roundUp cur f.align :: offs) (roundUp cur f.align + f.size) (max al f.align) fs

/-- The primitive types the crate supports (src/lib.rs l.769-780). -/
inductive Prim where
  | i8 | u8 | i16 | u16 | i32 | u32 | i64 | u64 | i128 | u128 | isize | usize
deriving DecidableEq

/-- `size_of` in bytes; `p` is the pointer width in bytes. -/
def Prim.size (p : Nat) : Prim → Nat
  | i8 | u8 => 1
  | i16 | u16 => 2
  | i32 | u32 => 4
  | i64 | u64 => 8
  | i128 | u128 => 16
  | isize | usize => p

/-- The alignment of `PrimitivePriv::Align` chosen by the `int!` calls (src/lib.rs l.769-780) and the
`Align*` types and `AlignPtr` aliases (l.809-826). `p` is the pointer width in bytes: 2, 4, 8 or 16. -/
def Prim.alignTy (p : Nat) : Prim → Nat
  | i8 | u8 => 1
  | i16 | u16 => 2
  | i32 | u32 => 4
  | i64 | u64 => 8
  | i128 | u128 => 16
  | isize | usize => match p with
    | 2 => 2
    | 4 => 4
    | 8 => 8
    | 16 => 16
    | _ => 0

/-- The alignments a target's ABI may give to the primitive types themselves: a divisor of the size
(e.g. 4 for `u64` on x86, 8 for `u128` on x86_64 with older compilers). -/
def AbiAlign (p : Nat) (al : Prim → Nat) : Prop := ∀ t, al t ∣ t.size p ∧ al t ≠ 0

/-- `#[repr(C)] struct AtomicMaybeUninit<T> { v: UnsafeCell<MaybeUninit<T>>, _align: [T::Align; 0] }`
(src/lib.rs l.117-127): `UnsafeCell` and `MaybeUninit` have the layout of `T`; a zero-length array has
size 0 and the alignment of its element. -/
def atomic (p : Nat) (al : Prim → Nat) (t : Prim) : List Nat × Ty :=
  reprC [⟨t.size p, al t⟩, ⟨0, t.alignTy p⟩]

/-- Offset of the field `v`. -/
def vOffset (p : Nat) (al : Prim → Nat) (t : Prim) : Nat := ((atomic p al t).1)[0]!

theorem roundUp_dvd {n a : Nat} (ha : a ≠ 0) (h : a ∣ n) : roundUp n a = n := by
  obtain ⟨k, rfl⟩ := h
  unfold roundUp
  have ha' : 0 < a := Nat.pos_of_ne_zero ha
  have : (a * k + a - 1) / a = k := by
    rw [Nat.div_eq_iff ha']
    have := Nat.mul_comm a k
    constructor <;> omega
  rw [this, Nat.mul_comm]

theorem roundUp_zero {a : Nat} (ha : a ≠ 0) : roundUp 0 a = 0 := roundUp_dvd ha ⟨0, by simp⟩

theorem alignTy_eq {p : Nat} (hp : p = 2 ∨ p = 4 ∨ p = 8 ∨ p = 16) (t : Prim) : t.alignTy p = t.size p := by
  rcases hp with rfl | rfl | rfl | rfl <;> cases t <;> rfl

theorem size_pos {p : Nat} (hp : p = 2 ∨ p = 4 ∨ p = 8 ∨ p = 16) (t : Prim) : t.size p ≠ 0 := by
  rcases hp with rfl | rfl | rfl | rfl <;> cases t <;> decide

/-- C25. On every target (pointer width, alignments of the primitive types), `AtomicMaybeUninit<T>` has the
size of `T`, its alignment equals its size, and the value is at offset 0. -/
theorem C25_layout {p : Nat} (hp : p = 2 ∨ p = 4 ∨ p = 8 ∨ p = 16) {al : Prim → Nat} (hal : AbiAlign p al)
    (t : Prim) :
    (atomic p al t).2.size = t.size p ∧ (atomic p al t).2.align = t.size p ∧ vOffset p al t = 0 := by
  have hs := size_pos hp t
  obtain ⟨hd, h0⟩ := hal t
  have hle : al t ≤ t.size p := Nat.le_of_dvd (Nat.pos_of_ne_zero hs) hd
  have e1 : roundUp (t.size p) (t.size p) = t.size p := roundUp_dvd hs ⟨1, by simp⟩
  have e2 : max (max 1 (al t)) (t.size p) = t.size p := by omega
  simp only [vOffset, atomic, reprC, reprC.go, alignTy_eq hp, roundUp_zero h0, Nat.zero_add, Nat.add_zero, e1, e2]
  exact ⟨trivial, trivial, rfl⟩

/-- C25. An object whose address is a multiple of its alignment lies inside one naturally aligned block of
any size that is a multiple of the object's: no access crosses such a boundary. -/
theorem C25_no_crossing {p : Nat} (hp : p = 2 ∨ p = 4 ∨ p = 8 ∨ p = 16) {al : Prim → Nat}
    (hal : AbiAlign p al) (t : Prim) {a block : Nat} (hb : (atomic p al t).2.size ∣ block) (hb0 : block ≠ 0)
    (ha : a % (atomic p al t).2.align = 0) :
    a / block = (a + (atomic p al t).2.size - 1) / block := by
  obtain ⟨h1, h2, _⟩ := C25_layout hp hal t
  rw [h1] at hb ⊢
  rw [h2] at ha
  have hs := size_pos hp t
  obtain ⟨k, rfl⟩ := hb
  obtain ⟨q, rfl⟩ := Nat.dvd_of_mod_eq_zero ha
  generalize t.size p = s at *
  have hs' : 0 < s := Nat.pos_of_ne_zero hs
  have hlast : (s * q + s - 1) / s = q := by
    rw [Nat.div_eq_iff hs']
    have := Nat.mul_comm s q
    constructor <;> omega
  rw [← Nat.div_div_eq_div_mul, ← Nat.div_div_eq_div_mul, hlast, Nat.mul_div_cancel_left _ hs']

example : AbiAlign 4 (fun | .u64 | .i64 => 4 | .u128 | .i128 => 4 | t => t.size 4) := by
  intro t; cases t <;> decide

/-! ### Construction, access and consumption (C24)

A value of type `AtomicMaybeUninit<T>` is the sequence of its bytes (`Mem` from offset 0). -/

/-- `AtomicMaybeUninit::new(v)` (src/lib.rs l.181-183), `const_new` (l.763-765): `v` at its offset. -/
def new (e : Endian) (off : Nat) {w : Nat} (v : BitVec w) : Mem := store e (fun _ => 0) off w v

/-- `From<MaybeUninit<T>>` (src/lib.rs l.130-136) -/
def fromUninit (e : Endian) (off : Nat) {w : Nat} (v : BitVec w) : Mem := new e off v

/-- `From<T>` (src/lib.rs l.138-144): `MaybeUninit::new(v)` has the bytes of `v`. -/
def fromInit (e : Endian) (off : Nat) {w : Nat} (v : BitVec w) : Mem := new e off v

/-- `into_inner` (src/lib.rs l.266-271, src/utils.rs l.47-63): the union `ConstHack { src }.dst` reads the
first `size_of::<MaybeUninit<T>>()` bytes; it panics if the source is smaller. -/
def intoInner (e : Endian) (srcSize w : Nat) (img : Mem) : Res (BitVec w) :=
  if srcSize ≥ w / 8 then .ok (load e img 0 w) else .panic

/-- Moving a value to address `a` (its bytes are copied). -/
def moveTo (m : Mem) (a n : Nat) (img : Mem) : Mem := fun x => if a ≤ x ∧ x < a + n then img (x - a) else m x

/-- Moving a value out of address `a`. -/
def moveFrom (m : Mem) (a n : Nat) : Mem := fun x => if x < n then m (a + x) else 0

/-- `as_ptr` = `self.v.get()` (src/lib.rs l.741-743): the address of the field `v`. -/
def asPtr (off self : Nat) : Nat := self + off

/-- `from_ptr` = `&*ptr.cast::<Self>()` (src/lib.rs l.213-216): a reference to the object at the address. -/
def fromPtr (ptr : Nat) : Nat := ptr

/-- reading `*v.get_mut()` (src/lib.rs l.241-245: `&mut *self.as_ptr()`) -/
def getMut (e : Endian) (off self w : Nat) (m : Mem) : BitVec w := load e m (asPtr off self) w

/-- writing `*v.get_mut() = v` -/
def setMut (e : Endian) (off self : Nat) {w : Nat} (v : BitVec w) (m : Mem) : Mem := store e m (asPtr off self) w v

variable {p : Nat} {al : Prim → Nat}

/-- The object type `t` on a target: offset of the value, size in bits. -/
def off (p : Nat) (al : Prim → Nat) (t : Prim) : Nat := vOffset p al t
def bits (p : Nat) (t : Prim) : Nat := 8 * t.size p

theorem bits_mod (t : Prim) : bits p t % 8 = 0 := by simp [bits]
theorem bits_div (t : Prim) : bits p t / 8 = t.size p := by simp [bits]

/-- C24. `new(v).into_inner()` is `v`, for all bits of `v`. -/
theorem C24_new_into_inner (hp : p = 2 ∨ p = 4 ∨ p = 8 ∨ p = 16) (hal : AbiAlign p al) (e : Endian) (t : Prim)
    (v : BitVec (bits p t)) :
    intoInner e (atomic p al t).2.size (bits p t) (new e (off p al t) v) = .ok v := by
  obtain ⟨h1, _, h3⟩ := C25_layout hp hal t
  simp only [intoInner, new, off, h1, h3, bits_div, ge_iff_le, Nat.le_refl, if_true, load_store (bits_mod t)]

/-- C24. The conversions agree with `new`. -/
theorem C24_from (e : Endian) (o : Nat) {w : Nat} (v : BitVec w) : fromUninit e o v = new e o v ∧ fromInit e o v = new e o v :=
  ⟨rfl, rfl⟩

theorem load_moveTo {e : Endian} {m img : Mem} {a w : Nat} (hw : w % 8 = 0) :
    load e (moveTo m a (w / 8) img) a w = load e img 0 w := by
  have h : load e img 0 w = load e (fun x => img (x - a)) a w := by
    apply BitVec.eq_of_getLsbD_eq
    intro i hi
    rw [getLsbD_load, getLsbD_load]
    simp
  rw [h]
  apply load_congr hw
  intro x h1 h2
  simp [moveTo, h1, h2]

theorem load_moveFrom {e : Endian} {m : Mem} {a w : Nat} (hw : w % 8 = 0) :
    load e (moveFrom m a (w / 8)) 0 w = load e m a w := by
  have h : load e m a w = load e (fun x => m (a + x)) 0 w := by
    apply BitVec.eq_of_getLsbD_eq
    intro i hi
    rw [getLsbD_load, getLsbD_load]
    simp
  rw [h]
  apply load_congr hw
  intro x h1 h2
  have : x < w / 8 := by omega
  simp [moveFrom, this]

/-- C24. A whole life: the object is created from `v`, moved to address `a`, used by any number of threads in
any history of atomic operations, and consumed: `into_inner` gives the last value written (`v` if none). -/
theorem C24_life (hp : p = 2 ∨ p = 4 ∨ p = 8 ∨ p = 16) (hal : AbiAlign p al) (e : Endian) (t : Prim)
    (v : BitVec (bits p t)) (m : Mem) (a : Nat) (th : Nat → SThread) {str : List SEv} {s : SState}
    (hr : SRun e ⟨moveTo m a (atomic p al t).2.size (new e (off p al t) v), th⟩ str s)
    (hreg : Regular e (bits p t) (asPtr (off p al t) a) str) :
    intoInner e (atomic p al t).2.size (bits p t) (moveFrom s.mem a (atomic p al t).2.size)
      = .ok (lastWrite (bits p t) (asPtr (off p al t) a) v str) := by
  obtain ⟨h1, _, h3⟩ := C25_layout hp hal t
  simp only [off, asPtr, h3, Nat.add_zero] at *
  have hv := hr.value (bits_mod t) hreg
  rw [h1, ← bits_div (p := p) t] at hv ⊢
  rw [load_moveTo (bits_mod t), new, load_store (bits_mod t)] at hv
  rw [intoInner, if_pos (Nat.le_refl _), load_moveFrom (bits_mod t), hv]

/-- C24. `get_mut` reads the last value written; what is written through it is what the next atomic operations
and `get_mut` see; it touches nothing else. -/
theorem C24_get_mut (hp : p = 2 ∨ p = 4 ∨ p = 8 ∨ p = 16) (hal : AbiAlign p al) (e : Endian) (t : Prim)
    (a : Nat) {s0 s : SState} {str : List SEv} (hr : SRun e s0 str s)
    (hreg : Regular e (bits p t) a str) (v : BitVec (bits p t)) :
    getMut e (off p al t) a (bits p t) s.mem = lastWrite (bits p t) a (load e s0.mem a (bits p t)) str ∧
    getMut e (off p al t) a (bits p t) (setMut e (off p al t) a v s.mem) = v ∧
    load e (setMut e (off p al t) a v s.mem) a (bits p t) = v ∧
    ∀ x, (x < a ∨ a + t.size p ≤ x) → setMut e (off p al t) a v s.mem x = s.mem x := by
  obtain ⟨h1, _, h3⟩ := C25_layout hp hal t
  simp only [getMut, setMut, off, asPtr, h3, Nat.add_zero] at *
  exact ⟨hr.value (bits_mod t) hreg, load_store (bits_mod t) v, load_store (bits_mod t) v,
    fun x hx => store_outside (by rw [bits_div]; exact hx)⟩

/-- C24. `from_ptr(x.as_ptr())` is the object itself, and `as_ptr` is the address of the object. -/
theorem C24_ptr (hp : p = 2 ∨ p = 4 ∨ p = 8 ∨ p = 16) (hal : AbiAlign p al) (t : Prim) (self : Nat) :
    fromPtr (asPtr (off p al t) self) = self ∧ asPtr (off p al t) (fromPtr self) = self := by
  obtain ⟨_, _, h3⟩ := C25_layout hp hal t
  simp [fromPtr, asPtr, off, h3]

end Verif.Layout
