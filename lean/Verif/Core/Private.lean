/-
Private buffers: local variables of the Rust functions in src/arch_legacy (and of some in src/arch) whose address
is passed to the `asm!` block (`val.as_ptr()`, `out.as_mut_ptr()`). Nobody else knows the address, so they are not
part of the shared memory: each register-sized cell is a pseudo-register, found by its address.
-/
import Verif.Core.Machine
import Verif.Core.Attr

namespace Verif
variable {W P : Nat}

/-- A register-sized cell of a private buffer: its address and the pseudo-register that holds its content. -/
structure Cell (P : Nat) where
  addr : BitVec P
  reg : Nat

/-- What is found at address `a`: the content of the cell that starts there; anything (`junk`) if there is none. -/
def readCell (a : BitVec P) (junk : BitVec W) (s : RS W) : List (Cell P) → BitVec W
  | [] => junk
  | c :: cs => if a = c.addr then s.r c.reg else readCell a junk s cs

@[asm] theorem readCell_nil (a : BitVec P) (j : BitVec W) (s : RS W) : readCell a j s [] = j := rfl
@[asm] theorem readCell_hit (j : BitVec W) (s : RS W) (c : Cell P) (cs : List (Cell P)) :
    readCell c.addr j s (c :: cs) = s.r c.reg := by simp [readCell]
@[asm] theorem readCell_hit' (j : BitVec W) (a : BitVec P) (s : RS W) (r : Nat) (cs : List (Cell P)) :
    readCell a j s (⟨a, r⟩ :: cs) = s.r r := by simp [readCell]
theorem readCell_miss {a b : BitVec P} (h : a ≠ b) (j : BitVec W) (s : RS W) (r : Nat) (cs : List (Cell P)) :
    readCell a j s (⟨b, r⟩ :: cs) = readCell a j s cs := by simp [readCell, h]

/-- A store of the low `w` bits of `x` into a cell that contains `y`. -/
def writeLow (w : Nat) (x y : BitVec W) : BitVec W := (y >>> w <<< w) ||| (x.setWidth w).setWidth W

@[asm] theorem writeLow_low (w : Nat) (x y : BitVec W) : (writeLow w x y).setWidth w = x.setWidth w := by
  ext i hi
  simp only [writeLow, BitVec.getElem_setWidth, BitVec.getLsbD_or, BitVec.getLsbD_shiftLeft, BitVec.getLsbD_setWidth]
  by_cases h : i < W <;> simp [hi, h]
  exact BitVec.getLsbD_of_ge x i (by omega)

@[asm] theorem writeLow_full (x y : BitVec W) : writeLow W x y = x := by
  have := writeLow_low W x y
  simpa using this

/-- Load of `w` bits from the private cell at the address in `ra`; `ext` extends them to the register. -/
@[asm] def ldPriv (cs : List (Cell W)) (w : Nat) (ext : BitVec w → BitVec W) (rd ra : Nat) : Instr W :=
  .op fun o s => s.set rd (ext ((readCell (s.r ra) (BitVec.ofNat W o.junk) s cs).setWidth w))
/-- Store of the low `w` bits of `rv` to the private cell `c`, if its address is in `ra`. (A store to another address
loses the value; the only cells written by the blocks are those of `out`.) -/
@[asm] def stPriv (c : Cell W) (w rv ra : Nat) : Instr W :=
  .op fun _ s => s.setIf (s.r ra == c.addr) c.reg (writeLow w (s.r rv) (s.r c.reg))

/-! ### Buffers of two registers -/

/-- A private buffer of two register-sized words: its address, the pseudo-registers that hold the word at that address
and the following word. -/
structure Cell2 (P : Nat) where
  addr : BitVec P
  reg0 : Nat
  reg1 : Nat

/-- The two words found at address `a`: those of the buffer that starts there; anything if there is none. -/
def readCell2 (a : BitVec P) (junk : BitVec W) (s : RS W) : List (Cell2 P) → BitVec W × BitVec W
  | [] => (junk, junk)
  | c :: cs => if a = c.addr then (s.r c.reg0, s.r c.reg1) else readCell2 a junk s cs

@[asm] theorem readCell2_hit (j : BitVec W) (a : BitVec P) (s : RS W) (r r' : Nat) (cs : List (Cell2 P)) :
    readCell2 a j s (⟨a, r, r'⟩ :: cs) = (s.r r, s.r r') := by simp [readCell2]
theorem readCell2_miss {a b : BitVec P} (h : a ≠ b) (j : BitVec W) (s : RS W) (r r' : Nat) (cs : List (Cell2 P)) :
    readCell2 a j s (⟨b, r, r'⟩ :: cs) = readCell2 a j s cs := by simp [readCell2, h]

/-- Load of two registers from the private buffer at the address in `ra` (word at the address, next word). -/
@[asm] def ldPriv2 (cs : List (Cell2 W)) (rd0 rd1 ra : Nat) : Instr W :=
  .op fun o s =>
    let x := readCell2 (s.r ra) (BitVec.ofNat W o.junk) s cs
    (s.set rd0 x.1).set rd1 x.2
/-- Store of two registers to the private buffer `c`, if its address is in `ra`. -/
@[asm] def stPriv2 (c : Cell2 W) (rv0 rv1 ra : Nat) : Instr W :=
  .op fun _ s => (s.setIf (s.r ra == c.addr) c.reg0 (s.r rv0)).setIf (s.r ra == c.addr) c.reg1 (s.r rv1)
/-- The private buffers `out`, `old`, `new` are different objects: their addresses differ. -/
def Distinct {W : Nat} (po pold pnew : BitVec W) : Prop := pold ≠ po ∧ pnew ≠ po ∧ pnew ≠ pold
instance {W : Nat} (po pold pnew : BitVec W) : Decidable (Distinct po pold pnew) := by unfold Distinct; infer_instance

/-- Three distinct buffer addresses exist. -/
theorem buffers {W : Nat} (hW : 32 ≤ W) : (1#W ≠ 0#W) ∧ (1#W ≠ 0#W ∧ 2#W ≠ 0#W ∧ 2#W ≠ 1#W) := by
  have h4 : 2 < 2 ^ W := Nat.lt_of_lt_of_le (by decide : 2 < 2 ^ 32) (Nat.pow_le_pow_right (by decide) hW)
  have h : ∀ a b : Nat, a < 3 → b < 3 → a ≠ b → BitVec.ofNat W a ≠ BitVec.ofNat W b := by
    intro a b ha hb hne h
    have := congrArg BitVec.toNat h
    simp only [BitVec.toNat_ofNat] at this
    rw [Nat.mod_eq_of_lt (by omega), Nat.mod_eq_of_lt (by omega)] at this
    exact hne this
  exact ⟨h 1 0 (by decide) (by decide) (by decide), h 1 0 (by decide) (by decide) (by decide),
    h 2 0 (by decide) (by decide) (by decide), h 2 1 (by decide) (by decide) (by decide)⟩

end Verif
