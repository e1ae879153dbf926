/-
src/arch/msp430.rs: MSP430 (little endian, 16-bit registers, one core).

Loads and stores are one instruction; swap and compare_exchange run with interrupts disabled, in a critical
section made of the `asm!` blocks of `disable`, `restore` and `xor` and of Rust code (`dst.read()`,
`dst.write(..)`, `if`), which is modelled by the `mov` it compiles to.

Registers: `sr` is the status register r2; `pend` is not a register but the pipeline state "GIE was set before the
last instruction": DINT disables interrupts only after the following instruction (MSP430x5xx Family User's
Guide, "NOTE: Enable and Disable Interrupt"). Operand `o` is in register `al o + 2`.
-/
import Verif.Intr.Spec
import Verif.Core.Alloc
import Verif.Core.Sizes

namespace Verif.Msp430

/-- SR (r2) -/
@[asm] def sr : Nat := 0
/-- pipeline state after DINT -/
@[asm] def pend : Nat := 1
/-- Register of an operand. -/
@[asm] def rg (al : Op → Nat) (o : Op) : Nat := al o + 2
/-- SR.GIE (bit 3) -/
def gie (x : BitVec 16) : Bool := x.getLsbD 3
/-- An interrupt may be taken: GIE is set, or was set before the preceding instruction and that was DINT. -/
@[asm] def ien (rs : RS 16) : Bool := gie (rs.r sr) || (rs.r pend != 0#16)
/-- SR with GIE cleared -/
def dintBits (x : BitVec 16) : BitVec 16 := x &&& 0xfff7#16
/-- SR with its arithmetic flags (V, N, Z, C: bits 8, 2, 1, 0) replaced by `j` -/
def flagBits (x j : BitVec 16) : BitVec 16 := (x &&& 0xfef8#16) ||| (j &&& 0x0107#16)
@[asm] theorem gie_dint (x : BitVec 16) : gie (dintBits x) = false := by simp [gie, dintBits]
@[asm] theorem gie_flags (x j : BitVec 16) : gie (flagBits x j) = gie x := by simp [gie, flagBits]
/-- the pipeline state as a register value -/
def pendVal (b : Bool) : BitVec 16 := if b then 1#16 else 0#16
@[asm] theorem pendVal_ne (b : Bool) : (pendVal b != 0#16) = b := by cases b <;> rfl
@[asm] theorem pendVal_false : pendVal false = 0#16 := rfl

/-! ### Mnemonics -/

/-- `@rs` -/
@[asm] def ea (b : Nat) : RS 16 → Nat := fun s => (s.r b).toNat
/-- `mov r2, rd` -/
@[asm] def mov_from_sr (rd : Nat) : Instr 16 := .op fun _ q => q.set rd (q.r sr)
/-- `mov rs, r2` -/
@[asm] def mov_to_sr (rs : Nat) : Instr 16 := .op fun _ q => q.set sr (q.r rs)
/-- `dint`: GIE = 0, effective after the next instruction. -/
@[asm] def dint : Instr 16 :=
  .op fun _ q => (q.set pend (pendVal (gie (q.r sr)))).set sr (dintBits (q.r sr))
/-- `nop`. (Every instruction would end the delay of a preceding DINT; in the model only `nop` does.) -/
@[asm] def nop : Instr 16 := .op fun _ q => q.set pend (pendVal (gie (q.r sr)))
/-- `mov.{b,w} @rs, rd`: a byte load clears the upper byte. -/
@[asm] def mov_ld (w rs rd : Nat) : Instr 16 := .ld .plain (ea rs) w (fun x q => q.set rd (x.setWidth 16))
/-- `mov.{b,w} rv, 0(rd)` -/
@[asm] def mov_st (w rv rd : Nat) : Instr 16 := .st .plain (ea rd) w (fun q => (q.r rv).setWidth w)
/-- `xor.{b,w} rs, rd`: a byte operation clears the upper byte. Changes the arithmetic flags. -/
@[asm] def xor (w rs rd : Nat) : Instr 16 :=
  .op fun o q => (q.set rd (((q.r rd ^^^ q.r rs).setWidth w).setWidth 16)).set sr
    (flagBits (q.r sr) (BitVec.ofNat 16 o.junk))
/-- copy of a register (compiler-generated) -/
@[asm] def mov (rd rr : Nat) : Instr 16 := .op fun _ q => q.set rd (q.r rr)
/-- `r == 0` on a `w`-bit value as a Rust `bool` (compiler-generated) -/
@[asm] def isZero (w rd rr : Nat) : Instr 16 :=
  .op fun o q => (q.set rd (if (q.r rr).setWidth w = 0#w then 1#16 else 0#16)).set sr
    (flagBits (q.r sr) (BitVec.ofNat 16 o.junk))
/-- jump if the Rust `bool` in `r` is false (compiler-generated) -/
@[asm] def ifNot (r t : Nat) : Instr 16 := .br (fun q => q.r r == 0#16) t

/-- l.28-43 `disable` -/
@[asm] def disable (s : Nat) : List (Instr 16) := [mov_from_sr s, dint, nop]
/-- l.45-64 `restore` -/
@[asm] def restore (s : Nat) : List (Instr 16) := [nop, mov_to_sr s, nop]

/-! ### Operations -/

/-- operands of l.80-81 -/
@[asm] def loadKind : Op → Kind
  | .src => .inp | .out => .lateout | _ => .unused
/-- l.70-86 `atomic_load` -/
@[asm] def loadAsm (al : Op → Nat) (w : Nat) : List (Instr 16) := [mov_ld w (rg al .src) (rg al .out)]
/-- operands of l.99-100 -/
@[asm] def storeKind : Op → Kind
  | .dst => .inp | .val => .inp | _ => .unused
/-- l.90-104 `atomic_store` -/
@[asm] def storeAsm (al : Op → Nat) (w : Nat) : List (Instr 16) := [mov_st w (rg al .val) (rg al .dst)]
/-- registers used in a critical section -/
@[asm] def kind : Op → Kind
  | .dst => .inout | .val => .inout | .old => .inout | .new => .inout
  | .tmp => .out | .out => .out | .tmp2 => .out | .r => .out | _ => .unused
/-- l.108-122 `atomic_swap` -/
@[asm] def swapAsm (al : Op → Nat) (w : Nat) : List (Instr 16) :=
  disable (rg al .tmp) ++
  [ mov_ld w (rg al .dst) (rg al .out),
    mov_st w (rg al .val) (rg al .dst) ] ++
  restore (rg al .tmp)
/-- l.126-156 `atomic_compare_exchange` -/
@[asm] def casAsm (al : Op → Nat) (w : Nat) : List (Instr 16) :=
  disable (rg al .tmp) ++
  [ mov_ld w (rg al .dst) (rg al .out),
    mov (rg al .tmp2) (rg al .old),
    xor w (rg al .out) (rg al .tmp2),
    isZero w (rg al .r) (rg al .tmp2),
    ifNot (rg al .r) 9,
    mov_st w (rg al .new) (rg al .dst) ] ++
  restore (rg al .tmp)

/-- Registers a critical section may change. -/
@[asm] def Outs (al : Alloc kind) (j : Nat) : Prop := j = sr ∨ j = pend ∨ ∃ i, al.Outs i ∧ j = i + 2

/-- l.68-88 (`preserves_flags`) -/
@[asm] def loadBlock (al : Alloc loadKind) (w : Nat) (p : BitVec 16) : Block 16 w where
  code := loadAsm al w
  args := [⟨rg al .src, 16, p⟩]
  outs j := ∃ i, al.Outs i ∧ j = i + 2
  out rs := (rs.r (rg al .out)).setWidth w
/-- l.89-105 -/
@[asm] def storeBlock (al : Alloc storeKind) (w : Nat) (p : BitVec 16) (val : BitVec w) : Block 16 w where
  code := storeAsm al w
  args := [⟨rg al .dst, 16, p⟩, ⟨rg al .val, w, val⟩]
  outs j := ∃ i, al.Outs i ∧ j = i + 2
/-- l.106-123 -/
@[asm] def swapBlock (al : Alloc kind) (w : Nat) (p : BitVec 16) (val : BitVec w) : Block 16 w where
  code := swapAsm al w
  args := [⟨rg al .dst, 16, p⟩, ⟨rg al .val, w, val⟩]
  outs := Outs al
  out rs := (rs.r (rg al .out)).setWidth w
/-- l.124-157 -/
@[asm] def casBlock (al : Alloc kind) (w : Nat) (p : BitVec 16) (old new : BitVec w) : Block 16 w where
  code := casAsm al w
  args := [⟨rg al .dst, 16, p⟩, ⟨rg al .old, w, old⟩, ⟨rg al .new, w, new⟩]
  outs := Outs al
  out rs := (rs.r (rg al .out)).setWidth w
  ok rs := rs.r (rg al .r) != 0#16

/-- `atomic_load`; orderings that passed `assert_load_ordering`. 8 and 16 bits (l.161-166). -/
inductive Load : Ordering → (w a : Nat) → Block 16 w → Prop
  | mk (al) {o w} (p : BitVec 16) (hw : SubSize w) (hv : assertLoadOrdering o = .ok ()) :
      Load o w p.toNat (loadBlock al w p)
/-- `atomic_store` -/
inductive Store : Ordering → (w a : Nat) → BitVec w → Block 16 w → Prop
  | mk (al) {o w} (p : BitVec 16) (val : BitVec w) (hw : SubSize w) (hv : assertStoreOrdering o = .ok ()) :
      Store o w p.toNat val (storeBlock al w p val)
/-- `atomic_swap` -/
inductive Swap : Ordering → (w a : Nat) → BitVec w → Block 16 w → Prop
  | mk (al o) {w} (p : BitVec 16) (val : BitVec w) (hw : SubSize w) : Swap o w p.toNat val (swapBlock al w p val)
/-- `atomic_compare_exchange`; the weak form defaults to it (src/raw.rs) -/
inductive Cas : Ordering → Ordering → (w a : Nat) → BitVec w → BitVec w → Block 16 w → Prop
  | mk (al) {s f w} (p : BitVec 16) (old new : BitVec w) (hw : SubSize w)
      (hv : assertCompareExchangeOrdering s f = .ok ()) : Cas s f w p.toNat old new (casBlock al w p old new)

/-- The MSP430 back end. One core without caches: accesses happen in program order. -/
@[asm] def backend : IBackend 16 where
  e := .little
  imp := Pairs.full
  Load := Load
  Store := Store
  Swap := Swap
  Cas := Cas
  CasWeak := Cas
  ien := ien

end Verif.Msp430
