/-
src/arch/avr.rs: AVR (little endian, 8-bit registers, 16-bit pointers, one core).

8-bit loads and stores are one instruction; everything else runs with interrupts disabled, in a critical
section made of the `asm!` blocks of `disable`, `restore`, `xor8` and of Rust code (`dst.read()`,
`dst.write(..)`, `if`). That Rust code is modelled by the byte accesses it compiles to; the compiler may
access the two bytes of a 16-bit object in either order (`ro`, `wo`).

Registers: `sreg` is SREG; operand `o` is in register `al o + 2`.
-/
import Verif.Intr.Spec
import Verif.Core.Alloc
import Verif.Core.Sizes

namespace Verif.Avr

/-- SREG -/
@[asm] def sreg : Nat := 0
/-- Register of an operand. -/
@[asm] def rg (al : Op → Nat) (o : Op) : Nat := al o + 2
/-- SREG.I (bit 7): interrupts are taken only while it is set. (AVR Instruction Set Manual; CLI: "No interrupt
will be executed after the CLI instruction, even if it occurs simultaneously".) -/
def iBit (x : BitVec 8) : Bool := x.getLsbD 7
@[asm] def ien (rs : RS 8) : Bool := iBit (rs.r sreg)
/-- Interrupt flag of SREG cleared. -/
def cliBits (x : BitVec 8) : BitVec 8 := x &&& 0x7f#8
/-- The arithmetic flags of SREG replaced by `j`. -/
def flagBits (x j : BitVec 8) : BitVec 8 := (x &&& 0x80#8) ||| (j &&& 0x7f#8)

@[asm] theorem iBit_cli (x : BitVec 8) : iBit (cliBits x) = false := by simp [iBit, cliBits]
@[asm] theorem iBit_flags (x j : BitVec 8) : iBit (flagBits x j) = iBit x := by simp [iBit, flagBits]

/-! ### Mnemonics -/

/-- The address in a pair of registers (for Z: r31:r30). -/
@[asm] def ea (lo hi : Nat) : RS 8 → Nat := fun s => (s.r hi ++ s.r lo).toNat
/-- `(address in the pair) + 1`. -/
@[asm] def ea1 (lo hi : Nat) : RS 8 → Nat := fun s => (s.r hi ++ s.r lo + 1#16).toNat
/-- `in rd, 0x3F`: rd = SREG -/
@[asm] def in_sreg (rd : Nat) : Instr 8 := .op fun _ q => q.set rd (q.r sreg)
/-- `out 0x3F, rs`: SREG = rs -/
@[asm] def out_sreg (rs : Nat) : Instr 8 := .op fun _ q => q.set sreg (q.r rs)
/-- `cli`: SREG.I = 0 -/
@[asm] def cli : Instr 8 := .op fun _ q => q.set sreg (cliBits (q.r sreg))
/-- `eor rd, rr`: rd ^= rr; changes the arithmetic flags. -/
@[asm] def eor (rd rr : Nat) : Instr 8 :=
  .op fun o q => (q.set rd (q.r rd ^^^ q.r rr)).set sreg (flagBits (q.r sreg) (BitVec.ofNat 8 o.junk))
/-- `or rd, rr` -/
@[asm] def or (rd rr : Nat) : Instr 8 :=
  .op fun o q => (q.set rd (q.r rd ||| q.r rr)).set sreg (flagBits (q.r sreg) (BitVec.ofNat 8 o.junk))
/-- `r == 0` as a Rust `bool` in register rd (compiler-generated). -/
@[asm] def isZero (rd rr : Nat) : Instr 8 :=
  .op fun o q => (q.set rd (if q.r rr = 0#8 then 1#8 else 0#8)).set sreg
    (flagBits (q.r sreg) (BitVec.ofNat 8 o.junk))
/-- copy of a register (compiler-generated) -/
@[asm] def mov (rd rr : Nat) : Instr 8 := .op fun _ q => q.set rd (q.r rr)
/-- jump if the Rust `bool` in `r` is false (compiler-generated) -/
@[asm] def ifNot (r t : Nat) : Instr 8 := .br (fun q => q.r r == 0#8) t
/-- `ld rd, Z` -/
@[asm] def ld (rd lo hi : Nat) : Instr 8 := .ld .plain (ea lo hi) 8 (fun x q => q.set rd x)
/-- `ldd rd, Z+1` -/
@[asm] def ldd1 (rd lo hi : Nat) : Instr 8 := .ld .plain (ea1 lo hi) 8 (fun x q => q.set rd x)
/-- `st Z, rr` -/
@[asm] def st (lo hi rr : Nat) : Instr 8 := .st .plain (ea lo hi) 8 (fun q => q.r rr)
/-- `std Z+1, rr` -/
@[asm] def std1 (lo hi rr : Nat) : Instr 8 := .st .plain (ea1 lo hi) 8 (fun q => q.r rr)

/-! ### The pieces of a critical section -/

/-- l.28-42 `disable` -/
@[asm] def disable (s : Nat) : List (Instr 8) := [in_sreg s, cli]
/-- l.44-57 `restore` -/
@[asm] def restore (s : Nat) : List (Instr 8) := [out_sreg s]
/-- `dst.read()` of a 16-bit object, bytes in either order -/
@[asm] def read16 (ro : Bool) (olo ohi lo hi : Nat) : List (Instr 8) :=
  if ro then [ldd1 ohi lo hi, ld olo lo hi] else [ld olo lo hi, ldd1 ohi lo hi]
/-- `dst.write(val)` of a 16-bit object, bytes in either order -/
@[asm] def write16 (wo : Bool) (vlo vhi lo hi : Nat) : List (Instr 8) :=
  if wo then [std1 lo hi vhi, st lo hi vlo] else [st lo hi vlo, std1 lo hi vhi]

/-- operands: pointer in dst/src (low, high byte), saved SREG in tmp, ... -/
@[asm] def kind : Op → Kind
  | .x0 => .inout   -- Z low
  | .x1 => .inout   -- Z high
  | .tmp => .out    -- saved SREG
  | .val_lo => .inout | .val_hi => .inout | .old_lo => .inout | .old_hi => .inout
  | .new_lo => .inout | .new_hi => .inout
  | .out_lo => .out | .out_hi => .out | .tmp_lo => .out | .tmp_hi => .out | .r => .out
  | _ => .unused
/-- operands of an 8-bit load (l.160-161) -/
@[asm] def load8Kind : Op → Kind
  | .x0 => .inp | .x1 => .inp | .out_lo => .out | _ => .unused
/-- operands of an 8-bit store (l.179-180) -/
@[asm] def store8Kind : Op → Kind
  | .x0 => .inp | .x1 => .inp | .val_lo => .inp | _ => .unused

/-- l.158-163 8-bit `atomic_load` -/
@[asm] def load8Asm (al : Op → Nat) : List (Instr 8) := [ld (rg al .out_lo) (rg al .x0) (rg al .x1)]
/-- l.177-182 8-bit `atomic_store` -/
@[asm] def store8Asm (al : Op → Nat) : List (Instr 8) := [st (rg al .x0) (rg al .x1) (rg al .val_lo)]
/-- l.92-106 `atomic_swap`, 8 bits -/
@[asm] def swap8Asm (al : Op → Nat) : List (Instr 8) :=
  disable (rg al .tmp) ++
  [ ld (rg al .out_lo) (rg al .x0) (rg al .x1),
    st (rg al .x0) (rg al .x1) (rg al .val_lo) ] ++
  restore (rg al .tmp)
/-- l.114-141 `atomic_compare_exchange`, 8 bits, with `cmp8` (l.60-78: `xor8(old, out) == 0`) inlined -/
@[asm] def cas8Asm (al : Op → Nat) : List (Instr 8) :=
  disable (rg al .tmp) ++
  [ ld (rg al .out_lo) (rg al .x0) (rg al .x1),
    mov (rg al .tmp_lo) (rg al .old_lo),
    eor (rg al .tmp_lo) (rg al .out_lo),
    isZero (rg al .r) (rg al .tmp_lo),
    ifNot (rg al .r) 8,
    st (rg al .x0) (rg al .x1) (rg al .new_lo) ] ++
  restore (rg al .tmp)
/-- l.195-207 16-bit `atomic_load` -/
@[asm] def load16Asm (al : Op → Nat) (ro : Bool) : List (Instr 8) :=
  disable (rg al .tmp) ++ read16 ro (rg al .out_lo) (rg al .out_hi) (rg al .x0) (rg al .x1) ++
  restore (rg al .tmp)
/-- l.210-221 16-bit `atomic_store` -/
@[asm] def store16Asm (al : Op → Nat) (wo : Bool) : List (Instr 8) :=
  disable (rg al .tmp) ++ write16 wo (rg al .val_lo) (rg al .val_hi) (rg al .x0) (rg al .x1) ++
  restore (rg al .tmp)
/-- l.92-106 `atomic_swap`, 16 bits -/
@[asm] def swap16Asm (al : Op → Nat) (ro wo : Bool) : List (Instr 8) :=
  disable (rg al .tmp) ++ read16 ro (rg al .out_lo) (rg al .out_hi) (rg al .x0) (rg al .x1) ++
  write16 wo (rg al .val_lo) (rg al .val_hi) (rg al .x0) (rg al .x1) ++ restore (rg al .tmp)
/-- l.114-141 `atomic_compare_exchange`, 16 bits, with `cmp16` (l.80-86:
`xor8(a1, b1) | xor8(a2, b2) == 0`) inlined -/
@[asm] def cas16Asm (al : Op → Nat) (ro wo : Bool) : List (Instr 8) :=
  disable (rg al .tmp) ++ read16 ro (rg al .out_lo) (rg al .out_hi) (rg al .x0) (rg al .x1) ++
  [ mov (rg al .tmp_lo) (rg al .old_lo),
    eor (rg al .tmp_lo) (rg al .out_lo),
    mov (rg al .tmp_hi) (rg al .old_hi),
    eor (rg al .tmp_hi) (rg al .out_hi),
    or (rg al .tmp_lo) (rg al .tmp_hi),
    isZero (rg al .r) (rg al .tmp_lo),
    ifNot (rg al .r) 13 ] ++
  write16 wo (rg al .new_lo) (rg al .new_hi) (rg al .x0) (rg al .x1) ++
  restore (rg al .tmp)

/-! ### Blocks and back end -/

/-- low byte -/
def lo8 (x : BitVec 16) : BitVec 8 := x.setWidth 8
/-- high byte -/
def hi8 (x : BitVec 16) : BitVec 8 := (x >>> 8).setWidth 8
/-- Registers a critical section may change: its operands and SREG. -/
@[asm] def Outs (al : Alloc kind) (j : Nat) : Prop := j = sreg ∨ ∃ i, al.Outs i ∧ j = i + 2

/-- l.148-167 (`preserves_flags`: SREG is not among the outputs) -/
@[asm] def load8Block (al : Alloc load8Kind) (p : BitVec 16) : Block 8 8 where
  code := load8Asm al
  args := [⟨rg al .x0, 8, lo8 p⟩, ⟨rg al .x1, 8, hi8 p⟩]
  outs j := ∃ i, al.Outs i ∧ j = i + 2
  out rs := rs.r (rg al .out_lo)
/-- l.168-185 -/
@[asm] def store8Block (al : Alloc store8Kind) (p : BitVec 16) (val : BitVec 8) : Block 8 8 where
  code := store8Asm al
  args := [⟨rg al .x0, 8, lo8 p⟩, ⟨rg al .x1, 8, hi8 p⟩, ⟨rg al .val_lo, 8, val⟩]
  outs j := ∃ i, al.Outs i ∧ j = i + 2
/-- l.186 (`atomic_swap!`, l.88-109) -/
@[asm] def swap8Block (al : Alloc kind) (p : BitVec 16) (val : BitVec 8) : Block 8 8 where
  code := swap8Asm al
  args := [⟨rg al .x0, 8, lo8 p⟩, ⟨rg al .x1, 8, hi8 p⟩, ⟨rg al .val_lo, 8, val⟩]
  outs := Outs al
  out rs := rs.r (rg al .out_lo)
/-- l.187 (`atomic_cas!`, l.110-144) -/
@[asm] def cas8Block (al : Alloc kind) (p : BitVec 16) (old new : BitVec 8) : Block 8 8 where
  code := cas8Asm al
  args := [⟨rg al .x0, 8, lo8 p⟩, ⟨rg al .x1, 8, hi8 p⟩, ⟨rg al .old_lo, 8, old⟩, ⟨rg al .new_lo, 8, new⟩]
  outs := Outs al
  out rs := rs.r (rg al .out_lo)
  ok rs := rs.r (rg al .r) != 0#8
/-- l.193-208 -/
@[asm] def load16Block (al : Alloc kind) (ro : Bool) (p : BitVec 16) : Block 8 16 where
  code := load16Asm al ro
  args := [⟨rg al .x0, 8, lo8 p⟩, ⟨rg al .x1, 8, hi8 p⟩]
  outs := Outs al
  out rs := rs.r (rg al .out_hi) ++ rs.r (rg al .out_lo)
/-- l.209-222 -/
@[asm] def store16Block (al : Alloc kind) (wo : Bool) (p val : BitVec 16) : Block 8 16 where
  code := store16Asm al wo
  args := [⟨rg al .x0, 8, lo8 p⟩, ⟨rg al .x1, 8, hi8 p⟩, ⟨rg al .val_lo, 8, lo8 val⟩, ⟨rg al .val_hi, 8, hi8 val⟩]
  outs := Outs al
/-- l.223 -/
@[asm] def swap16Block (al : Alloc kind) (ro wo : Bool) (p val : BitVec 16) : Block 8 16 where
  code := swap16Asm al ro wo
  args := [⟨rg al .x0, 8, lo8 p⟩, ⟨rg al .x1, 8, hi8 p⟩, ⟨rg al .val_lo, 8, lo8 val⟩, ⟨rg al .val_hi, 8, hi8 val⟩]
  outs := Outs al
  out rs := rs.r (rg al .out_hi) ++ rs.r (rg al .out_lo)
/-- l.224 -/
@[asm] def cas16Block (al : Alloc kind) (ro wo : Bool) (p old new : BitVec 16) : Block 8 16 where
  code := cas16Asm al ro wo
  args := [⟨rg al .x0, 8, lo8 p⟩, ⟨rg al .x1, 8, hi8 p⟩, ⟨rg al .old_lo, 8, lo8 old⟩, ⟨rg al .old_hi, 8, hi8 old⟩,
    ⟨rg al .new_lo, 8, lo8 new⟩, ⟨rg al .new_hi, 8, hi8 new⟩]
  outs := Outs al
  out rs := rs.r (rg al .out_hi) ++ rs.r (rg al .out_lo)
  ok rs := rs.r (rg al .r) != 0#8

/-- `atomic_load`; orderings that passed `assert_load_ordering` (src/lib.rs l.295-309). A 16-bit object is
2-aligned (C25), so it does not wrap around the address space. -/
inductive Load : Ordering → (w a : Nat) → Block 8 w → Prop
  | b (al) {o} (p : BitVec 16) (hv : assertLoadOrdering o = .ok ()) : Load o 8 p.toNat (load8Block al p)
  | h (al ro) {o} (p : BitVec 16) (hp : p.toNat % 2 = 0) (hv : assertLoadOrdering o = .ok ()) :
      Load o 16 p.toNat (load16Block al ro p)
/-- `atomic_store` -/
inductive Store : Ordering → (w a : Nat) → BitVec w → Block 8 w → Prop
  | b (al) {o} (p : BitVec 16) (val) (hv : assertStoreOrdering o = .ok ()) :
      Store o 8 p.toNat val (store8Block al p val)
  | h (al wo) {o} (p : BitVec 16) (val) (hp : p.toNat % 2 = 0) (hv : assertStoreOrdering o = .ok ()) :
      Store o 16 p.toNat val (store16Block al wo p val)
/-- `atomic_swap` -/
inductive Swap : Ordering → (w a : Nat) → BitVec w → Block 8 w → Prop
  | b (al o) (p : BitVec 16) (val) : Swap o 8 p.toNat val (swap8Block al p val)
  | h (al ro wo o) (p : BitVec 16) (val) (hp : p.toNat % 2 = 0) :
      Swap o 16 p.toNat val (swap16Block al ro wo p val)
/-- `atomic_compare_exchange`; the weak form defaults to it (src/raw.rs) -/
inductive Cas : Ordering → Ordering → (w a : Nat) → BitVec w → BitVec w → Block 8 w → Prop
  | b (al) {s f} (p : BitVec 16) (old new) (hv : assertCompareExchangeOrdering s f = .ok ()) :
      Cas s f 8 p.toNat old new (cas8Block al p old new)
  | h (al ro wo) {s f} (p : BitVec 16) (old new) (hp : p.toNat % 2 = 0)
      (hv : assertCompareExchangeOrdering s f = .ok ()) :
      Cas s f 16 p.toNat old new (cas16Block al ro wo p old new)

/-- The AVR back end. One core without caches: accesses happen in program order. -/
@[asm] def backend : IBackend 8 where
  e := .little
  imp := Pairs.full
  Load := Load
  Store := Store
  Swap := Swap
  Cas := Cas
  CasWeak := Cas
  ien := ien

end Verif.Avr
