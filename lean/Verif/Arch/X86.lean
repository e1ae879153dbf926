/-
src/arch/x86.rs: x86 (32-bit) and x86_64 (little endian).

`W` is the register width (32 on x86, 64 on x86_64), `P` the pointer width (`ptr_modifier!`, l.36-47, and `$rdi`,
l.511-514: 32 on x86 and on the x32 ABI of x86_64, else 64).

A `lock`ed instruction and `xchg` with memory are one atomic read-modify-write and a full barrier, also if the
comparison fails. Plain accesses are ordered as in x86-TSO: everything but an earlier write and a later read
(`imp`).

An SSE register is represented by two register-wide halves (only its low 64 bits are used; the code runs only if
registers are 32 bits wide). An x87 register is represented by three pseudo-registers holding its 80 bits. The
local buffers that `fistp` writes (l.247) and `fild` reads (l.351) are private to the operation and are
represented by pseudo-registers as well.
-/
import Verif.Core.Alloc
import Verif.Contract
import Verif.Core.Ordering
import Verif.Core.Sizes
import Verif.Core.Pair

namespace Verif.X86

/-! ### Mnemonics -/

section
variable {W : Nat}

/-- A full barrier on both sides. -/
abbrev locked : Acc := { full := true }
/-- `[reg + d]` with `P`-bit addresses. -/
@[asm] def ea (P : Nat) (b d : Nat) : RS W → Nat := fun s => ((s.r b).setWidth P + BitVec.ofNat P d).toNat
/-- A register after a `w`-bit write: 32-bit writes clear the upper half of a 64-bit register, 8- and 16-bit
writes leave the upper bits alone. -/
def part {w : Nat} (x : BitVec w) (r : BitVec W) : BitVec W :=
  if w = 32 then x.setWidth W else ((r >>> w) <<< w) ||| x.setWidth W
/-- `mov rd, size ptr [rs + d]`. -/
@[asm] def mov_ld (P w rd rs : Nat) (d : Nat := 0) : Instr W :=
  .ld .plain (ea P rs d) w (fun x q => q.set rd (part x (q.r rd)))
/-- `mov size ptr [rd], rv`. -/
@[asm] def mov_st (P w rd rv : Nat) : Instr W := .st .plain (ea P rd 0) w (fun q => (q.r rv).setWidth w)
/-- `mov rd, rs`. -/
@[asm] def mov (rd rs : Nat) : Instr W := .op fun _ q => q.set rd (q.r rs)
/-- `xor rd, rd`: rd = 0. Sets ZF. -/
@[asm] def xor_self (rd : Nat) : Instr W := .op fun _ q => (q.set rd 0).setZ true
/-- `xchg ra, rb` (registers). -/
@[asm] def xchg_reg (ra rb : Nat) : Instr W := .op fun _ q => (q.set ra (q.r rb)).set rb (q.r ra)
/-- `xchg size ptr [rd], rv`: atomic { x = *rd; *rd = rv; rv = x }. -/
@[asm] def xchg (P w rd rv : Nat) : Instr W :=
  .rmw locked (ea P rd 0) w (fun q _ => some ((q.r rv).setWidth w)) (fun x q => q.set rv (part x (q.r rv)))
/-- `lock cmpxchg size ptr [rd], new` with accumulator `ax`:
atomic { if *rd == ax { ZF = 1; *rd = new } else { ZF = 0; ax = *rd } }. -/
@[asm] def cmpxchg (P w rd new ax : Nat) : Instr W :=
  .rmw locked (ea P rd 0) w
    (fun q x => if x = (q.r ax).setWidth w then some ((q.r new).setWidth w) else none)
    (fun x q => (q.setIf (x != (q.r ax).setWidth w) ax (part x (q.r ax))).setZ (x == (q.r ax).setWidth w))
/-- `sete r8`: the low byte of the register becomes ZF. -/
@[asm] def sete (rd : Nat) : Instr W := .op fun _ q => q.set rd (part (if q.z then 1#8 else 0#8) (q.r rd))
/-- `jne target`. -/
@[asm] def jne (t : Nat) : Instr W := .br (fun s => !s.z) t
/-- `lock cmpxchg8b` (`W = 32`, `D = 64`) and `lock cmpxchg16b` (`W = 64`, `D = 128`):
atomic { if *rd == dx:ax { ZF = 1; *rd = cx:bx } else { ZF = 0; dx:ax = *rd } }. -/
@[asm] def cmpxchg2 (P D : Nat) (rd dx ax cx bx : Nat) : Instr W :=
  .rmw locked (ea P rd 0) D
    (fun q x => if x = joinHL D (q.r dx) (q.r ax) then some (joinHL D (q.r cx) (q.r bx)) else none)
    (fun x q => ((q.setIf (x != joinHL D (q.r dx) (q.r ax)) dx (highHalf W x)).setIf
        (x != joinHL D (q.r dx) (q.r ax)) ax (lowHalf W x)).setZ
      (x == joinHL D (q.r dx) (q.r ax)))
/-- `lock or dword ptr [esp], 0`: writes the top of the thread's own stack back unchanged, i.e. only a full
barrier; changes the flags (`lock_or_flags`). -/
@[asm] def lock_or : Instr W := .fence Pairs.full
/-- The flags set by `lock or`: ZF from the (private) stack word. -/
@[asm] def lock_or_flags : Instr W := .op fun o q => q.setZ (o.junk % 2 == 0)
end

/-! ### x87 -/

/-- `IC`/`RC`: rounding control of the x87 control word (Intel SDM vol. 1, 4.8.4). -/
inductive Round where
  | nearest | down | up | zero
deriving DecidableEq, Repr

/-- 80-bit extended precision (Intel SDM vol. 1, 4.2.2): 1 sign bit, 15 exponent bits, 64 significand bits with
an explicit integer bit. -/
structure Ext where
  sign : BitVec 1
  exp : BitVec 15
  sig : BitVec 64
deriving DecidableEq, Repr

/-- `|x|` of a two's complement integer. -/
def absNat (x : BitVec 64) : Nat := x.toInt.natAbs
/-- `fild m64int`: the integer `x` as an extended precision number (normalised: integer bit set; zero has
exponent and significand 0). -/
def fildVal (x : BitVec 64) : Ext :=
  if x = 0#64 then ⟨0, 0, 0⟩
  else ⟨if x.msb then 1 else 0, BitVec.ofNat 15 (16383 + (absNat x).log2),
        BitVec.ofNat 64 (absNat x * 2 ^ (63 - (absNat x).log2))⟩
/-- Rounding `n / 2^k` to an integer magnitude (`neg`: the number is negative). -/
def roundDiv (rc : Round) (neg : Bool) (n k : Nat) : Nat :=
  let q := n / 2 ^ k
  let r := n % 2 ^ k
  if r = 0 then q
  else match rc with
    | .zero => q
    | .down => if neg then q + 1 else q
    | .up => if neg then q else q + 1
    | .nearest =>
      if 2 * r < 2 ^ k then q else if 2 ^ k < 2 * r then q + 1 else if q % 2 = 0 then q else q + 1
/-- `fistp m64int`: round to an integer, store it; the integer indefinite value if it does not fit, and for
infinities and NaNs. -/
def fistpVal (rc : Round) (x : Ext) : BitVec 64 :=
  let neg := x.sign == 1#1
  -- value = sig * 2^(exp - 16383 - 63)
  let mag := if 16446 ≤ x.exp.toNat then x.sig.toNat * 2 ^ (x.exp.toNat - 16446)
    else roundDiv rc neg x.sig.toNat (16446 - x.exp.toNat)
  let v : Int := if neg then -(mag : Int) else mag
  if x.exp = 0x7fff#15 ∨ v < -2 ^ 63 ∨ 2 ^ 63 ≤ v then 0x8000000000000000#64 else BitVec.ofInt 64 v

/-- The low word of the significand. -/
def extLo (x : Ext) : BitVec 32 := x.sig.extractLsb' 0 32
/-- The high word of the significand. -/
def extHi (x : Ext) : BitVec 32 := x.sig.extractLsb' 32 32
/-- Sign and exponent. -/
def extSE (x : Ext) : BitVec 32 := (x.sign ++ x.exp).setWidth 32
/-- The x87 register held by three pseudo-registers. -/
def extOf (lo hi se : BitVec 32) : Ext :=
  { sign := se.extractLsb' 15 1, exp := se.extractLsb' 0 15, sig := (hi ++ lo).setWidth 64 }
/-- Push a value on the (empty) x87 stack; `t0`, `t1`, `t2` hold st(0). -/
@[asm] def push (t0 t1 t2 : Nat) (x : Ext) (q : RS 32) : RS 32 :=
  ((q.set t0 (extLo x)).set t1 (extHi x)).set t2 (extSE x)
/-- The value of st(0). -/
@[asm] def top (t0 t1 t2 : Nat) (q : RS 32) : Ext := extOf (q.r t0) (q.r t1) (q.r t2)
/-- `fild qword ptr [rs]`. -/
@[asm] def fild (rs t0 t1 t2 : Nat) : Instr 32 :=
  .ld .plain (ea 32 rs 0) 64 (fun x q => push t0 t1 t2 (fildVal x) q)
/-- `fild qword ptr [buf]`, `buf` a private buffer. -/
@[asm] def fild_buf (blo bhi t0 t1 t2 : Nat) : Instr 32 :=
  .op fun _ q => push t0 t1 t2 (fildVal (joinHL 64 (q.r bhi) (q.r blo))) q
/-- `fistp qword ptr [rd]`. -/
@[asm] def fistp (rc : Round) (rd t0 t1 t2 : Nat) : Instr 32 :=
  .st .plain (ea 32 rd 0) 64 (fun q => fistpVal rc (top t0 t1 t2 q))
/-- `fistp qword ptr [buf]`, `buf` a private buffer. -/
@[asm] def fistp_buf (rc : Round) (blo bhi t0 t1 t2 : Nat) : Instr 32 :=
  .op fun _ q => (q.set blo (lowHalf 32 (fistpVal rc (top t0 t1 t2 q)))).set bhi
    (highHalf 32 (fistpVal rc (top t0 t1 t2 q)))

/-! ### asm! blocks: word sizes (l.49-168) -/

section
variable {W : Nat}
/-- operands of l.68-69 -/
@[asm] def loadKind : Op → Kind
  | .src => .inp | .out => .lateout | _ => .unused
/-- l.66-71 `atomic_load`. -/
@[asm] def loadAsm (al : Op → Nat) (P w : Nat) : List (Instr W) := [ mov_ld P w (al .out) (al .src) ]
/-- operands of l.92-93 -/
@[asm] def storeKind : Op → Kind
  | .dst => .inp | .val => .inp | _ => .unused
/-- l.90-95 `atomic_store`, Relaxed and Release. -/
@[asm] def storeAsm (al : Op → Nat) (P w : Nat) : List (Instr W) := [ mov_st P w (al .dst) (al .val) ]
/-- operands of l.101-102 and l.126-127 -/
@[asm] def swapKind : Op → Kind
  | .dst => .inp | .val => .inout | _ => .unused
/-- l.98-104 `atomic_store`, SeqCst; l.123-128 `atomic_swap`. -/
@[asm] def swapAsm (al : Op → Nat) (P w : Nat) : List (Instr W) := [ xchg P w (al .dst) (al .val) ]
/-- operands of l.156-159; `in("ecx") new` and `lateout("cl") r` are the same register -/
@[asm] def casKind : Op → Kind
  | .dst => .inp | .new => .inlateout | .old => .inout | _ => .unused
/-- l.153-162 `atomic_compare_exchange`. -/
@[asm] def casAsm (al : Op → Nat) (P w : Nat) : List (Instr W) :=
  [ cmpxchg P w (al .dst) (al .new) (al .old), sete (al .new) ]

/-- l.54-75 -/
@[asm] def loadBlock (al : Alloc loadKind) (w : Nat) {P : Nat} (p : BitVec P) : Block W w where
  code := loadAsm al P w
  args := [⟨al .src, P, p⟩]
  outs := al.Outs
  keepsFlags := true
  out rs := (rs.r (al .out)).setWidth w
/-- l.76-96 -/
@[asm] def storeBlock (al : Alloc storeKind) (w : Nat) {P : Nat} (p : BitVec P) (val : BitVec w) : Block W w where
  code := storeAsm al P w
  args := [⟨al .dst, P, p⟩, ⟨al .val, w, val⟩]
  outs := al.Outs
  keepsFlags := true
/-- l.97-105 and l.111-132 -/
@[asm] def swapBlock (al : Alloc swapKind) (w : Nat) {P : Nat} (p : BitVec P) (val : BitVec w) : Block W w where
  code := swapAsm al P w
  args := [⟨al .dst, P, p⟩, ⟨al .val, w, val⟩]
  outs := al.Outs
  keepsFlags := true
  out rs := (rs.r (al .val)).setWidth w
/-- l.134-167 (l.149: `let r: u8`) -/
@[asm] def casBlock (al : Alloc casKind) (w : Nat) {P : Nat} (p : BitVec P) (old new : BitVec w) : Block W w where
  code := casAsm al P w
  args := [⟨al .dst, P, p⟩, ⟨al .new, w, new⟩, ⟨al .old, w, old⟩]
  outs := al.Outs
  keepsFlags := false
  out rs := (rs.r (al .old)).setWidth w
  ok rs := (rs.r (al .new)).setWidth 8 != 0#8
  assumes rs := (rs.r (al .new)).setWidth 8 = 0#8 ∨ (rs.r (al .new)).setWidth 8 = 1#8

/-- `MaybeUninit64/128 { $ty: v }.pair` as (lo, hi) (src/utils.rs l.197-241) -/
abbrev pr (W : Nat) {D : Nat} (v : BitVec D) : BitVec W × BitVec W := pairOf true .little W v
/-- `MaybeUninit64/128 { pair: Pair { lo, hi } }.$ty` -/
abbrev unpr (D : Nat) (lo hi : BitVec W) : BitVec D := ofPair true .little D lo hi
end

/-! ### asm! blocks: 64 bits on x86 (l.188-505) -/

/-- operands of l.216-217 (`out(xmm_reg)`) and of l.235-236 (`inout(xmm_reg)`, initial value zero) -/
@[asm] def sseLoadKind : Op → Kind
  | .src => .inp | .out_lo => .out | .out_hi => .out | _ => .unused
/-- l.214-219 (`movq`, SSE2) and l.233-238 (`movlps`, SSE): both replace the low 64 bits. -/
@[asm] def sseLoadAsm (al : Op → Nat) : List (Instr 32) :=
  [ .ld .plain (ea 32 (al .src) 0) 64
      (fun x q => (q.set (al .out_lo) (lowHalf 32 x)).set (al .out_hi) (highHalf 32 x)) ]
/-- l.204-240; `transmute::<_, [MaybeUninit<Self>; 2]>(out)[0]` are the low 64 bits. -/
@[asm] def sseLoadBlock (al : Alloc sseLoadKind) (p : BitVec 32) : Block 32 64 where
  code := sseLoadAsm al
  args := [⟨al .src, 32, p⟩]
  outs := al.Outs
  keepsFlags := true
  out rs := joinHL 64 (rs.r (al .out_hi)) (rs.r (al .out_lo))

/-- operands of l.255-264; `out` buffer in `out_lo`/`out_hi`, st(0) in x0..x2 -/
@[asm] def x87LoadKind : Op → Kind
  | .src => .inp | .out_lo => .out | .out_hi => .out | .x0 => .out | .x1 => .out | .x2 => .out | _ => .unused
/-- l.252-267 x87 load. -/
@[asm] def x87LoadAsm (al : Op → Nat) (rc : Round) : List (Instr 32) := [
    fild (al .src) (al .x0) (al .x1) (al .x2),
    fistp_buf rc (al .out_lo) (al .out_hi) (al .x0) (al .x1) (al .x2) ]
/-- l.242-269 -/
@[asm] def x87LoadBlock (al : Alloc x87LoadKind) (rc : Round) (p : BitVec 32) : Block 32 64 where
  code := x87LoadAsm al rc
  args := [⟨al .src, 32, p⟩]
  outs := al.Outs
  keepsFlags := false
  out rs := joinHL 64 (rs.r (al .out_hi)) (rs.r (al .out_lo))

/-- operands of l.281-285: ebx = val_lo, ecx = val_hi, eax = prev_lo, edx = prev_hi, edi = src -/
@[asm] def cx8LoadKind : Op → Kind
  | .src => .inp | .val_lo => .inp | .val_hi => .inp | .prev_lo => .inout | .prev_hi => .inout | _ => .unused
/-- l.278-288 `lock cmpxchg8b` as a load. -/
@[asm] def cx8LoadAsm (al : Op → Nat) : List (Instr 32) :=
  [ cmpxchg2 32 64 (al .src) (al .prev_hi) (al .prev_lo) (al .val_hi) (al .val_lo) ]
/-- l.271-290 -/
@[asm] def cx8LoadBlock (al : Alloc cx8LoadKind) (p : BitVec 32) : Block 32 64 where
  code := cx8LoadAsm al
  args := [⟨al .src, 32, p⟩, ⟨al .val_lo, 32, 0⟩, ⟨al .val_hi, 32, 0⟩, ⟨al .prev_lo, 32, 0⟩, ⟨al .prev_hi, 32, 0⟩]
  outs := al.Outs
  keepsFlags := false
  out rs := unpr 64 (rs.r (al .prev_lo)) (rs.r (al .prev_hi))

/-- operands of l.318-319 -/
@[asm] def sseStoreKind : Op → Kind
  | .dst => .inp | .val_lo => .inp | .val_hi => .inp | _ => .unused
/-- l.316-321 and, if `sc`, l.324-332. -/
@[asm] def sseStoreAsm (al : Op → Nat) (sc : Bool) : List (Instr 32) :=
  .st .plain (ea 32 (al .dst) 0) 64 (fun q => joinHL 64 (q.r (al .val_hi)) (q.r (al .val_lo))) ::
    if sc then [ lock_or, lock_or_flags ] else []
/-- l.302-336; `transmute([val, uninit])`: the low 64 bits are `val`. -/
@[asm] def sseStoreBlock (al : Alloc sseStoreKind) (sc : Bool) (p : BitVec 32) (val : BitVec 64) : Block 32 64 where
  code := sseStoreAsm al sc
  args := [⟨al .dst, 32, p⟩, ⟨al .val_lo, 32, lowHalf 32 val⟩, ⟨al .val_hi, 32, highHalf 32 val⟩]
  outs := al.Outs
  keepsFlags := !sc

/-- operands of l.351-360; the buffer `val` in `val_lo`/`val_hi`, st(0) in x0..x2 -/
@[asm] def x87StoreKind : Op → Kind
  | .dst => .inp | .val_lo => .inp | .val_hi => .inp | .x0 => .out | .x1 => .out | .x2 => .out | _ => .unused
/-- l.348-363 and, if `sc`, l.366-383. -/
@[asm] def x87StoreAsm (al : Op → Nat) (rc : Round) (sc : Bool) : List (Instr 32) :=
  fild_buf (al .val_lo) (al .val_hi) (al .x0) (al .x1) (al .x2) ::
  fistp rc (al .dst) (al .x0) (al .x1) (al .x2) ::
    if sc then [ lock_or, lock_or_flags ] else []
/-- l.338-387 -/
@[asm] def x87StoreBlock (al : Alloc x87StoreKind) (rc : Round) (sc : Bool) (p : BitVec 32) (val : BitVec 64) :
    Block 32 64 where
  code := x87StoreAsm al rc sc
  args := [⟨al .dst, 32, p⟩, ⟨al .val_lo, 32, lowHalf 32 val⟩, ⟨al .val_hi, 32, highHalf 32 val⟩]
  outs := al.Outs
  keepsFlags := false

/-- operands of l.408-412 and l.446-450: ebx = val_lo, ecx = val_hi, eax = prev_lo, edx = prev_hi, edi = dst -/
@[asm] def cx8SwapKind : Op → Kind
  | .dst => .inp | .val_lo => .inp | .val_hi => .inp | .prev_lo => .out | .prev_hi => .out | _ => .unused
/-- l.397-415 (store) and l.435-453 (swap). -/
@[asm] def cx8SwapAsm (al : Op → Nat) : List (Instr 32) := [
    mov_ld 32 32 (al .prev_lo) (al .dst),
    mov_ld 32 32 (al .prev_hi) (al .dst) 4,
    /- 2: -/ cmpxchg2 32 64 (al .dst) (al .prev_hi) (al .prev_lo) (al .val_hi) (al .val_lo),
    jne 2 ]
/-- l.388-416 and l.419-457 -/
@[asm] def cx8SwapBlock (al : Alloc cx8SwapKind) (p : BitVec 32) (val : BitVec 64) : Block 32 64 where
  code := cx8SwapAsm al
  args := [⟨al .dst, 32, p⟩, ⟨al .val_lo, 32, (pr 32 val).1⟩, ⟨al .val_hi, 32, (pr 32 val).2⟩]
  outs := al.Outs
  keepsFlags := false
  out rs := unpr 64 (rs.r (al .prev_lo)) (rs.r (al .prev_hi))

/-- operands of l.481-486: ebx = new_lo, ecx = new_hi (and `lateout("cl") r`), eax = old_lo, edx = old_hi,
edi = dst -/
@[asm] def cx8CasKind : Op → Kind
  | .dst => .inp | .new_lo => .inp | .new_hi => .inlateout | .old_lo => .inout | .old_hi => .inout | _ => .unused
/-- l.478-489 `atomic_compare_exchange`. -/
@[asm] def cx8CasAsm (al : Op → Nat) : List (Instr 32) := [
    cmpxchg2 32 64 (al .dst) (al .old_hi) (al .old_lo) (al .new_hi) (al .new_lo),
    sete (al .new_hi) ]
/-- l.458-497 -/
@[asm] def cx8CasBlock (al : Alloc cx8CasKind) (p : BitVec 32) (old new : BitVec 64) : Block 32 64 where
  code := cx8CasAsm al
  args := [⟨al .dst, 32, p⟩, ⟨al .new_lo, 32, (pr 32 new).1⟩, ⟨al .new_hi, 32, (pr 32 new).2⟩,
    ⟨al .old_lo, 32, (pr 32 old).1⟩, ⟨al .old_hi, 32, (pr 32 old).2⟩]
  outs := al.Outs
  keepsFlags := false
  out rs := unpr 64 (rs.r (al .old_lo)) (rs.r (al .old_hi))
  ok rs := (rs.r (al .new_hi)).setWidth 8 != 0#8
  assumes rs := (rs.r (al .new_hi)).setWidth 8 = 0#8 ∨ (rs.r (al .new_hi)).setWidth 8 = 1#8

/-! ### asm! blocks: 128 bits on x86_64 (l.507-688) -/

/-- `rbx` is not an operand: it is saved in `rbx_tmp` and restored. It is different from the explicit registers
rax, rcx, rdx, rdi; but nothing stops the compiler from choosing rbx itself for `rbx_tmp` (class `reg`). -/
structure Rbx {kind : Op → Kind} (al : Alloc kind) (b : Nat) : Prop where
  ne : ∀ o, o ≠ .rbx_tmp → kind o ≠ .unused → al o ≠ b

/-- operands of l.540-544: rcx = val_hi, rax = prev_lo, rdx = prev_hi, rdi = src -/
@[asm] def cx16LoadKind : Op → Kind
  | .src => .inp | .val_hi => .inp | .prev_lo => .inout | .prev_hi => .inout | .rbx_tmp => .out | _ => .unused
/-- l.534-548 -/
@[asm] def cx16LoadAsm (al : Op → Nat) (b P : Nat) : List (Instr 64) := [
    mov (al .rbx_tmp) b,
    xor_self b,
    cmpxchg2 P 128 (al .src) (al .prev_hi) (al .prev_lo) (al .val_hi) b,
    mov b (al .rbx_tmp) ]
/-- l.518-551 -/
@[asm] def cx16LoadBlock (al : Alloc cx16LoadKind) (b : Nat) {P : Nat} (p : BitVec P) : Block 64 128 where
  code := cx16LoadAsm al b P
  args := [⟨al .src, P, p⟩, ⟨al .val_hi, 64, 0⟩, ⟨al .prev_lo, 64, 0⟩, ⟨al .prev_hi, 64, 0⟩]
  outs := al.Outs
  keepsFlags := false
  out rs := unpr 128 (rs.r (al .prev_lo)) (rs.r (al .prev_hi))

/-- operands of l.582-586 and l.624-628: rcx = val_hi, rax = prev_lo, rdx = prev_hi, rdi = dst; `rbx_tmp` enters
as the low half of the value -/
@[asm] def cx16SwapKind : Op → Kind
  | .dst => .inp | .val_hi => .inp | .prev_lo => .out | .prev_hi => .out | .rbx_tmp => .inout | _ => .unused
/-- l.570-590 (store) and l.611-631 (swap). -/
@[asm] def cx16SwapAsm (al : Op → Nat) (b P : Nat) : List (Instr 64) := [
    xchg_reg (al .rbx_tmp) b,
    mov_ld P 64 (al .prev_lo) (al .dst),
    mov_ld P 64 (al .prev_hi) (al .dst) 8,
    /- 2: -/ cmpxchg2 P 128 (al .dst) (al .prev_hi) (al .prev_lo) (al .val_hi) b,
    jne 3,
    mov b (al .rbx_tmp) ]
/-- l.552-592 and l.593-635 -/
@[asm] def cx16SwapBlock (al : Alloc cx16SwapKind) (b : Nat) {P : Nat} (p : BitVec P) (val : BitVec 128) :
    Block 64 128 where
  code := cx16SwapAsm al b P
  args := [⟨al .dst, P, p⟩, ⟨al .rbx_tmp, 64, (pr 64 val).1⟩, ⟨al .val_hi, 64, (pr 64 val).2⟩]
  outs := al.Outs
  keepsFlags := false
  out rs := unpr 128 (rs.r (al .prev_lo)) (rs.r (al .prev_hi))

/-- operands of l.663-668: rcx = new_hi (and `lateout("cl") r`), rax = old_lo, rdx = old_hi, rdi = dst; `rbx_tmp`
enters as the low half of `new` -/
@[asm] def cx16CasKind : Op → Kind
  | .dst => .inp | .new_hi => .inlateout | .old_lo => .inout | .old_hi => .inout | .rbx_tmp => .inout | _ => .unused
/-- l.659-672 -/
@[asm] def cx16CasAsm (al : Op → Nat) (b P : Nat) : List (Instr 64) := [
    xchg_reg (al .rbx_tmp) b,
    cmpxchg2 P 128 (al .dst) (al .old_hi) (al .old_lo) (al .new_hi) b,
    sete (al .new_hi),
    mov b (al .rbx_tmp) ]
/-- l.636-680 -/
@[asm] def cx16CasBlock (al : Alloc cx16CasKind) (b : Nat) {P : Nat} (p : BitVec P) (old new : BitVec 128) :
    Block 64 128 where
  code := cx16CasAsm al b P
  args := [⟨al .dst, P, p⟩, ⟨al .rbx_tmp, 64, (pr 64 new).1⟩, ⟨al .new_hi, 64, (pr 64 new).2⟩,
    ⟨al .old_lo, 64, (pr 64 old).1⟩, ⟨al .old_hi, 64, (pr 64 old).2⟩]
  outs := al.Outs
  keepsFlags := false
  out rs := unpr 128 (rs.r (al .old_lo)) (rs.r (al .old_hi))
  ok rs := (rs.r (al .new_hi)).setWidth 8 != 0#8
  assumes rs := (rs.r (al .new_hi)).setWidth 8 = 0#8 ∨ (rs.r (al .new_hi)).setWidth 8 = 1#8

/-! ### Back ends -/

/-- Pairs kept in order by x86-TSO. -/
def imp : Pairs := ⟨true, true, false, true, false⟩

/-- Object sizes of the `atomic!` macro (l.170-186). -/
def Size (W w : Nat) : Prop := SubSize w ∨ WordSize W w

/-- Does `order` use the SeqCst arm of a store (l.88-107, l.313-335, l.345-386)? `none`: `unreachable!()`. -/
def storeArm : Ordering → Option Bool
  | .relaxed | .release => some false
  | .seqCst => some true
  | _ => none

/-- Build configuration of x86 (32-bit); `no_cmpxchg` and `no_cmpxchg8b` are set by build.rs for i386/i486. -/
structure Conf32 where
  sse : Bool
  sse2 : Bool
  x87 : Bool
  noCmpxchg : Bool
  noCmpxchg8b : Bool
  rc : Round

/-- 32-bit `atomic_load` -/
inductive Load32 (c : Conf32) : Ordering → (w a : Nat) → Block 32 w → Prop
  | word (al o) {w} (p : BitVec 32) (hw : Size 32 w) : Load32 c o w p.toNat (loadBlock al w p)
  | sse2 (al o) (p : BitVec 32) (h : c.noCmpxchg8b = false) (hc : c.sse2 = true) :
      Load32 c o 64 p.toNat (sseLoadBlock al p)
  | sse (al o) (p : BitVec 32) (h : c.noCmpxchg8b = false) (hc2 : c.sse2 = false) (hc : c.sse = true) :
      Load32 c o 64 p.toNat (sseLoadBlock al p)
  | x87 (al o) (p : BitVec 32) (h : c.noCmpxchg8b = false) (hc : c.sse = false) (hx : c.x87 = true) :
      Load32 c o 64 p.toNat (x87LoadBlock al c.rc p)
  | cx8 (al o) (p : BitVec 32) (h : c.noCmpxchg8b = false) (hc : c.sse = false) (hx : c.x87 = false) :
      Load32 c o 64 p.toNat (cx8LoadBlock al p)
/-- 32-bit `atomic_store` -/
inductive Store32 (c : Conf32) : Ordering → (w a : Nat) → BitVec w → Block 32 w → Prop
  | mov (al) {o w} (p : BitVec 32) (val : BitVec w) (hw : Size 32 w) (ho : storeArm o = some false) :
      Store32 c o w p.toNat val (storeBlock al w p val)
  | xchg (al) {o w} (p : BitVec 32) (val : BitVec w) (hw : Size 32 w) (ho : storeArm o = some true) :
      Store32 c o w p.toNat val (swapBlock al w p val)
  | sse (al) {o sc} (p : BitVec 32) (val : BitVec 64) (h : c.noCmpxchg8b = false) (hc : c.sse = true)
      (ho : storeArm o = some sc) : Store32 c o 64 p.toNat val (sseStoreBlock al sc p val)
  | x87 (al) {o sc} (p : BitVec 32) (val : BitVec 64) (h : c.noCmpxchg8b = false) (hc : c.sse = false)
      (hx : c.x87 = true) (ho : storeArm o = some sc) : Store32 c o 64 p.toNat val (x87StoreBlock al c.rc sc p val)
  | cx8 (al o) (p : BitVec 32) (val : BitVec 64) (h : c.noCmpxchg8b = false) (hc : c.sse = false)
      (hx : c.x87 = false) : Store32 c o 64 p.toNat val (cx8SwapBlock al p val)
/-- 32-bit `atomic_swap` -/
inductive Swap32 (c : Conf32) : Ordering → (w a : Nat) → BitVec w → Block 32 w → Prop
  | word (al o) {w} (p : BitVec 32) (val : BitVec w) (hw : Size 32 w) : Swap32 c o w p.toNat val (swapBlock al w p val)
  | cx8 (al o) (p : BitVec 32) (val : BitVec 64) (h : c.noCmpxchg8b = false) :
      Swap32 c o 64 p.toNat val (cx8SwapBlock al p val)
/-- 32-bit `atomic_compare_exchange`; the weak form defaults to it (src/raw.rs) -/
inductive Cas32 (c : Conf32) : Ordering → Ordering → (w a : Nat) → BitVec w → BitVec w → Block 32 w → Prop
  | word (al s f) {w} (p : BitVec 32) (old new : BitVec w) (hw : Size 32 w) (h : c.noCmpxchg = false) :
      Cas32 c s f w p.toNat old new (casBlock al w p old new)
  | cx8 (al s f) (p : BitVec 32) (old new : BitVec 64) (h : c.noCmpxchg8b = false) :
      Cas32 c s f 64 p.toNat old new (cx8CasBlock al p old new)

/-- The 32-bit back end. -/
def backend32 (c : Conf32) : Backend 32 where
  e := .little
  imp := imp
  Load := Load32 c
  Store := Store32 c
  Swap := Swap32 c
  Cas := Cas32 c
  CasWeak := Cas32 c

/-- Build configuration of x86_64: pointer width and cmpxchg16b. -/
structure Conf64 where
  P : Nat
  hP : P = 32 ∨ P = 64
  cmpxchg16b : Bool

/-- 64-bit `atomic_load` -/
inductive Load64 (c : Conf64) : Ordering → (w a : Nat) → Block 64 w → Prop
  | word (al o) {w} (p : BitVec c.P) (hw : Size 64 w) : Load64 c o w p.toNat (loadBlock al w p)
  | cx16 (al o) {b} (hb : Rbx al b) (p : BitVec c.P) (h : c.cmpxchg16b = true) :
      Load64 c o 128 p.toNat (cx16LoadBlock al b p)
/-- 64-bit `atomic_store` -/
inductive Store64 (c : Conf64) : Ordering → (w a : Nat) → BitVec w → Block 64 w → Prop
  | mov (al) {o w} (p : BitVec c.P) (val : BitVec w) (hw : Size 64 w) (ho : storeArm o = some false) :
      Store64 c o w p.toNat val (storeBlock al w p val)
  | xchg (al) {o w} (p : BitVec c.P) (val : BitVec w) (hw : Size 64 w) (ho : storeArm o = some true) :
      Store64 c o w p.toNat val (swapBlock al w p val)
  | cx16 (al o) {b} (hb : Rbx al b) (p : BitVec c.P) (val : BitVec 128) (h : c.cmpxchg16b = true) :
      Store64 c o 128 p.toNat val (cx16SwapBlock al b p val)
/-- 64-bit `atomic_swap` -/
inductive Swap64 (c : Conf64) : Ordering → (w a : Nat) → BitVec w → Block 64 w → Prop
  | word (al o) {w} (p : BitVec c.P) (val : BitVec w) (hw : Size 64 w) :
      Swap64 c o w p.toNat val (swapBlock al w p val)
  | cx16 (al o) {b} (hb : Rbx al b) (p : BitVec c.P) (val : BitVec 128) (h : c.cmpxchg16b = true) :
      Swap64 c o 128 p.toNat val (cx16SwapBlock al b p val)
/-- 64-bit `atomic_compare_exchange`; the weak form defaults to it (src/raw.rs) -/
inductive Cas64 (c : Conf64) : Ordering → Ordering → (w a : Nat) → BitVec w → BitVec w → Block 64 w → Prop
  | word (al s f) {w} (p : BitVec c.P) (old new : BitVec w) (hw : Size 64 w) :
      Cas64 c s f w p.toNat old new (casBlock al w p old new)
  | cx16 (al s f) {b} (hb : Rbx al b) (p : BitVec c.P) (old new : BitVec 128) (h : c.cmpxchg16b = true) :
      Cas64 c s f 128 p.toNat old new (cx16CasBlock al b p old new)

/-- The 64-bit back end. -/
def backend64 (c : Conf64) : Backend 64 where
  e := .little
  imp := imp
  Load := Load64 c
  Store := Store64 c
  Swap := Swap64 c
  Cas := Cas64 c
  CasWeak := Cas64 c

end Verif.X86
