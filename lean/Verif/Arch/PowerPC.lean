/-
src/arch/powerpc.rs (powerpc and powerpc64, both endiannesses).

`W` is the register width (32 or 64). 8/16-bit objects use l{b,h}arx with partword-atomics, otherwise the
containing word; 128-bit objects (powerpc64 with quadword-atomics) use lq/stq and lqarx/stqcx.

Architecture facts used (Power ISA): the even register of a quadword pair holds the numerically high half at
both endiannesses; `isync` after a conditional branch that depends on a load orders that load before
everything later (comments at l.103-105: the branch is always present in these blocks); `lwsync` orders
everything but write-read; `sync` orders everything.
cr0.EQ is the flag `z`; `mfcr` returns it in bit 29, all other condition register bits are arbitrary.
-/
import Verif.Core.Alloc
import Verif.Contract
import Verif.Core.Ordering
import Verif.Core.Sizes
import Verif.Core.Pair

namespace Verif.PowerPC

/-- Build configuration. -/
structure Conf where
  partword : Bool
  quadword : Bool

/-! ### Mnemonics -/
section
variable {W : Nat}

/-- `0(reg)` / `0, reg`. -/
@[asm] def ea (b : Nat) : RS W → Nat := fun s => (s.r b).toNat
/-- `l{b,h,w}z` / `ld t, 0(s)`. -/
@[asm] def l (w t s : Nat) : Instr W := .ld .plain (ea s) w (fun x q => q.set t (x.setWidth W))
/-- `st{b,h,w,d} v, 0(s)`. -/
@[asm] def st (w v s : Nat) : Instr W := .st .plain (ea s) w (fun q => (q.r v).setWidth w)
/-- `l{b,h,w,d}arx t, 0, s`. -/
@[asm] def larx (w t s : Nat) : Instr W := .ll .plain false (ea s) w (fun x q => q.set t (x.setWidth W))
/-- `st{b,h,w,d}cx. v, 0, s`: cr0.EQ = success. -/
@[asm] def stcx (w v s : Nat) : Instr W :=
  .sc .plain (ea s) w (fun q => (q.r v).setWidth w) (fun b _ q => q.setZ b)
/-- `lq thi, 0(s)` into the pair thi:tlo. -/
@[asm] def lq (thi tlo s : Nat) : Instr W :=
  .ld .plain (ea s) 128 (fun x q => (q.set thi (highHalf W x)).set tlo (lowHalf W x))
/-- `stq vhi, 0(s)`. -/
@[asm] def stq (vhi vlo s : Nat) : Instr W := .st .plain (ea s) 128 (fun q => joinHL 128 (q.r vhi) (q.r vlo))
/-- `lqarx thi, 0, s`. -/
@[asm] def lqarx (thi tlo s : Nat) : Instr W :=
  .ll .plain false (ea s) 128 (fun x q => (q.set thi (highHalf W x)).set tlo (lowHalf W x))
/-- `stqcx. vhi, 0, s`. -/
@[asm] def stqcx (vhi vlo s : Nat) : Instr W :=
  .sc .plain (ea s) 128 (fun q => joinHL 128 (q.r vhi) (q.r vlo)) (fun b _ q => q.setZ b)
/-- `cmp{w,d} a, b` (`k` = 32 or 64 bits): cr0.EQ. -/
@[asm] def cmp (k a b : Nat) : Instr W := .op fun _ s => s.setZ ((s.r a).setWidth k == (s.r b).setWidth k)
/-- `bne %cr0, target`. -/
@[asm] def bne (t : Nat) : Instr W := .br (fun s => !s.z) t
/-- `slw t, a, b`: 32-bit shift, amount 6 bits (32-63 clears). -/
@[asm] def slw (t a b : Nat) : Instr W :=
  .op fun _ s => s.set t (((s.r a).setWidth 32 <<< ((s.r b).toNat % 64)).setWidth W)
/-- `srw t, a, b`. -/
@[asm] def srw (t a b : Nat) : Instr W :=
  .op fun _ s => s.set t (((s.r a).setWidth 32 >>> ((s.r b).toNat % 64)).setWidth W)
/-- `and t, a, b`. -/
@[asm] def and (t a b : Nat) : Instr W := .op fun _ s => s.set t (s.r a &&& s.r b)
/-- `andc t, a, b`. -/
@[asm] def andc (t a b : Nat) : Instr W := .op fun _ s => s.set t (s.r a &&& ~~~ s.r b)
/-- `or t, a, b`. -/
@[asm] def or (t a b : Nat) : Instr W := .op fun _ s => s.set t (s.r a ||| s.r b)
/-- `xor t, a, b`. -/
@[asm] def xor (t a b : Nat) : Instr W := .op fun _ s => s.set t (s.r a ^^^ s.r b)
/-- `or. t, a, b`: also sets cr0.EQ. -/
@[asm] def orDot (t a b : Nat) : Instr W :=
  .op fun _ s => (s.set t (s.r a ||| s.r b)).setZ ((s.r a ||| s.r b) == 0#W)
/-- the condition register with EQ of cr0 = `z` (bit 2 from the left of 32) and other bits `junk` -/
def crVal (junk : Nat) (z : Bool) : BitVec 32 :=
  (BitVec.ofNat 32 junk &&& ~~~(1#32 <<< 29)) ||| (if z then 1#32 <<< 29 else 0#32)
/-- `mfcr t`. -/
@[asm] def mfcr (t : Nat) : Instr W := .op fun o s => s.set t ((crVal o.junk s.z).setWidth W)
end

/-! ### Instructions with their operands

The acquire barrier `isync` is one only after a branch that depends on the load, so the programs below are lists of
instructions whose operands can be inspected (Props/PowerPCDep.lean). -/

/-- The instructions used in powerpc.rs. -/
inductive I where
  | l (w t s : Nat) | st (w v s : Nat) | larx (w t s : Nat) | stcx (w v s : Nat)
  | lq (thi tlo s : Nat) | stq (vhi vlo s : Nat) | lqarx (thi tlo s : Nat) | stqcx (vhi vlo s : Nat)
  | cmp (k a b : Nat) | bne (t : Nat) | slw (t a b : Nat) | srw (t a b : Nat) | and (t a b : Nat) | andc (t a b : Nat)
  | or (t a b : Nat) | xor (t a b : Nat) | orDot (t a b : Nat) | mfcr (t : Nat) | fence (p : Pairs)

/-- What they do. -/
@[asm] def I.sem {W : Nat} : I → Instr W
  | .l w t s => PowerPC.l w t s | .st w v s => PowerPC.st w v s
  | .larx w t s => PowerPC.larx w t s | .stcx w v s => PowerPC.stcx w v s
  | .lq thi tlo s => PowerPC.lq thi tlo s | .stq vhi vlo s => PowerPC.stq vhi vlo s
  | .lqarx thi tlo s => PowerPC.lqarx thi tlo s | .stqcx vhi vlo s => PowerPC.stqcx vhi vlo s
  | .cmp k a b => PowerPC.cmp k a b | .bne t => PowerPC.bne t | .slw t a b => PowerPC.slw t a b
  | .srw t a b => PowerPC.srw t a b | .and t a b => PowerPC.and t a b | .andc t a b => PowerPC.andc t a b
  | .or t a b => PowerPC.or t a b | .xor t a b => PowerPC.xor t a b | .orDot t a b => PowerPC.orDot t a b
  | .mfcr t => PowerPC.mfcr t | .fence p => .fence p

/-- l.81-85 `test_cr0_eq`. -/
def testCr0Eq {W : Nat} (cr : BitVec W) : Bool := (cr &&& BitVec.ofNat W 0x20000000) != 0#W

/-- `isync` after the dependent branch -/
def isync : Pairs := ⟨true, true, false, false, false⟩
/-- `lwsync` -/
def lwsync : Pairs := ⟨true, true, false, true, false⟩
/-- `sync` -/
def sync : Pairs := Pairs.full
/-- `""` -/
def noFence : Pairs := Pairs.none

/-! ### Ordering tables (`none` = `unreachable!()`) -/

/-- l.45-56 `atomic_rmw!`: (acquire, release). -/
def rmwOrd : Ordering → Pairs × Pairs
  | .relaxed => (noFence, noFence)
  | .acquire => (isync, noFence)
  | .release => (noFence, lwsync)
  | .acqRel => (isync, lwsync)
  | .seqCst => (isync, sync)
/-- Arguments of the macros called through `atomic_cas!`. -/
structure CO where
  always : Pairs
  success : Pairs
  release : Pairs
deriving DecidableEq
/-- l.57-79 `atomic_cas!`. -/
def casOrd (success failure : Ordering) : Option CO :=
  if failure = .relaxed then
    match success with
    | .relaxed => some ⟨noFence, noFence, noFence⟩
    | .acquire => some ⟨noFence, isync, noFence⟩
    | .release => some ⟨noFence, noFence, lwsync⟩
    | .acqRel => some ⟨noFence, isync, lwsync⟩
    | .seqCst => some ⟨noFence, isync, sync⟩
  else
    match upgradeSuccessOrdering success failure with
    | .acquire => some ⟨isync, noFence, noFence⟩
    | .acqRel => some ⟨isync, noFence, lwsync⟩
    | .seqCst => some ⟨isync, noFence, sync⟩
    | _ => none
/-- l.117-129, l.530-544: `some none` is the relaxed load without branch, `some (some release)` is
`atomic_load_acquire!`. -/
def loadOrd : Ordering → Option (Option Pairs)
  | .relaxed => some none
  | .acquire => some (some noFence)
  | .seqCst => some (some sync)
  | _ => none
/-- l.156-161, l.576-581: release fence of a store. -/
def storeOrd : Ordering → Option Pairs
  | .relaxed => some noFence
  | .release => some lwsync
  | .seqCst => some sync
  | _ => none

/-! ### asm! blocks -/
section
variable {W : Nat}

/-- operands of l.110-112, l.121-122 -/
@[asm] def loadKind : Op → Kind
  | .src => .inp | .out => .lateout
  | _ => .unused
/-- l.118-125 relaxed `atomic_load`. -/
@[asm] def loadProg (al : Op → Nat) (w : Nat) : List I := [
    .l w (al .out) (al .src) ]
/-- l.118-125 relaxed `atomic_load`. (machine instructions) -/
@[asm] def loadAsm (al : Op → Nat) (w : Nat) : List (Instr W) := (loadProg al w).map I.sem
/-- l.101-116 `atomic_load_acquire!`. -/
@[asm] def loadAcqProg (al : Op → Nat) (w : Nat) (f : Pairs) : List I := [
    .fence f,
    .l w (al .out) (al .src),
    .cmp 32 (al .out) (al .out),
    .bne 4,
    /- 2: -/ .fence isync ]
/-- l.101-116 `atomic_load_acquire!`. (machine instructions) -/
@[asm] def loadAcqAsm (al : Op → Nat) (w : Nat) (f : Pairs) : List (Instr W) := (loadAcqProg al w f).map I.sem
/-- operands of l.150-151 -/
@[asm] def storeKind : Op → Kind
  | .dst => .inp | .val => .inp
  | _ => .unused
/-- l.147-153 `atomic_store!`. -/
@[asm] def storeProg (al : Op → Nat) (w : Nat) (f : Pairs) : List I := [
    .fence f,
    .st w (al .val) (al .dst) ]
/-- l.147-153 `atomic_store!`. (machine instructions) -/
@[asm] def storeAsm (al : Op → Nat) (w : Nat) (f : Pairs) : List (Instr W) := (storeProg al w f).map I.sem
/-- operands of l.193-196 -/
@[asm] def swapKind : Op → Kind
  | .dst => .inp | .val => .inp | .out => .out
  | _ => .unused
/-- l.186-198 `swap!`. -/
@[asm] def swapProg (al : Op → Nat) (w : Nat) (f : Pairs × Pairs) : List I := [
    .fence f.2,
    /- 2: -/ .larx w (al .out) (al .dst),
    .stcx w (al .val) (al .dst),
    .bne 1,
    .fence f.1 ]
/-- l.186-198 `swap!`. (machine instructions) -/
@[asm] def swapAsm (al : Op → Nat) (w : Nat) (f : Pairs × Pairs) : List (Instr W) := (swapProg al w f).map I.sem
/-- operands of l.235-240, l.276-281 -/
@[asm] def casKind : Op → Kind
  | .dst => .inp | .old => .inp | .new => .inp | .out => .out | .r => .lateout
  | _ => .unused
/-- l.223-242 `cmpxchg!`; `k` = bits compared by `cmp{w,d}`. -/
@[asm] def casProg (al : Op → Nat) (w k : Nat) (o : CO) : List I := [
    .fence o.release,
    /- 2: -/ .larx w (al .out) (al .dst),
    .cmp k (al .old) (al .out),
    .bne 7,
    .stcx w (al .new) (al .dst),
    .bne 1,
    .fence o.success,
    /- 3: -/ .fence o.always,
    .mfcr (al .r) ]
/-- l.223-242 `cmpxchg!`; `k` = bits compared by `cmp{w,d}`. (machine instructions) -/
@[asm] def casAsm (al : Op → Nat) (w k : Nat) (o : CO) : List (Instr W) := (casProg al w k o).map I.sem
/-- l.266-283 `cmpxchg_weak!`. -/
@[asm] def weakProg (al : Op → Nat) (w k : Nat) (o : CO) : List I := [
    .fence o.release,
    .larx w (al .out) (al .dst),
    .cmp k (al .old) (al .out),
    .bne 6,
    .stcx w (al .new) (al .dst),
    .fence o.success,
    /- 3: -/ .fence o.always,
    .mfcr (al .r) ]
/-- l.266-283 `cmpxchg_weak!`. (machine instructions) -/
@[asm] def weakAsm (al : Op → Nat) (w k : Nat) (o : CO) : List (Instr W) := (weakProg al w k o).map I.sem
/-- operands of l.341-347 -/
@[asm] def subSwapKind : Op → Kind
  | .dst => .inp | .val => .inout | .out => .out | .shift => .inp | .mask => .inp | .tmp => .out
  | _ => .unused
/-- l.330-349 sub-word `swap!`. -/
@[asm] def subSwapProg (al : Op → Nat) (f : Pairs × Pairs) : List I := [
    .slw (al .val) (al .val) (al .shift),
    .fence f.2,
    /- 2: -/ .larx 32 (al .out) (al .dst),
    .andc (al .tmp) (al .out) (al .mask),
    .or (al .tmp) (al .val) (al .tmp),
    .stcx 32 (al .tmp) (al .dst),
    .bne 2,
    .fence f.1,
    .srw (al .out) (al .out) (al .shift) ]
/-- l.330-349 sub-word `swap!`. (machine instructions) -/
@[asm] def subSwapAsm (al : Op → Nat) (f : Pairs × Pairs) : List (Instr W) := (subSwapProg al f).map I.sem
/-- operands of l.400-407, l.453-460 -/
@[asm] def subCasKind : Op → Kind
  | .dst => .inp | .old => .inout | .new => .inout | .out => .out | .shift => .inp | .mask => .inp | .tmp => .out
  | _ => .unused
/-- l.382-409 sub-word `cmpxchg!`. -/
@[asm] def subCasProg (al : Op → Nat) (o : CO) : List I := [
    .slw (al .old) (al .old) (al .shift),
    .slw (al .new) (al .new) (al .shift),
    .fence o.release,
    /- 2: -/ .larx 32 (al .out) (al .dst),
    .and (al .tmp) (al .out) (al .mask),
    .cmp 32 (al .tmp) (al .old),
    .bne 12,
    .andc (al .tmp) (al .out) (al .mask),
    .or (al .tmp) (al .tmp) (al .new),
    .stcx 32 (al .tmp) (al .dst),
    .bne 3,
    .fence o.success,
    /- 3: -/ .fence o.always,
    .srw (al .out) (al .out) (al .shift),
    .mfcr (al .tmp) ]
/-- l.382-409 sub-word `cmpxchg!`. (machine instructions) -/
@[asm] def subCasAsm (al : Op → Nat) (o : CO) : List (Instr W) := (subCasProg al o).map I.sem
/-- l.437-462 sub-word `cmpxchg_weak!`. -/
@[asm] def subWeakProg (al : Op → Nat) (o : CO) : List I := [
    .slw (al .old) (al .old) (al .shift),
    .slw (al .new) (al .new) (al .shift),
    .fence o.release,
    .larx 32 (al .out) (al .dst),
    .and (al .tmp) (al .out) (al .mask),
    .cmp 32 (al .tmp) (al .old),
    .bne 11,
    .andc (al .tmp) (al .out) (al .mask),
    .or (al .tmp) (al .tmp) (al .new),
    .stcx 32 (al .tmp) (al .dst),
    .fence o.success,
    /- 3: -/ .fence o.always,
    .srw (al .out) (al .out) (al .shift),
    .mfcr (al .tmp) ]
/-- l.437-462 sub-word `cmpxchg_weak!`. (machine instructions) -/
@[asm] def subWeakAsm (al : Op → Nat) (o : CO) : List (Instr W) := (subWeakProg al o).map I.sem
/-- operands of l.520-525, l.534-538 (r4/r5 = out_hi/out_lo) -/
@[asm] def lqKind : Op → Kind
  | .src => .inp | .out_hi => .out | .out_lo => .out
  | _ => .unused
/-- l.531-541 relaxed 128-bit `atomic_load`. -/
@[asm] def lqProg (al : Op → Nat) : List I := [
    .lq (al .out_hi) (al .out_lo) (al .src) ]
/-- l.531-541 relaxed 128-bit `atomic_load`. (machine instructions) -/
@[asm] def lqAsm (al : Op → Nat) : List (Instr W) := (lqProg al).map I.sem
/-- l.511-529 128-bit `atomic_load_acquire!`. -/
@[asm] def lqAcqProg (al : Op → Nat) (f : Pairs) : List I := [
    .fence f,
    .lq (al .out_hi) (al .out_lo) (al .src),
    .cmp 32 (al .out_hi) (al .out_hi),
    .bne 4,
    /- 2: -/ .fence isync ]
/-- l.511-529 128-bit `atomic_load_acquire!`. (machine instructions) -/
@[asm] def lqAcqAsm (al : Op → Nat) (f : Pairs) : List (Instr W) := (lqAcqProg al f).map I.sem
/-- operands of l.567-571 (r4/r5 = val_hi/val_lo) -/
@[asm] def stqKind : Op → Kind
  | .dst => .inp | .val_hi => .inp | .val_lo => .inp
  | _ => .unused
/-- l.564-573 128-bit `atomic_store!`. -/
@[asm] def stqProg (al : Op → Nat) (f : Pairs) : List I := [
    .fence f,
    .stq (al .val_hi) (al .val_lo) (al .dst) ]
/-- l.564-573 128-bit `atomic_store!`. (machine instructions) -/
@[asm] def stqAsm (al : Op → Nat) (f : Pairs) : List (Instr W) := (stqProg al f).map I.sem
/-- operands of l.607-614 (r6/r7 = prev_hi/prev_lo, r8/r9 = val_hi/val_lo) -/
@[asm] def swapqKind : Op → Kind
  | .dst => .inp | .prev_hi => .out | .prev_lo => .out | .val_hi => .inp | .val_lo => .inp
  | _ => .unused
/-- l.600-616 128-bit `swap!`. -/
@[asm] def swapqProg (al : Op → Nat) (f : Pairs × Pairs) : List I := [
    .fence f.2,
    /- 2: -/ .lqarx (al .prev_hi) (al .prev_lo) (al .dst),
    .stqcx (al .val_hi) (al .val_lo) (al .dst),
    .bne 1,
    .fence f.1 ]
/-- l.600-616 128-bit `swap!`. (machine instructions) -/
@[asm] def swapqAsm (al : Op → Nat) (f : Pairs × Pairs) : List (Instr W) := (swapqProg al f).map I.sem
/-- operands of l.657-668, l.711-722 (r6/r7 = new_hi/new_lo, r8/r9 = prev_hi/prev_lo) -/
@[asm] def casqKind : Op → Kind
  | .dst => .inp | .old_hi => .inp | .old_lo => .inp | .tmp_hi => .out | .tmp_lo => .out | .new_hi => .inp | .new_lo => .inp | .prev_hi => .out | .prev_lo => .out
  | _ => .unused
/-- l.643-670 128-bit `cmpxchg!`. -/
@[asm] def casqProg (al : Op → Nat) (o : CO) : List I := [
    .fence o.release,
    /- 2: -/ .lqarx (al .prev_hi) (al .prev_lo) (al .dst),
    .xor (al .tmp_lo) (al .prev_lo) (al .old_lo),
    .xor (al .tmp_hi) (al .prev_hi) (al .old_hi),
    .orDot (al .tmp_lo) (al .tmp_lo) (al .tmp_hi),
    .bne 9,
    .stqcx (al .new_hi) (al .new_lo) (al .dst),
    .bne 1,
    .fence o.success,
    /- 3: -/ .fence o.always,
    .mfcr (al .tmp_lo) ]
/-- l.643-670 128-bit `cmpxchg!`. (machine instructions) -/
@[asm] def casqAsm (al : Op → Nat) (o : CO) : List (Instr W) := (casqProg al o).map I.sem
/-- l.699-724 128-bit `cmpxchg_weak!`. -/
@[asm] def weakqProg (al : Op → Nat) (o : CO) : List I := [
    .fence o.release,
    .lqarx (al .prev_hi) (al .prev_lo) (al .dst),
    .xor (al .tmp_lo) (al .prev_lo) (al .old_lo),
    .xor (al .tmp_hi) (al .prev_hi) (al .old_hi),
    .orDot (al .tmp_lo) (al .tmp_lo) (al .tmp_hi),
    .bne 8,
    .stqcx (al .new_hi) (al .new_lo) (al .dst),
    .fence o.success,
    /- 3: -/ .fence o.always,
    .mfcr (al .tmp_lo) ]
/-- l.699-724 128-bit `cmpxchg_weak!`. (machine instructions) -/
@[asm] def weakqAsm (al : Op → Nat) (o : CO) : List (Instr W) := (weakqProg al o).map I.sem

/-! ### Blocks and back end -/

/-- `create_sub_word_mask_values` on PowerPC (src/utils.rs l.255-292). -/
def subCfg (e : Endian) : SubWordCfg := { shiftMask := true, leLike := e == .little }
/-- (aligned_ptr, shift, mask) for an object of `w` bits at `p`. -/
abbrev sub (e : Endian) (w : Nat) (p : BitVec W) : BitVec W × BitVec W × BitVec W :=
  createSubWordMaskValues (subCfg e) W W (w / 8) p
/-- The operand `old = in(reg) ZeroExtend::zero_extend(old)` (l.236): 8/16-bit values become 32-bit ones. -/
def zxArg (e : Endian) (r : Nat) {w : Nat} (v : BitVec w) : Arg :=
  if w < 32 then ⟨r, 32, zeroExtend e v⟩ else ⟨r, w, v⟩
/-- bits compared by `$cmp_size` (l.302, l.477-491) -/
def cmpBits (w : Nat) : Nat := if w = 64 then 64 else 32

/-- l.117-131 -/
@[asm] def loadBlock (al : Alloc loadKind) (w : Nat) (p : BitVec W) : Block W w where
  code := loadAsm al w
  args := [⟨al .src, W, p⟩]
  outs := al.Outs
  out rs := (rs.r (al .out)).setWidth w
/-- l.101-131 -/
@[asm] def loadAcqBlock (al : Alloc loadKind) (w : Nat) (f : Pairs) (p : BitVec W) : Block W w where
  code := loadAcqAsm al w f
  args := [⟨al .src, W, p⟩]
  outs := al.Outs
  keepsFlags := false
  out rs := (rs.r (al .out)).setWidth w
/-- l.134-163 -/
@[asm] def storeBlock (al : Alloc storeKind) (w : Nat) (f : Pairs) (p : BitVec W) (val : BitVec w) :
    Block W w where
  code := storeAsm al w f
  args := [⟨al .dst, W, p⟩, ⟨al .val, w, val⟩]
  outs := al.Outs
/-- l.172-205 -/
@[asm] def swapBlock (al : Alloc swapKind) (w : Nat) (f : Pairs × Pairs) (p : BitVec W) (val : BitVec w) :
    Block W w where
  code := swapAsm al w f
  args := [⟨al .dst, W, p⟩, ⟨al .val, w, val⟩]
  outs := al.Outs
  keepsFlags := false
  out rs := (rs.r (al .out)).setWidth w
/-- l.206-249 -/
@[asm] def casBlock (e : Endian) (al : Alloc casKind) (w : Nat) (o : CO) (p : BitVec W) (old new : BitVec w) :
    Block W w where
  code := casAsm al w (cmpBits w) o
  args := [⟨al .dst, W, p⟩, zxArg e (al .old) old, ⟨al .new, w, new⟩]
  outs := al.Outs
  keepsFlags := false
  out rs := (rs.r (al .out)).setWidth w
  ok rs := testCr0Eq (rs.r (al .r))
/-- l.250-291 -/
@[asm] def weakBlock (e : Endian) (al : Alloc casKind) (w : Nat) (o : CO) (p : BitVec W) (old new : BitVec w) :
    Block W w where
  code := weakAsm al w (cmpBits w) o
  args := [⟨al .dst, W, p⟩, zxArg e (al .old) old, ⟨al .new, w, new⟩]
  outs := al.Outs
  keepsFlags := false
  out rs := (rs.r (al .out)).setWidth w
  ok rs := testCr0Eq (rs.r (al .r))
/-- l.312-356 -/
@[asm] def subSwapBlock (e : Endian) (al : Alloc subSwapKind) (w : Nat) (f : Pairs × Pairs) (p : BitVec W)
    (val : BitVec w) : Block W w where
  code := subSwapAsm al f
  args := [⟨al .dst, W, (sub e w p).1⟩, ⟨al .shift, W, (sub e w p).2.1⟩, ⟨al .mask, W, (sub e w p).2.2⟩,
    zxArg e (al .val) val]
  outs := al.Outs
  keepsFlags := false
  out rs := (rs.r (al .out)).setWidth w
/-- l.361-416 -/
@[asm] def subCasBlock (e : Endian) (al : Alloc subCasKind) (w : Nat) (o : CO) (p : BitVec W)
    (old new : BitVec w) : Block W w where
  code := subCasAsm al o
  args := [⟨al .dst, W, (sub e w p).1⟩, ⟨al .shift, W, (sub e w p).2.1⟩, ⟨al .mask, W, (sub e w p).2.2⟩,
    zxArg e (al .old) old, zxArg e (al .new) new]
  outs := al.Outs
  keepsFlags := false
  out rs := (rs.r (al .out)).setWidth w
  ok rs := testCr0Eq (rs.r (al .tmp))
/-- l.417-470 -/
@[asm] def subWeakBlock (e : Endian) (al : Alloc subCasKind) (w : Nat) (o : CO) (p : BitVec W)
    (old new : BitVec w) : Block W w where
  code := subWeakAsm al o
  args := [⟨al .dst, W, (sub e w p).1⟩, ⟨al .shift, W, (sub e w p).2.1⟩, ⟨al .mask, W, (sub e w p).2.2⟩,
    zxArg e (al .old) old, zxArg e (al .new) new]
  outs := al.Outs
  keepsFlags := false
  out rs := (rs.r (al .out)).setWidth w
  ok rs := testCr0Eq (rs.r (al .tmp))

/-- `MaybeUninit128 { $ty: v }.pair` as (lo, hi) (src/utils.rs l.221-241) -/
abbrev pr (e : Endian) (v : BitVec 128) : BitVec W × BitVec W := pairOf (e == .little) e W v

/-- l.500-549 -/
@[asm] def lqBlock (e : Endian) (al : Alloc lqKind) (p : BitVec W) : Block W 128 where
  code := lqAsm al
  args := [⟨al .src, W, p⟩]
  outs := al.Outs
  out rs := ofPair (e == .little) e 128 (rs.r (al .out_lo)) (rs.r (al .out_hi))
/-- l.511-549 -/
@[asm] def lqAcqBlock (e : Endian) (al : Alloc lqKind) (f : Pairs) (p : BitVec W) : Block W 128 where
  code := lqAcqAsm al f
  args := [⟨al .src, W, p⟩]
  outs := al.Outs
  keepsFlags := false
  out rs := ofPair (e == .little) e 128 (rs.r (al .out_lo)) (rs.r (al .out_hi))
/-- l.550-584 -/
@[asm] def stqBlock (e : Endian) (al : Alloc stqKind) (f : Pairs) (p : BitVec W) (val : BitVec 128) :
    Block W 128 where
  code := stqAsm al f
  args := [⟨al .dst, W, p⟩, ⟨al .val_hi, W, (pr e val).2⟩, ⟨al .val_lo, W, (pr e val).1⟩]
  outs := al.Outs
/-- l.585-623 -/
@[asm] def swapqBlock (e : Endian) (al : Alloc swapqKind) (f : Pairs × Pairs) (p : BitVec W)
    (val : BitVec 128) : Block W 128 where
  code := swapqAsm al f
  args := [⟨al .dst, W, p⟩, ⟨al .val_hi, W, (pr e val).2⟩, ⟨al .val_lo, W, (pr e val).1⟩]
  outs := al.Outs
  keepsFlags := false
  out rs := ofPair (e == .little) e 128 (rs.r (al .prev_lo)) (rs.r (al .prev_hi))
/-- l.624-680 -/
@[asm] def casqBlock (e : Endian) (al : Alloc casqKind) (o : CO) (p : BitVec W) (old new : BitVec 128) :
    Block W 128 where
  code := casqAsm al o
  args := [⟨al .dst, W, p⟩, ⟨al .old_hi, W, (pr e old).2⟩, ⟨al .old_lo, W, (pr e old).1⟩,
    ⟨al .new_hi, W, (pr e new).2⟩, ⟨al .new_lo, W, (pr e new).1⟩]
  outs := al.Outs
  keepsFlags := false
  out rs := ofPair (e == .little) e 128 (rs.r (al .prev_lo)) (rs.r (al .prev_hi))
  ok rs := testCr0Eq (rs.r (al .tmp_lo))
/-- l.681-734 -/
@[asm] def weakqBlock (e : Endian) (al : Alloc casqKind) (o : CO) (p : BitVec W) (old new : BitVec 128) :
    Block W 128 where
  code := weakqAsm al o
  args := [⟨al .dst, W, p⟩, ⟨al .old_hi, W, (pr e old).2⟩, ⟨al .old_lo, W, (pr e old).1⟩,
    ⟨al .new_hi, W, (pr e new).2⟩, ⟨al .new_lo, W, (pr e new).1⟩]
  outs := al.Outs
  keepsFlags := false
  out rs := ofPair (e == .little) e 128 (rs.r (al .prev_lo)) (rs.r (al .prev_hi))
  ok rs := testCr0Eq (rs.r (al .tmp_lo))

/-- quadword atomics: powerpc64 only -/
def Quad (W : Nat) (c : Conf) : Prop := W = 64 ∧ c.quadword = true
/-- sizes that use the `atomic!` code (l.298-302, l.474-491) -/
def Direct (W : Nat) (c : Conf) (w : Nat) : Prop := (SubSize w ∧ c.partword = true) ∨ WordSize W w

/-- `atomic_load` -/
inductive Load (e : Endian) (c : Conf) : Ordering → (w a : Nat) → Block W w → Prop
  | rlx (al) {o w} (p : BitVec W) (hw : SubSize w ∨ WordSize W w) (hf : loadOrd o = some none) :
      Load e c o w p.toNat (loadBlock al w p)
  | acq (al) {o f w} (p : BitVec W) (hw : SubSize w ∨ WordSize W w) (hf : loadOrd o = some (some f)) :
      Load e c o w p.toNat (loadAcqBlock al w f p)
  | qrlx (al) {o} (hq : Quad W c) (p : BitVec W) (hf : loadOrd o = some none) :
      Load e c o 128 p.toNat (lqBlock e al p)
  | qacq (al) {o f} (hq : Quad W c) (p : BitVec W) (hf : loadOrd o = some (some f)) :
      Load e c o 128 p.toNat (lqAcqBlock e al f p)
/-- `atomic_store` -/
inductive Store (e : Endian) (c : Conf) : Ordering → (w a : Nat) → BitVec w → Block W w → Prop
  | word (al) {o f w} (p : BitVec W) (val : BitVec w) (hw : SubSize w ∨ WordSize W w)
      (hf : storeOrd o = some f) : Store e c o w p.toNat val (storeBlock al w f p val)
  | quad (al) {o f} (hq : Quad W c) (p : BitVec W) (val : BitVec 128) (hf : storeOrd o = some f) :
      Store e c o 128 p.toNat val (stqBlock e al f p val)
/-- `atomic_swap` -/
inductive Swap (e : Endian) (c : Conf) : Ordering → (w a : Nat) → BitVec w → Block W w → Prop
  | word (al o) {w} (p : BitVec W) (val : BitVec w) (hw : Direct W c w) :
      Swap e c o w p.toNat val (swapBlock al w (rmwOrd o) p val)
  | sub (al o) {w} (p : BitVec W) (val : BitVec w) (hw : SubSize w) (hc : c.partword = false)
      (hal : p.toNat % (w / 8) = 0) : Swap e c o w p.toNat val (subSwapBlock e al w (rmwOrd o) p val)
  | quad (al o) (hq : Quad W c) (p : BitVec W) (val : BitVec 128) :
      Swap e c o 128 p.toNat val (swapqBlock e al (rmwOrd o) p val)
/-- `atomic_compare_exchange`; the orderings passed `assert_compare_exchange_ordering` (src/lib.rs
l.537-557) -/
inductive Cas (e : Endian) (c : Conf) :
    Ordering → Ordering → (w a : Nat) → BitVec w → BitVec w → Block W w → Prop
  | word (al) {s f w o} (p : BitVec W) (old new : BitVec w) (hw : Direct W c w)
      (hv : assertCompareExchangeOrdering s f = .ok ()) (ho : casOrd s f = some o) :
      Cas e c s f w p.toNat old new (casBlock e al w o p old new)
  | sub (al) {s f w o} (p : BitVec W) (old new : BitVec w) (hw : SubSize w) (hc : c.partword = false)
      (hal : p.toNat % (w / 8) = 0)
      (hv : assertCompareExchangeOrdering s f = .ok ()) (ho : casOrd s f = some o) :
      Cas e c s f w p.toNat old new (subCasBlock e al w o p old new)
  | quad (al) {s f o} (hq : Quad W c) (p : BitVec W) (old new : BitVec 128)
      (hv : assertCompareExchangeOrdering s f = .ok ()) (ho : casOrd s f = some o) :
      Cas e c s f 128 p.toNat old new (casqBlock e al o p old new)
/-- `atomic_compare_exchange_weak` -/
inductive CasWeak (e : Endian) (c : Conf) :
    Ordering → Ordering → (w a : Nat) → BitVec w → BitVec w → Block W w → Prop
  | word (al) {s f w o} (p : BitVec W) (old new : BitVec w) (hw : Direct W c w)
      (hv : assertCompareExchangeOrdering s f = .ok ()) (ho : casOrd s f = some o) :
      CasWeak e c s f w p.toNat old new (weakBlock e al w o p old new)
  | sub (al) {s f w o} (p : BitVec W) (old new : BitVec w) (hw : SubSize w) (hc : c.partword = false)
      (hal : p.toNat % (w / 8) = 0)
      (hv : assertCompareExchangeOrdering s f = .ok ()) (ho : casOrd s f = some o) :
      CasWeak e c s f w p.toNat old new (subWeakBlock e al w o p old new)
  | quad (al) {s f o} (hq : Quad W c) (p : BitVec W) (old new : BitVec 128)
      (hv : assertCompareExchangeOrdering s f = .ok ()) (ho : casOrd s f = some o) :
      CasWeak e c s f 128 p.toNat old new (weakqBlock e al o p old new)

/-- The PowerPC back end. -/
def backend (e : Endian) (W : Nat) (c : Conf) : Backend W where
  e := e
  imp := Pairs.none
  Load := Load e c
  Store := Store e c
  Swap := Swap e c
  Cas := Cas e c
  CasWeak := CasWeak e c
end

end Verif.PowerPC
