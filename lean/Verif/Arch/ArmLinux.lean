/-
src/arch/arm_linux.rs: pre-v6 Arm Linux/Android, where every read-modify-write operation is a call of a
kernel helper at a fixed address (`__kuser_cmpxchg`, `__kuser_cmpxchg64`, `__kuser_memory_barrier`).

The helpers are part of the trusted base, with the contract of kernel_user_helpers.rst and of the comments
in arm_linux.rs (l.166, l.173, l.387, l.393):

* `__kuser_cmpxchg`: atomically, if `*r2 == r0` then `*r2 = r1`, r0 = 0, C = 1; otherwise r0 is nonzero (here:
  arbitrary) and C = 0. Clobbers r3, ip, lr, flags; contains full barriers. A kernel may restart or abort
  it, so it may also fail spuriously (`Conf.spurious`); the atomicity theorems hold with and without that.
* `__kuser_cmpxchg64`: the same on 64 bits, with r0 and r1 pointing to the old and the new value.
* `__kuser_memory_barrier`: full barrier, clobbers lr only.

The call is modelled as: (1) clobber, (2) the atomic step, which only works if the called address is the
helper's, (3) r0 := arbitrary on failure. The carry flag is kept in `cc` (1 = set).

The two private buffers of the 64-bit operations (`out`, `val`/`new`; l.375, l.412, l.449-451, l.491-493) are
pseudo-registers `out_lo/out_hi`, `val_lo/val_hi` holding their words in address order; `po`, `pv` are their
addresses. The two forms of `blx!` (l.47-58) are not distinguished.
-/
import Verif.Core.Alloc
import Verif.Contract
import Verif.Core.Ordering
import Verif.Core.Sizes
import Verif.Core.Pair

namespace Verif.ArmLinux

/-- The kernel: helper version (l.40-45), and whether its cmpxchg helpers may fail spuriously. -/
structure Conf where
  version : Int
  spurious : Bool

/-- l.34 -/
def KUSER_CMPXCHG : BitVec 32 := 0xFFFF0FC0#32
/-- l.36 -/
def KUSER_MEMORY_BARRIER : BitVec 32 := 0xFFFF0FA0#32
/-- l.38 -/
def KUSER_CMPXCHG64 : BitVec 32 := 0xFFFF0F60#32

/-- l.550-559 `assert_has_kuser_cmpxchg64`. -/
def assertHasKuserCmpxchg64 (c : Conf) : Res Unit := if c.version < 5 then .panic else .ok ()

/-! ### Mnemonics -/

/-- Base-register address `[reg]`. -/
@[asm] def ea (b : Nat) : RS 32 → Nat := fun s => (s.r b).toNat
/-- `[reg, #4]`. -/
def ea4 (b : Nat) : RS 32 → Nat := fun s => (s.r b + 4#32).toNat
/-- `ldr{b,h,} rd, [rs]`. -/
@[asm] def ldr (w rd rs : Nat) : Instr 32 := .ld .plain (ea rs) w (fun x s => s.set rd (x.setWidth 32))
/-- `ldr rd, [rs, #4]`. -/
@[asm] def ldr4 (rd rs : Nat) : Instr 32 := .ld .plain (ea4 rs) 32 (fun x s => s.set rd x)
/-- `str{b,h,} rv, [rs]`. -/
@[asm] def str (w rv rs : Nat) : Instr 32 := .st .plain (ea rs) w (fun s => (s.r rv).setWidth w)
/-- `str rv, [ra]` / `str rv, [ra, #4]` to the private buffer at `po` (word `buf`). -/
@[asm] def strBuf (po : BitVec 32) (buf rv ra : Nat) : Instr 32 :=
  .op fun _ s => s.setIf (s.r ra == po) buf (s.r rv)
/-- `mov rd, rs`. -/
@[asm] def mov (rd rs : Nat) : Instr 32 := .op fun _ s => s.set rd (s.r rs)
/-- `mov rd, #1`. -/
@[asm] def mov1 (rd : Nat) : Instr 32 := .op fun _ s => s.set rd 1#32
/-- `mvn rd, rs`. -/
@[asm] def mvn (rd rs : Nat) : Instr 32 := .op fun _ s => s.set rd (~~~ s.r rs)
/-- `and rd, a, b`. -/
@[asm] def and_ (rd a b : Nat) : Instr 32 := .op fun _ s => s.set rd (s.r a &&& s.r b)
/-- `orr rd, a, b`. -/
@[asm] def orr (rd a b : Nat) : Instr 32 := .op fun _ s => s.set rd (s.r a ||| s.r b)
/-- `eor rd, a, b`. -/
@[asm] def eor (rd a b : Nat) : Instr 32 := .op fun _ s => s.set rd (s.r a ^^^ s.r b)
/-- `orrs rd, a, b`: Z = (result == 0). -/
@[asm] def orrs (rd a b : Nat) : Instr 32 :=
  .op fun _ s => (s.set rd (s.r a ||| s.r b)).setZ ((s.r a ||| s.r b) == 0#32)
/-- `lsl rd, a, b`: shift amount in the low byte of b; 32 and more give 0. -/
@[asm] def lsl (rd a b : Nat) : Instr 32 := .op fun _ s => s.set rd (s.r a <<< ((s.r b).toNat % 256))
/-- `lsr rd, a, b`. -/
@[asm] def lsr (rd a b : Nat) : Instr 32 := .op fun _ s => s.set rd (s.r a >>> ((s.r b).toNat % 256))
/-- `cmp a, b`: Z = (a == b). -/
@[asm] def cmp (a b : Nat) : Instr 32 := .op fun _ s => s.setZ (s.r a == s.r b)
/-- `bne target`. -/
@[asm] def bne (t : Nat) : Instr 32 := .br (fun s => !s.z) t
/-- `bcc target`: jump if C = 0. -/
@[asm] def bcc (t : Nat) : Instr 32 := .br (fun s => s.cc != 1#2) t
/-- `b target`. -/
@[asm] def b (t : Nat) : Instr 32 := .br (fun _ => true) t

/-! ### Kernel helpers -/

/-- The `blx` of a barrier call: lr is overwritten; if the address is not the helper's, `res` is garbage. -/
@[asm] def blxBarrier (fn lr res : Nat) : Instr 32 :=
  .op fun o s => (s.setIf (s.r fn != KUSER_MEMORY_BARRIER) res (BitVec.ofNat 32 (o.junk / 2))).set lr
    (BitVec.ofNat 32 o.junk)
/-- As `blxBarrier`, for blocks without result: lr is overwritten. Preceded by `callee`. -/
@[asm] def blxBarrier' (lr : Nat) : Instr 32 := .op fun o s => s.set lr (BitVec.ofNat 32 o.junk)
/-- The `blx` goes to the helper; a call of any other address is modelled as never returning (`i` is the
position of this instruction): no theorem about the block would hold then. -/
@[asm] def callee (i fn : Nat) : Instr 32 := .br (fun s => s.r fn != KUSER_MEMORY_BARRIER) i

/-- The flags after the clobber step of a helper; nonzero `cc` stands for a spurious failure. -/
def spur (c : Conf) (o : Orc) : BitVec 2 := if c.spurious then BitVec.ofNat 2 o.junk else 0#2

/-- `__kuser_cmpxchg` succeeds. -/
def hit (fn r0 : Nat) (s : RS 32) (x : BitVec 32) : Bool :=
  s.r fn == KUSER_CMPXCHG && s.cc == 0#2 && x == s.r r0

/-- Step (1) of `blx {kuser_cmpxchg}`: clobbers (l.173-176). -/
@[asm] def kcas1 (c : Conf) (r3 ip lr : Nat) : Instr 32 :=
  .op fun o s => ((((s.set r3 (BitVec.ofNat 32 o.junk)).set ip (BitVec.ofNat 32 (o.junk / 2))).set lr
    (BitVec.ofNat 32 (o.junk / 3))).setZ (o.junk % 2 == 0)).setCC (spur c o)
/-- Step (2): the atomic step (l.166). -/
@[asm] def kcas2 (fn r0 r1 r2 : Nat) : Instr 32 :=
  .rmw { full := true } (ea r2) 32
    (fun s x => if hit fn r0 s x then some (s.r r1) else none)
    (fun x s => (s.setIf (hit fn r0 s x) r0 0#32).setCC (if hit fn r0 s x then 1#2 else 0#2))
/-- Step (3): r0 on failure. -/
@[asm] def kcas3 (r0 : Nat) : Instr 32 :=
  .op fun o s => s.setIf (s.cc != 1#2) r0 (BitVec.ofNat 32 o.junk)

/-- Content of the private buffer at address `x`. -/
def bufVal (e : Endian) (po pv : BitVec 32) (olo ohi vlo vhi : Nat) (s : RS 32) (x : BitVec 32) : BitVec 64 :=
  if x = po then join01 e 64 (s.r olo) (s.r ohi)
  else if x = pv then join01 e 64 (s.r vlo) (s.r vhi)
  else 0#64

/-- `__kuser_cmpxchg64` succeeds if `*r2 == *r0`. -/
def hit64 (fn : Nat) (s : RS 32) (x old : BitVec 64) : Bool :=
  s.r fn == KUSER_CMPXCHG64 && s.cc == 0#2 && x == old

/-- Step (1) of `blx {kuser_cmpxchg64}`: clobbers (l.393-396). -/
@[asm] def kcas64_1 (c : Conf) (r3 lr : Nat) : Instr 32 :=
  .op fun o s => (((s.set r3 (BitVec.ofNat 32 o.junk)).set lr
    (BitVec.ofNat 32 (o.junk / 3))).setZ (o.junk % 2 == 0)).setCC (spur c o)
/-- Step (2): the atomic step (l.387). `buf s x` is the content of the private buffer at `x`. -/
@[asm] def kcas64_2 (buf : RS 32 → BitVec 32 → BitVec 64) (fn r0 r1 r2 : Nat) : Instr 32 :=
  .rmw { full := true } (ea r2) 64
    (fun s x => if hit64 fn s x (buf s (s.r r0)) then some (buf s (s.r r1)) else none)
    (fun x s => (s.setIf (hit64 fn s x (buf s (s.r r0))) r0 0#32).setCC
      (if hit64 fn s x (buf s (s.r r0)) then 1#2 else 0#2))

/-! ### asm! blocks: 8, 16, 32 bits -/

/-- operands of l.77-78 -/
@[asm] def loadKind : Op → Kind
  | .src => .inp | .out => .lateout | _ => .unused
/-- l.75-80 `atomic_load`, Relaxed. -/
@[asm] def loadAsm (al : Op → Nat) (w : Nat) : List (Instr 32) := [ ldr w (al .out) (al .src) ]
/-- operands of l.88-91 -/
@[asm] def loadAcqKind : Op → Kind
  | .src => .inp | .out => .lateout | .fn_ptr => .inout | .lr => .out | _ => .unused
/-- l.85-93 `atomic_load`, Acquire and SeqCst. -/
@[asm] def loadAcqAsm (al : Op → Nat) (w : Nat) : List (Instr 32) :=
  [ ldr w (al .out) (al .src), blxBarrier (al .fn_ptr) (al .lr) (al .out), .fence Pairs.full ]

/-- operands of l.131-132 -/
@[asm] def storeKind : Op → Kind
  | .dst => .inp | .val => .inp | _ => .unused
/-- l.129-134 `atomic_store`, Relaxed. -/
@[asm] def storeAsm (al : Op → Nat) (w : Nat) : List (Instr 32) := [ str w (al .val) (al .dst) ]
/-- operands of l.119-122 -/
@[asm] def storeRelKind : Op → Kind
  | .dst => .inp | .val => .inp | .fn_ptr => .inp | .lr => .out | _ => .unused
/-- l.115-124 `atomic_store_release!("")` (Release, l.136). -/
@[asm] def storeRelAsm (al : Op → Nat) (w : Nat) : List (Instr 32) :=
  [ callee 0 (al .fn_ptr), blxBarrier' (al .lr), .fence Pairs.full, str w (al .val) (al .dst) ]
/-- l.115-124 `atomic_store_release!(blx!("{kuser_memory_barrier}"))` (SeqCst, l.137). -/
@[asm] def storeScAsm (al : Op → Nat) (w : Nat) : List (Instr 32) :=
  [ callee 0 (al .fn_ptr), blxBarrier' (al .lr), .fence Pairs.full, str w (al .val) (al .dst),
    callee 4 (al .fn_ptr), blxBarrier' (al .lr), .fence Pairs.full ]

/-- operands of l.168-176 (x0 = r0, x1 = r1, dst = r2, x3 = r3, x4 = ip) -/
@[asm] def swapKind : Op → Kind
  | .out => .out | .fn_ptr => .inp | .x0 => .out | .x1 => .inp | .dst => .inp | .x3 => .out | .x4 => .out
  | .lr => .out | _ => .unused
/-- l.162-179 `atomic_swap` of a word. -/
@[asm] def swapAsm (c : Conf) (al : Op → Nat) : List (Instr 32) := [
    /- 2: -/ ldr 32 (al .out) (al .dst),
    mov (al .x0) (al .out),
    kcas1 c (al .x3) (al .x4) (al .lr),
    kcas2 (al .fn_ptr) (al .x0) (al .x1) (al .dst),
    kcas3 (al .x0),
    bcc 0 ]

/-- operands of l.217-227 -/
@[asm] def casKind : Op → Kind
  | .old => .inp | .new => .inp | .out => .out | .fn_ptr => .inp | .x0 => .out | .x1 => .out | .dst => .inp
  | .x3 => .out | .x4 => .out | .lr => .out | _ => .unused
/-- l.200-230 `atomic_compare_exchange` of a word. -/
@[asm] def casAsm (c : Conf) (al : Op → Nat) : List (Instr 32) := [
    /- 2: -/ ldr 32 (al .out) (al .dst),
    mov (al .x0) (al .out),
    cmp (al .out) (al .old),
    bne 10,
    mov (al .x1) (al .new),
    kcas1 c (al .x3) (al .x4) (al .lr),
    kcas2 (al .fn_ptr) (al .x0) (al .x1) (al .dst),
    kcas3 (al .x0),
    bcc 0,
    b 16,
    /- 3: -/ mov (al .x1) (al .x0),
    kcas1 c (al .x3) (al .x4) (al .lr),
    kcas2 (al .fn_ptr) (al .x0) (al .x1) (al .dst),
    kcas3 (al .x0),
    bcc 0,
    mov1 (al .x0) ]
    /- 4: -/

/-- operands of l.269-280 -/
@[asm] def subSwapKind : Op → Kind
  | .val => .inout | .out => .out | .shift => .inp | .inv_mask => .inp | .fn_ptr => .inp | .x0 => .out
  | .x1 => .out | .dst => .inp | .x3 => .out | .x4 => .out | .lr => .out | _ => .unused
/-- l.259-283 `atomic_swap` of a sub-word. -/
@[asm] def subSwapAsm (c : Conf) (al : Op → Nat) : List (Instr 32) := [
    lsl (al .val) (al .val) (al .shift),
    /- 2: -/ ldr 32 (al .out) (al .dst),
    mov (al .x0) (al .out),
    and_ (al .x1) (al .x0) (al .inv_mask),
    orr (al .x1) (al .x1) (al .val),
    kcas1 c (al .x3) (al .x4) (al .lr),
    kcas2 (al .fn_ptr) (al .x0) (al .x1) (al .dst),
    kcas3 (al .x0),
    bcc 1,
    lsr (al .out) (al .out) (al .shift) ]

/-- operands of l.329-343 -/
@[asm] def subCasKind : Op → Kind
  | .old => .inout | .new => .inout | .out => .out | .shift => .inp | .mask => .inp | .fn_ptr => .inp
  | .x0 => .out | .x1 => .out | .dst => .inp | .x3 => .out | .x4 => .out | .lr => .out | _ => .unused
/-- l.307-346 `atomic_compare_exchange` of a sub-word. -/
@[asm] def subCasAsm (c : Conf) (al : Op → Nat) : List (Instr 32) := [
    lsl (al .old) (al .old) (al .shift),
    lsl (al .new) (al .new) (al .shift),
    /- 2: -/ ldr 32 (al .x0) (al .dst),
    and_ (al .out) (al .x0) (al .mask),
    cmp (al .out) (al .old),
    bne 14,
    mvn (al .x1) (al .mask),
    and_ (al .x1) (al .x0) (al .x1),
    orr (al .x1) (al .x1) (al .new),
    kcas1 c (al .x3) (al .x4) (al .lr),
    kcas2 (al .fn_ptr) (al .x0) (al .x1) (al .dst),
    kcas3 (al .x0),
    bcc 2,
    b 20,
    /- 3: -/ mov (al .x1) (al .x0),
    kcas1 c (al .x3) (al .x4) (al .lr),
    kcas2 (al .fn_ptr) (al .x0) (al .x1) (al .dst),
    kcas3 (al .x0),
    bcc 2,
    mov1 (al .x0),
    /- 4: -/ lsr (al .out) (al .out) (al .shift) ]

/-! ### asm! blocks: 64 bits -/

/-- buffers of a block -/
@[asm] def buf (e : Endian) (po pv : BitVec 32) (al : Op → Nat) : RS 32 → BitVec 32 → BitVec 64 :=
  bufVal e po pv (al .out_lo) (al .out_hi) (al .val_lo) (al .val_hi)

/-- operands of l.389-395 (x1 = r1 = out_ptr, src = r2) and the buffer `out` -/
@[asm] def loaddKind : Op → Kind
  | .fn_ptr => .inp | .x0 => .out | .x1 => .inp | .src => .inp | .x3 => .out | .lr => .out
  | .out_lo => .out | .out_hi => .out | _ => .unused
/-- l.380-398 `atomic_load`. -/
@[asm] def loaddAsm (e : Endian) (c : Conf) (po : BitVec 32) (al : Op → Nat) : List (Instr 32) := [
    /- 2: -/ ldr 32 (al .x0) (al .src),
    ldr4 (al .x3) (al .src),
    strBuf po (al .out_lo) (al .x0) (al .x1),
    strBuf po (al .out_hi) (al .x3) (al .x1),
    mov (al .x0) (al .x1),
    kcas64_1 c (al .x3) (al .lr),
    kcas64_2 (buf e po po al) (al .fn_ptr) (al .x0) (al .x1) (al .src),
    kcas3 (al .x0),
    bcc 0 ]

/-- operands of l.426-433 (l.464-471) and the buffers -/
@[asm] def swapdKind : Op → Kind
  | .out_ptr => .inp | .fn_ptr => .inp | .x0 => .out | .x1 => .inp | .dst => .inp | .x3 => .out | .lr => .out
  | .out_lo => .out | .out_hi => .out | .val_lo => .inp | .val_hi => .inp | _ => .unused
/-- l.417-436 `atomic_store` and l.455-474 `atomic_swap` (the same sequence). -/
@[asm] def swapdAsm (e : Endian) (c : Conf) (po pv : BitVec 32) (al : Op → Nat) : List (Instr 32) := [
    /- 2: -/ ldr 32 (al .x0) (al .dst),
    ldr4 (al .x3) (al .dst),
    strBuf po (al .out_lo) (al .x0) (al .out_ptr),
    strBuf po (al .out_hi) (al .x3) (al .out_ptr),
    mov (al .x0) (al .out_ptr),
    kcas64_1 c (al .x3) (al .lr),
    kcas64_2 (buf e po pv al) (al .fn_ptr) (al .x0) (al .x1) (al .dst),
    kcas3 (al .x0),
    bcc 0 ]

/-- operands of l.521-531 and the buffers (`val_lo/val_hi` is the buffer `new`) -/
@[asm] def casdKind : Op → Kind
  | .new => .inp | .out_ptr => .inp | .old_lo => .inp | .old_hi => .inp | .fn_ptr => .inp | .x0 => .out
  | .x1 => .out | .dst => .inp | .x3 => .out | .lr => .out
  | .out_lo => .out | .out_hi => .out | .val_lo => .inp | .val_hi => .inp | _ => .unused
/-- l.498-534 `atomic_compare_exchange`. -/
@[asm] def casdAsm (e : Endian) (c : Conf) (po pv : BitVec 32) (al : Op → Nat) : List (Instr 32) := [
    /- 2: -/ ldr 32 (al .x0) (al .dst),
    ldr4 (al .x3) (al .dst),
    strBuf po (al .out_lo) (al .x0) (al .out_ptr),
    strBuf po (al .out_hi) (al .x3) (al .out_ptr),
    eor (al .x0) (al .x0) (al .old_lo),
    eor (al .x3) (al .x3) (al .old_hi),
    orrs (al .x0) (al .x0) (al .x3),
    bne 15,
    mov (al .x0) (al .out_ptr),
    mov (al .x1) (al .new),
    kcas64_1 c (al .x3) (al .lr),
    kcas64_2 (buf e po pv al) (al .fn_ptr) (al .x0) (al .x1) (al .dst),
    kcas3 (al .x0),
    bcc 0,
    b 22,
    /- 3: -/ mov (al .x0) (al .out_ptr),
    mov (al .x1) (al .out_ptr),
    kcas64_1 c (al .x3) (al .lr),
    kcas64_2 (buf e po pv al) (al .fn_ptr) (al .x0) (al .x1) (al .dst),
    kcas3 (al .x0),
    bcc 0,
    mov1 (al .x0) ]
    /- 4: -/

/-! ### Blocks and back end -/

/-- `create_sub_word_mask_values` on Arm (src/utils.rs l.255-292). -/
def subCfg (e : Endian) : SubWordCfg := { shiftMask := true, leLike := e == .little }
/-- (aligned_ptr, shift, mask) for an object of `w` bits at `p`. -/
abbrev sub (e : Endian) (w : Nat) (p : BitVec 32) : BitVec 32 × BitVec 32 × BitVec 32 :=
  createSubWordMaskValues (subCfg e) 32 32 (w / 8) p

/-- l.74-81 -/
@[asm] def loadBlock (al : Alloc loadKind) (w : Nat) (p : BitVec 32) : Block 32 w where
  code := loadAsm al w
  args := [⟨al .src, 32, p⟩]
  outs := al.Outs
  out rs := (rs.r (al .out)).setWidth w
/-- l.83-94 -/
@[asm] def loadAcqBlock (al : Alloc loadAcqKind) (w : Nat) (p : BitVec 32) : Block 32 w where
  code := loadAcqAsm al w
  args := [⟨al .src, 32, p⟩, ⟨al .fn_ptr, 32, KUSER_MEMORY_BARRIER⟩]
  outs := al.Outs
  out rs := (rs.r (al .out)).setWidth w
/-- l.128-135 -/
@[asm] def storeBlock (al : Alloc storeKind) (w : Nat) (p : BitVec 32) (val : BitVec w) : Block 32 w where
  code := storeAsm al w
  args := [⟨al .dst, 32, p⟩, ⟨al .val, w, val⟩]
  outs := al.Outs
/-- l.112-126, l.136-137 -/
@[asm] def storeRelBlock (al : Alloc storeRelKind) (w : Nat) (sc : Bool) (p : BitVec 32) (val : BitVec w) :
    Block 32 w where
  code := if sc then storeScAsm al w else storeRelAsm al w
  args := [⟨al .dst, 32, p⟩, ⟨al .val, w, val⟩, ⟨al .fn_ptr, 32, KUSER_MEMORY_BARRIER⟩]
  outs := al.Outs
/-- l.149-183 -/
@[asm] def swapBlock (c : Conf) (al : Alloc swapKind) (p val : BitVec 32) : Block 32 32 where
  code := swapAsm c al
  args := [⟨al .dst, 32, p⟩, ⟨al .x1, 32, val⟩, ⟨al .fn_ptr, 32, KUSER_CMPXCHG⟩]
  outs := al.Outs
  keepsFlags := false
  out rs := rs.r (al .out)
/-- l.184-236 -/
@[asm] def casBlock (c : Conf) (al : Alloc casKind) (p old new : BitVec 32) : Block 32 32 where
  code := casAsm c al
  args := [⟨al .dst, 32, p⟩, ⟨al .old, 32, old⟩, ⟨al .new, 32, new⟩, ⟨al .fn_ptr, 32, KUSER_CMPXCHG⟩]
  outs := al.Outs
  keepsFlags := false
  out rs := rs.r (al .out)
  ok rs := rs.r (al .x0) == 0#32
  assumes rs := rs.r (al .x0) = 0#32 ∨ rs.r (al .x0) = 1#32
/-- l.243-287 -/
@[asm] def subSwapBlock (e : Endian) (c : Conf) (al : Alloc subSwapKind) (w : Nat) (p : BitVec 32)
    (val : BitVec w) : Block 32 w where
  code := subSwapAsm c al
  args := [⟨al .dst, 32, (sub e w p).1⟩, ⟨al .shift, 32, (sub e w p).2.1⟩,
    ⟨al .inv_mask, 32, ~~~ (sub e w p).2.2⟩, ⟨al .val, 32, zeroExtend e val⟩, ⟨al .fn_ptr, 32, KUSER_CMPXCHG⟩]
  outs := al.Outs
  keepsFlags := false
  out rs := (rs.r (al .out)).setWidth w
/-- l.288-352 -/
@[asm] def subCasBlock (e : Endian) (c : Conf) (al : Alloc subCasKind) (w : Nat) (p : BitVec 32)
    (old new : BitVec w) : Block 32 w where
  code := subCasAsm c al
  args := [⟨al .dst, 32, (sub e w p).1⟩, ⟨al .shift, 32, (sub e w p).2.1⟩, ⟨al .mask, 32, (sub e w p).2.2⟩,
    ⟨al .old, 32, zeroExtend e old⟩, ⟨al .new, 32, zeroExtend e new⟩, ⟨al .fn_ptr, 32, KUSER_CMPXCHG⟩]
  outs := al.Outs
  keepsFlags := false
  out rs := (rs.r (al .out)).setWidth w
  ok rs := rs.r (al .x0) == 0#32
  assumes rs := rs.r (al .x0) = 0#32 ∨ rs.r (al .x0) = 1#32

/-- l.367-402 -/
@[asm] def loaddBlock (e : Endian) (c : Conf) (al : Alloc loaddKind) (po p : BitVec 32) : Block 32 64 where
  code := loaddAsm e c po al
  args := [⟨al .src, 32, p⟩, ⟨al .x1, 32, po⟩, ⟨al .fn_ptr, 32, KUSER_CMPXCHG64⟩]
  outs := al.Outs
  keepsFlags := false
  out rs := join01 e 64 (rs.r (al .out_lo)) (rs.r (al .out_hi))
/-- l.403-439 (`out_tmp` is dropped), l.440-478 -/
@[asm] def swapdBlock (e : Endian) (c : Conf) (al : Alloc swapdKind) (po pv p : BitVec 32) (val : BitVec 64) :
    Block 32 64 where
  code := swapdAsm e c po pv al
  args := [⟨al .dst, 32, p⟩, ⟨al .x1, 32, pv⟩, ⟨al .out_ptr, 32, po⟩, ⟨al .val_lo, 32, word0 e 32 val⟩,
    ⟨al .val_hi, 32, word1 e 32 val⟩, ⟨al .fn_ptr, 32, KUSER_CMPXCHG64⟩]
  outs := al.Outs
  keepsFlags := false
  out rs := join01 e 64 (rs.r (al .out_lo)) (rs.r (al .out_hi))
/-- l.479-540 -/
@[asm] def casdBlock (e : Endian) (c : Conf) (al : Alloc casdKind) (po pv p : BitVec 32) (old new : BitVec 64) :
    Block 32 64 where
  code := casdAsm e c po pv al
  args := [⟨al .dst, 32, p⟩, ⟨al .new, 32, pv⟩, ⟨al .out_ptr, 32, po⟩, ⟨al .val_lo, 32, word0 e 32 new⟩,
    ⟨al .val_hi, 32, word1 e 32 new⟩, ⟨al .old_lo, 32, (pairOf true e 32 old).1⟩,
    ⟨al .old_hi, 32, (pairOf true e 32 old).2⟩, ⟨al .fn_ptr, 32, KUSER_CMPXCHG64⟩]
  outs := al.Outs
  keepsFlags := false
  out rs := join01 e 64 (rs.r (al .out_lo)) (rs.r (al .out_hi))
  ok rs := rs.r (al .x0) == 0#32
  assumes rs := rs.r (al .x0) = 0#32 ∨ rs.r (al .x0) = 1#32

/-- `atomic_load` -/
inductive Load (e : Endian) (c : Conf) : Ordering → (w a : Nat) → Block 32 w → Prop
  | relaxed (al) {w} (p : BitVec 32) (hw : SubSize w ∨ w = 32) :
      Load e c .relaxed w p.toNat (loadBlock al w p)
  | acquire (al) {o w} (p : BitVec 32) (hw : SubSize w ∨ w = 32) (ho : o = .acquire ∨ o = .seqCst) :
      Load e c o w p.toNat (loadAcqBlock al w p)
  | dword (al) (o) (p po : BitVec 32) (hk : assertHasKuserCmpxchg64 c = .ok ()) (hal : p.toNat % 8 = 0) :
      Load e c o 64 p.toNat (loaddBlock e c al po p)
/-- `atomic_store`; the private buffers are two different objects -/
inductive Store (e : Endian) (c : Conf) : Ordering → (w a : Nat) → BitVec w → Block 32 w → Prop
  | relaxed (al) {w} (p : BitVec 32) (val : BitVec w) (hw : SubSize w ∨ w = 32) :
      Store e c .relaxed w p.toNat val (storeBlock al w p val)
  | release (al) {w} (p : BitVec 32) (val : BitVec w) (hw : SubSize w ∨ w = 32) :
      Store e c .release w p.toNat val (storeRelBlock al w false p val)
  | seqCst (al) {w} (p : BitVec 32) (val : BitVec w) (hw : SubSize w ∨ w = 32) :
      Store e c .seqCst w p.toNat val (storeRelBlock al w true p val)
  | dword (al) (o) (p po pv : BitVec 32) (val : BitVec 64) (hne : pv ≠ po)
      (hk : assertHasKuserCmpxchg64 c = .ok ()) (hal : p.toNat % 8 = 0) :
      Store e c o 64 p.toNat val (swapdBlock e c al po pv p val)
/-- `atomic_swap` -/
inductive Swap (e : Endian) (c : Conf) : Ordering → (w a : Nat) → BitVec w → Block 32 w → Prop
  | word (al o) (p val : BitVec 32) : Swap e c o 32 p.toNat val (swapBlock c al p val)
  | sub (al o) {w} (p : BitVec 32) (val : BitVec w) (hw : SubSize w) (hal : p.toNat % (w / 8) = 0) :
      Swap e c o w p.toNat val (subSwapBlock e c al w p val)
  | dword (al) (o) (p po pv : BitVec 32) (val : BitVec 64) (hne : pv ≠ po)
      (hk : assertHasKuserCmpxchg64 c = .ok ()) (hal : p.toNat % 8 = 0) :
      Swap e c o 64 p.toNat val (swapdBlock e c al po pv p val)
/-- `atomic_compare_exchange` (the orderings are ignored) -/
inductive Cas (e : Endian) (c : Conf) :
    Ordering → Ordering → (w a : Nat) → BitVec w → BitVec w → Block 32 w → Prop
  | word (al s f) (p old new : BitVec 32) : Cas e c s f 32 p.toNat old new (casBlock c al p old new)
  | sub (al s f) {w} (p : BitVec 32) (old new : BitVec w) (hw : SubSize w) (hal : p.toNat % (w / 8) = 0) :
      Cas e c s f w p.toNat old new (subCasBlock e c al w p old new)
  | dword (al) (s f) (p po pv : BitVec 32) (old new : BitVec 64) (hne : pv ≠ po)
      (hk : assertHasKuserCmpxchg64 c = .ok ()) (hal : p.toNat % 8 = 0) :
      Cas e c s f 64 p.toNat old new (casdBlock e c al po pv p old new)

/-- The pre-v6 Arm Linux back end; `atomic_compare_exchange_weak` is the default of src/raw.rs. -/
def backend (e : Endian) (c : Conf) : Backend 32 where
  e := e
  imp := Pairs.none
  Load := Load e c
  Store := Store e c
  Swap := Swap e c
  Cas := Cas e c
  CasWeak := Cas e c

end Verif.ArmLinux
