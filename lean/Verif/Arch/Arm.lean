/-
src/arch/arm.rs: Armv6 and Armv7.

Registers are 32 bits. 8-, 16- and 32-bit objects use ldrex{b,h,}/strex{b,h,}, 64-bit objects use
ldrexd/strexd on a register pair (not available on M-profile, which has a subset of these blocks; v6-M
has only load and store).

Simplification: the three forms of `dmb!()` (l.44-88: `dmb`, `mcr p15`, call of
`__kuser_memory_barrier`) are modelled as a full fence; the call form also clobbers lr (l.146-167).
-/
import Verif.Core.Alloc
import Verif.Contract
import Verif.Core.Ordering
import Verif.Core.Sizes
import Verif.Core.Pair

namespace Verif.Arm

/-- Build configuration: `dmb!()` is a call of the kernel helper (l.74-88); `clrex!()` exists
(l.90-109). -/
structure Conf where
  kuser : Bool
  v7 : Bool

/-! ### Mnemonics -/

/-- Base-register address `[reg]`. -/
@[asm] def ea (b : Nat) : RS 32 → Nat := fun s => (s.r b).toNat
/-- `ldr{b,h,} rd, [rs]`: zero-extending load. -/
@[asm] def ldr (w rd rs : Nat) : Instr 32 := .ld .plain (ea rs) w (fun x s => s.set rd (x.setWidth 32))
/-- `str{b,h,} rv, [rs]`. -/
@[asm] def str (w rv rs : Nat) : Instr 32 := .st .plain (ea rs) w (fun s => (s.r rv).setWidth w)
/-- `ldrex{b,h,} rd, [rs]`. -/
@[asm] def ldrex (w rd rs : Nat) : Instr 32 :=
  .ll .plain false (ea rs) w (fun x s => s.set rd (x.setWidth 32))
/-- `strex{b,h,} rd, rv, [rs]`: rd = 0 on success, 1 on failure. -/
@[asm] def strex (w rd rv rs : Nat) : Instr 32 :=
  .sc .plain (ea rs) w (fun s => (s.r rv).setWidth w) (fun b _ s => s.set rd (if b then 0#32 else 1#32))
/-- `ldrexd ra, rb, [rs]`: ra = word at rs, rb = word at rs+4 (64-bit single-copy atomic). -/
@[asm] def ldrexd (e : Endian) (ra rb rs : Nat) : Instr 32 :=
  .ll .plain false (ea rs) 64 (fun x s => (s.set ra (word0 e 32 x)).set rb (word1 e 32 x))
/-- `strexd rd, ra, rb, [rs]`. -/
@[asm] def strexd (e : Endian) (rd ra rb rs : Nat) : Instr 32 :=
  .sc .plain (ea rs) 64 (fun s => join01 e 64 (s.r ra) (s.r rb))
    (fun b _ s => s.set rd (if b then 0#32 else 1#32))
/-- `cmp a, b`: Z = (a == b). -/
@[asm] def cmp (a b : Nat) : Instr 32 := .op fun _ s => s.setZ (s.r a == s.r b)
/-- `cmp a, #0`: Z = (a == 0). -/
@[asm] def cmp0 (a : Nat) : Instr 32 := .op fun _ s => s.setZ (s.r a == 0#32)
/-- `eor rd, a, b`. -/
@[asm] def eor (rd a b : Nat) : Instr 32 := .op fun _ s => s.set rd (s.r a ^^^ s.r b)
/-- `orrs rd, a, b`: Z = (result == 0). -/
@[asm] def orrs (rd a b : Nat) : Instr 32 :=
  .op fun _ s => (s.set rd (s.r a ||| s.r b)).setZ ((s.r a ||| s.r b) == 0#32)
/-- `mov rd, #1`. -/
@[asm] def mov1 (rd : Nat) : Instr 32 := .op fun _ s => s.set rd 1#32
/-- `bne target`. -/
@[asm] def bne (t : Nat) : Instr 32 := .br (fun s => !s.z) t
/-- `beq target`. -/
@[asm] def beq (t : Nat) : Instr 32 := .br (fun s => s.z) t
/-- `b target`. -/
@[asm] def b (t : Nat) : Instr 32 := .br (fun _ => true) t
/-- `clrex!()` (l.90-109): `clrex` on v7, nothing on v6. -/
@[asm] def clr (c : Conf) : Instr 32 :=
  match c.v7 with
  | true => .clrex
  | false => .op (fun _ s => s)
/-- The `blx` of the kernel-helper form of `dmb!()`: overwrites lr if there is a barrier here. -/
@[asm] def lk (c : Conf) (lr : Nat) (f : Pairs) : Instr 32 :=
  .op fun o s => s.setIf (c.kuser && f.rr) lr (BitVec.ofNat 32 o.junk)

/-- `dmb!()` -/
def dmb : Pairs := Pairs.full
/-- `""` -/
def noFence : Pairs := Pairs.none

/-! ### Ordering tables (`none` = `unreachable!()`) -/

/-- l.193-199, l.570-576: fence after a load. -/
def loadFence : Ordering → Option Pairs
  | .relaxed => some noFence
  | .acquire | .seqCst => some dmb
  | _ => none
/-- l.226-231, l.615-620: (acquire, release) of a store. -/
def storeFences : Ordering → Option (Pairs × Pairs)
  | .relaxed => some (noFence, noFence)
  | .release => some (noFence, dmb)
  | .seqCst => some (dmb, dmb)
  | _ => none
/-- l.270-279, l.661-668: (acquire, release) of a swap. -/
def swapFences : Ordering → Pairs × Pairs
  | .relaxed => (noFence, noFence)
  | .acquire => (dmb, noFence)
  | .release => (noFence, dmb)
  | .acqRel | .seqCst => (dmb, dmb)

/-- The three strong compare_exchange sequences (fences of the success and failure path). -/
inductive CasProg where
  | storeRelaxed (fs ff : Pairs)
  | release (ff : Pairs)
  | acqrel (ff : Pairs)
deriving DecidableEq, Repr
/-- l.393-409, l.808-820. -/
def casTable : Ordering → Ordering → Option CasProg
  | .relaxed, .relaxed => some (.storeRelaxed noFence noFence)
  | .relaxed, .acquire | .relaxed, .seqCst => some (.storeRelaxed noFence dmb)
  | .acquire, .relaxed => some (.storeRelaxed dmb noFence)
  | .acquire, .acquire | .acquire, .seqCst => some (.storeRelaxed dmb dmb)
  | .release, .relaxed => some (.release noFence)
  | .release, .acquire | .release, .seqCst => some (.release dmb)
  | .acqRel, .relaxed | .seqCst, .relaxed => some (.acqrel noFence)
  | .acqRel, _ | .seqCst, _ => some (.acqrel dmb)
  | _, _ => none

/-- The three weak compare_exchange sequences. -/
inductive WeakProg where
  | weak (acq rel : Pairs)
  | failRelaxed (rel : Pairs)
  | successRelaxed (rel : Pairs)
deriving DecidableEq, Repr
/-- l.508-520, l.945-957. -/
def weakTable : Ordering → Ordering → Option WeakProg
  | .relaxed, .relaxed => some (.weak noFence noFence)
  | .relaxed, .acquire | .relaxed, .seqCst => some (.successRelaxed noFence)
  | .acquire, .relaxed => some (.failRelaxed noFence)
  | .acquire, .acquire | .acquire, .seqCst => some (.weak dmb noFence)
  | .release, .relaxed => some (.weak noFence dmb)
  | .release, .acquire | .release, .seqCst => some (.successRelaxed dmb)
  | .acqRel, .relaxed | .seqCst, .relaxed => some (.failRelaxed dmb)
  | .acqRel, _ | .seqCst, _ => some (.weak dmb dmb)
  | _, _ => none

/-! ### asm! blocks for 8, 16 and 32 bits -/

/-- lr is clobbered in the kernel-helper configuration (l.163-164). -/
@[asm] def lrKind (c : Conf) : Kind := if c.kuser then .out else .unused

/-- operands of l.187-188 -/
@[asm] def loadKind (c : Conf) : Op → Kind
  | .src => .inp | .out => .lateout | .lr => lrKind c | _ => .unused
/-- l.182-192 `atomic_load`. -/
@[asm] def loadAsm (c : Conf) (al : Op → Nat) (w : Nat) (f : Pairs) : List (Instr 32) :=
  [ ldr w (al .out) (al .src), lk c (al .lr) f, .fence f ]

/-- operands of l.220-221 -/
@[asm] def storeKind (c : Conf) : Op → Kind
  | .dst => .inp | .val => .inp | .lr => lrKind c | _ => .unused
/-- l.214-225 `atomic_store`. -/
@[asm] def storeAsm (c : Conf) (al : Op → Nat) (w : Nat) (f : Pairs × Pairs) : List (Instr 32) :=
  [ lk c (al .lr) f.2, .fence f.2, str w (al .val) (al .dst), lk c (al .lr) f.1, .fence f.1 ]

/-- operands of l.261-264 -/
@[asm] def swapKind (c : Conf) : Op → Kind
  | .dst => .inp | .val => .inout | .out => .out | .r => .out | .lr => lrKind c | _ => .unused
/-- l.251-269 `atomic_swap`. -/
@[asm] def swapAsm (c : Conf) (al : Op → Nat) (w : Nat) (f : Pairs × Pairs) : List (Instr 32) := [
    lk c (al .lr) f.2,
    .fence f.2,
    /- 2: -/ ldrex w (al .out) (al .dst),
    strex w (al .r) (al .val) (al .dst),
    cmp0 (al .r),
    bne 2,
    lk c (al .lr) f.1,
    .fence f.1 ]

/-- operands of l.322-326, l.351-355, l.383-387, l.443-447, l.471-475, l.498-502 -/
@[asm] def casKind (c : Conf) : Op → Kind
  | .dst => .inp | .old => .inp | .new => .inout | .out => .out | .r => .out | .lr => lrKind c
  | _ => .unused
/-- l.305-392 `cmpxchg_store_relaxed!`, `cmpxchg_release!`, `cmpxchg_acqrel!`. -/
@[asm] def casAsm (c : Conf) (al : Op → Nat) (w : Nat) : CasProg → List (Instr 32)
  | .storeRelaxed fs ff => [
    /- 2: -/ ldrex w (al .out) (al .dst),
    cmp (al .out) (al .old),
    bne 9,
    strex w (al .r) (al .new) (al .dst),
    cmp0 (al .r),
    bne 0,
    lk c (al .lr) fs,
    .fence fs,
    b 13,
    /- 3: -/ mov1 (al .r),
    clr c,
    lk c (al .lr) ff,
    .fence ff ]
  | .release ff => [
    ldrex w (al .out) (al .dst),
    cmp (al .out) (al .old),
    bne 11,
    lk c (al .lr) dmb,
    .fence dmb,
    /- 2: -/ strex w (al .r) (al .new) (al .dst),
    cmp0 (al .r),
    beq 15,
    ldrex w (al .out) (al .dst),
    cmp (al .out) (al .old),
    beq 5,
    /- 3: -/ mov1 (al .r),
    clr c,
    lk c (al .lr) ff,
    .fence ff ]
  | .acqrel ff => [
    ldrex w (al .out) (al .dst),
    cmp (al .out) (al .old),
    bne 11,
    lk c (al .lr) dmb,
    .fence dmb,
    /- 2: -/ strex w (al .r) (al .new) (al .dst),
    cmp0 (al .r),
    beq 16,
    ldrex w (al .out) (al .dst),
    cmp (al .out) (al .old),
    beq 5,
    /- 3: -/ mov1 (al .r),
    clr c,
    lk c (al .lr) ff,
    .fence ff,
    b 18,
    /- 4: -/ lk c (al .lr) dmb,
    .fence dmb ]
/-- l.429-507 `cmpxchg_weak!`, `cmpxchg_weak_fail_load_relaxed!`, `cmpxchg_weak_success_load_relaxed!`. -/
@[asm] def weakAsm (c : Conf) (al : Op → Nat) (w : Nat) : WeakProg → List (Instr 32)
  | .weak acq rel => [
    ldrex w (al .out) (al .dst),
    cmp (al .out) (al .old),
    bne 7,
    lk c (al .lr) rel,
    .fence rel,
    strex w (al .r) (al .new) (al .dst),
    b 9,
    /- 3: -/ mov1 (al .r),
    clr c,
    /- 4: -/ lk c (al .lr) acq,
    .fence acq ]
  | .failRelaxed rel => [
    ldrex w (al .out) (al .dst),
    cmp (al .out) (al .old),
    bne 9,
    lk c (al .lr) rel,
    .fence rel,
    strex w (al .r) (al .new) (al .dst),
    cmp0 (al .r),
    beq 12,
    b 14,
    /- 3: -/ mov1 (al .r),
    clr c,
    b 14,
    /- 4: -/ lk c (al .lr) dmb,
    .fence dmb ]
  | .successRelaxed rel => [
    ldrex w (al .out) (al .dst),
    cmp (al .out) (al .old),
    bne 9,
    lk c (al .lr) rel,
    .fence rel,
    strex w (al .r) (al .new) (al .dst),
    cmp0 (al .r),
    beq 13,
    b 11,
    /- 3: -/ mov1 (al .r),
    clr c,
    /- 4: -/ lk c (al .lr) dmb,
    .fence dmb ]

/-! ### asm! blocks for 64 bits -/

/-- operands of l.562-565 -/
@[asm] def loaddKind (c : Conf) : Op → Kind
  | .src => .inp | .prev_lo => .lateout | .prev_hi => .lateout | .lr => lrKind c | _ => .unused
/-- l.556-569 `atomic_load`. -/
@[asm] def loaddAsm (e : Endian) (c : Conf) (al : Op → Nat) (f : Pairs) : List (Instr 32) :=
  [ ldrexd e (al .prev_lo) (al .prev_hi) (al .src), clr c, lk c (al .lr) f, .fence f ]

/-- operands of l.603-609 -/
@[asm] def storedKind (c : Conf) : Op → Kind
  | .dst => .inp | .val_lo => .inout | .val_hi => .inout | .tmp_lo => .out | .tmp_hi => .out
  | .lr => lrKind c | _ => .unused
/-- l.593-614 `atomic_store`. -/
@[asm] def storedAsm (e : Endian) (c : Conf) (al : Op → Nat) (f : Pairs × Pairs) : List (Instr 32) := [
    lk c (al .lr) f.2,
    .fence f.2,
    /- 2: -/ ldrexd e (al .tmp_lo) (al .tmp_hi) (al .dst),
    strexd e (al .tmp_lo) (al .val_lo) (al .val_hi) (al .dst),
    cmp0 (al .tmp_lo),
    bne 2,
    lk c (al .lr) f.1,
    .fence f.1 ]

/-- operands of l.648-655 -/
@[asm] def swapdKind (c : Conf) : Op → Kind
  | .dst => .inp | .r => .out | .val_lo => .inout | .val_hi => .inout | .prev_lo => .out | .prev_hi => .out
  | .lr => lrKind c | _ => .unused
/-- l.638-660 `atomic_swap`. -/
@[asm] def swapdAsm (e : Endian) (c : Conf) (al : Op → Nat) (f : Pairs × Pairs) : List (Instr 32) := [
    lk c (al .lr) f.2,
    .fence f.2,
    /- 2: -/ ldrexd e (al .prev_lo) (al .prev_hi) (al .dst),
    strexd e (al .r) (al .val_lo) (al .val_hi) (al .dst),
    cmp0 (al .r),
    bne 2,
    lk c (al .lr) f.1,
    .fence f.1 ]

/-- operands of l.711-721 and of the five following macros -/
@[asm] def casdKind (c : Conf) : Op → Kind
  | .dst => .inp | .old_lo => .inp | .old_hi => .inp | .r => .out | .tmp => .out | .prev_lo => .out
  | .prev_hi => .out | .new_lo => .inout | .new_hi => .inout | .lr => lrKind c | _ => .unused
/-- l.692-807, 64-bit `cmpxchg_store_relaxed!`, `cmpxchg_release!`, `cmpxchg_acqrel!`. -/
@[asm] def casdAsm (e : Endian) (c : Conf) (al : Op → Nat) : CasProg → List (Instr 32)
  | .storeRelaxed fs ff => [
    /- 2: -/ ldrexd e (al .prev_lo) (al .prev_hi) (al .dst),
    eor (al .tmp) (al .prev_hi) (al .old_hi),
    eor (al .r) (al .prev_lo) (al .old_lo),
    orrs (al .r) (al .r) (al .tmp),
    bne 11,
    strexd e (al .r) (al .new_lo) (al .new_hi) (al .dst),
    cmp0 (al .r),
    bne 0,
    lk c (al .lr) fs,
    .fence fs,
    b 15,
    /- 3: -/ mov1 (al .r),
    clr c,
    lk c (al .lr) ff,
    .fence ff ]
  | .release ff => [
    ldrexd e (al .prev_lo) (al .prev_hi) (al .dst),
    eor (al .tmp) (al .prev_hi) (al .old_hi),
    eor (al .r) (al .prev_lo) (al .old_lo),
    orrs (al .r) (al .r) (al .tmp),
    bne 15,
    lk c (al .lr) dmb,
    .fence dmb,
    /- 2: -/ strexd e (al .r) (al .new_lo) (al .new_hi) (al .dst),
    cmp0 (al .r),
    beq 19,
    ldrexd e (al .prev_lo) (al .prev_hi) (al .dst),
    eor (al .tmp) (al .prev_hi) (al .old_hi),
    eor (al .r) (al .prev_lo) (al .old_lo),
    orrs (al .r) (al .r) (al .tmp),
    beq 7,
    /- 3: -/ mov1 (al .r),
    clr c,
    lk c (al .lr) ff,
    .fence ff ]
  | .acqrel ff => [
    ldrexd e (al .prev_lo) (al .prev_hi) (al .dst),
    eor (al .tmp) (al .prev_hi) (al .old_hi),
    eor (al .r) (al .prev_lo) (al .old_lo),
    orrs (al .r) (al .r) (al .tmp),
    bne 15,
    lk c (al .lr) dmb,
    .fence dmb,
    /- 2: -/ strexd e (al .r) (al .new_lo) (al .new_hi) (al .dst),
    cmp0 (al .r),
    beq 20,
    ldrexd e (al .prev_lo) (al .prev_hi) (al .dst),
    eor (al .tmp) (al .prev_hi) (al .old_hi),
    eor (al .r) (al .prev_lo) (al .old_lo),
    orrs (al .r) (al .r) (al .tmp),
    beq 7,
    /- 3: -/ mov1 (al .r),
    clr c,
    lk c (al .lr) ff,
    .fence ff,
    b 22,
    /- 4: -/ lk c (al .lr) dmb,
    .fence dmb ]
/-- l.842-944, 64-bit weak sequences. -/
@[asm] def weakdAsm (e : Endian) (c : Conf) (al : Op → Nat) : WeakProg → List (Instr 32)
  | .weak acq rel => [
    ldrexd e (al .prev_lo) (al .prev_hi) (al .dst),
    eor (al .tmp) (al .prev_hi) (al .old_hi),
    eor (al .r) (al .prev_lo) (al .old_lo),
    orrs (al .r) (al .r) (al .tmp),
    bne 9,
    lk c (al .lr) rel,
    .fence rel,
    strexd e (al .r) (al .new_lo) (al .new_hi) (al .dst),
    b 11,
    /- 3: -/ mov1 (al .r),
    clr c,
    /- 4: -/ lk c (al .lr) acq,
    .fence acq ]
  | .failRelaxed rel => [
    ldrexd e (al .prev_lo) (al .prev_hi) (al .dst),
    eor (al .tmp) (al .prev_hi) (al .old_hi),
    eor (al .r) (al .prev_lo) (al .old_lo),
    orrs (al .r) (al .r) (al .tmp),
    bne 11,
    lk c (al .lr) rel,
    .fence rel,
    strexd e (al .r) (al .new_lo) (al .new_hi) (al .dst),
    cmp0 (al .r),
    beq 14,
    b 16,
    /- 3: -/ mov1 (al .r),
    clr c,
    b 16,
    /- 4: -/ lk c (al .lr) dmb,
    .fence dmb ]
  | .successRelaxed rel => [
    ldrexd e (al .prev_lo) (al .prev_hi) (al .dst),
    eor (al .tmp) (al .prev_hi) (al .old_hi),
    eor (al .r) (al .prev_lo) (al .old_lo),
    orrs (al .r) (al .r) (al .tmp),
    bne 11,
    lk c (al .lr) rel,
    .fence rel,
    strexd e (al .r) (al .new_lo) (al .new_hi) (al .dst),
    cmp0 (al .r),
    beq 15,
    b 13,
    /- 3: -/ mov1 (al .r),
    clr c,
    /- 4: -/ lk c (al .lr) dmb,
    .fence dmb ]

/-! ### Blocks and back end -/

/-- l.171-202 -/
@[asm] def loadBlock (c : Conf) (al : Alloc (loadKind c)) (w : Nat) (f : Pairs) (p : BitVec 32) :
    Block 32 w where
  code := loadAsm c al w f
  args := [⟨al .src, 32, p⟩]
  outs := al.Outs
  out rs := (rs.r (al .out)).setWidth w

/-- l.203-234 -/
@[asm] def storeBlock (c : Conf) (al : Alloc (storeKind c)) (w : Nat) (f : Pairs × Pairs) (p : BitVec 32)
    (val : BitVec w) : Block 32 w where
  code := storeAsm c al w f
  args := [⟨al .dst, 32, p⟩, ⟨al .val, w, val⟩]
  outs := al.Outs

/-- l.235-284 -/
@[asm] def swapBlock (c : Conf) (al : Alloc (swapKind c)) (w : Nat) (f : Pairs × Pairs) (p : BitVec 32)
    (val : BitVec w) : Block 32 w where
  code := swapAsm c al w f
  args := [⟨al .dst, 32, p⟩, ⟨al .val, w, val⟩]
  outs := al.Outs
  keepsFlags := false
  out rs := (rs.r (al .out)).setWidth w

/-- operands and results of the compare_exchange blocks (l.285-413, l.414-527); `zero_extend` of a 32-bit
value is the value itself. -/
@[asm] def casFrame (e : Endian) (c : Conf) (al : Alloc (casKind c)) (w : Nat) (code : List (Instr 32))
    (p : BitVec 32) (old new : BitVec w) : Block 32 w where
  code := code
  args := [⟨al .dst, 32, p⟩, ⟨al .old, 32, zeroExtend e old⟩, ⟨al .new, w, new⟩]
  outs := al.Outs
  keepsFlags := false
  out rs := (rs.r (al .out)).setWidth w
  ok rs := rs.r (al .r) == 0#32
  assumes rs := rs.r (al .r) = 0#32 ∨ rs.r (al .r) = 1#32

/-- l.544-579 -/
@[asm] def loaddBlock (e : Endian) (c : Conf) (al : Alloc (loaddKind c)) (f : Pairs) (p : BitVec 32) :
    Block 32 64 where
  code := loaddAsm e c al f
  args := [⟨al .src, 32, p⟩]
  outs := al.Outs
  out rs := ofPair true e 64 (rs.r (al .prev_lo)) (rs.r (al .prev_hi))

/-- l.580-623 -/
@[asm] def storedBlock (e : Endian) (c : Conf) (al : Alloc (storedKind c)) (f : Pairs × Pairs) (p : BitVec 32)
    (val : BitVec 64) : Block 32 64 where
  code := storedAsm e c al f
  args := [⟨al .dst, 32, p⟩, ⟨al .val_lo, 32, (pairOf true e 32 val).1⟩,
    ⟨al .val_hi, 32, (pairOf true e 32 val).2⟩]
  outs := al.Outs
  keepsFlags := false

/-- l.624-672 -/
@[asm] def swapdBlock (e : Endian) (c : Conf) (al : Alloc (swapdKind c)) (f : Pairs × Pairs) (p : BitVec 32)
    (val : BitVec 64) : Block 32 64 where
  code := swapdAsm e c al f
  args := [⟨al .dst, 32, p⟩, ⟨al .val_lo, 32, (pairOf true e 32 val).1⟩,
    ⟨al .val_hi, 32, (pairOf true e 32 val).2⟩]
  outs := al.Outs
  keepsFlags := false
  out rs := ofPair true e 64 (rs.r (al .prev_lo)) (rs.r (al .prev_hi))

/-- operands and results of the 64-bit compare_exchange blocks (l.673-824, l.825-962) -/
@[asm] def casdFrame (e : Endian) (c : Conf) (al : Alloc (casdKind c)) (code : List (Instr 32))
    (p : BitVec 32) (old new : BitVec 64) : Block 32 64 where
  code := code
  args := [⟨al .dst, 32, p⟩, ⟨al .old_lo, 32, (pairOf true e 32 old).1⟩,
    ⟨al .old_hi, 32, (pairOf true e 32 old).2⟩, ⟨al .new_lo, 32, (pairOf true e 32 new).1⟩,
    ⟨al .new_hi, 32, (pairOf true e 32 new).2⟩]
  outs := al.Outs
  keepsFlags := false
  out rs := ofPair true e 64 (rs.r (al .prev_lo)) (rs.r (al .prev_hi))
  ok rs := rs.r (al .r) == 0#32
  assumes rs := rs.r (al .r) = 0#32 ∨ rs.r (al .r) = 1#32

/-- `atomic_load` -/
inductive Load (e : Endian) (c : Conf) : Ordering → (w a : Nat) → Block 32 w → Prop
  | word (al) {o f w} (p : BitVec 32) (hw : SubSize w ∨ w = 32) (hf : loadFence o = some f) :
      Load e c o w p.toNat (loadBlock c al w f p)
  | dword (al) {o f} (p : BitVec 32) (hf : loadFence o = some f) :
      Load e c o 64 p.toNat (loaddBlock e c al f p)
/-- `atomic_store` -/
inductive Store (e : Endian) (c : Conf) : Ordering → (w a : Nat) → BitVec w → Block 32 w → Prop
  | word (al) {o f w} (p : BitVec 32) (val : BitVec w) (hw : SubSize w ∨ w = 32)
      (hf : storeFences o = some f) : Store e c o w p.toNat val (storeBlock c al w f p val)
  | dword (al) {o f} (p : BitVec 32) (val : BitVec 64) (hf : storeFences o = some f) :
      Store e c o 64 p.toNat val (storedBlock e c al f p val)
/-- `atomic_swap` -/
inductive Swap (e : Endian) (c : Conf) : Ordering → (w a : Nat) → BitVec w → Block 32 w → Prop
  | word (al o) {w} (p : BitVec 32) (val : BitVec w) (hw : SubSize w ∨ w = 32) :
      Swap e c o w p.toNat val (swapBlock c al w (swapFences o) p val)
  | dword (al o) (p : BitVec 32) (val : BitVec 64) :
      Swap e c o 64 p.toNat val (swapdBlock e c al (swapFences o) p val)
/-- `atomic_compare_exchange`; the orderings passed `assert_compare_exchange_ordering` (src/lib.rs
l.537-557) -/
inductive Cas (e : Endian) (c : Conf) :
    Ordering → Ordering → (w a : Nat) → BitVec w → BitVec w → Block 32 w → Prop
  | word (al) {s f w g} (p : BitVec 32) (old new : BitVec w) (hw : SubSize w ∨ w = 32)
      (hv : assertCompareExchangeOrdering s f = .ok ()) (hg : casTable s f = some g) :
      Cas e c s f w p.toNat old new (casFrame e c al w (casAsm c al w g) p old new)
  | dword (al) {s f g} (p : BitVec 32) (old new : BitVec 64)
      (hv : assertCompareExchangeOrdering s f = .ok ()) (hg : casTable s f = some g) :
      Cas e c s f 64 p.toNat old new (casdFrame e c al (casdAsm e c al g) p old new)
/-- `atomic_compare_exchange_weak` -/
inductive CasWeak (e : Endian) (c : Conf) :
    Ordering → Ordering → (w a : Nat) → BitVec w → BitVec w → Block 32 w → Prop
  | word (al) {s f w g} (p : BitVec 32) (old new : BitVec w) (hw : SubSize w ∨ w = 32)
      (hv : assertCompareExchangeOrdering s f = .ok ()) (hg : weakTable s f = some g) :
      CasWeak e c s f w p.toNat old new (casFrame e c al w (weakAsm c al w g) p old new)
  | dword (al) {s f g} (p : BitVec 32) (old new : BitVec 64)
      (hv : assertCompareExchangeOrdering s f = .ok ()) (hg : weakTable s f = some g) :
      CasWeak e c s f 64 p.toNat old new (casdFrame e c al (weakdAsm e c al g) p old new)

/-- The Armv6/v7 back end. -/
def backend (e : Endian) (c : Conf) : Backend 32 where
  e := e
  imp := Pairs.none
  Load := Load e c
  Store := Store e c
  Swap := Swap e c
  Cas := Cas e c
  CasWeak := CasWeak e c

end Verif.Arm
