/-
src/arch_legacy/arm.rs: Armv6 and Armv7 (compilers without `MaybeUninit` asm operands).

Values are passed through private buffers (Core/Private.lean): `.x0` (and `.x3`, the second word of a 64-bit value) is
the content of `out`, `.x1` (`.x4`) of `val` / `old`, `.x2` (`.x5`) of `new`. Mnemonics, fences and ordering tables are
those of src/arch/arm.rs (compare l.39-172 here). The fixed registers r2-r5, r8, r9 of the 64-bit blocks are treated as
any other early-clobber output registers.

Simplification as in Arch/Arm.lean: the three forms of `dmb!()` (l.39-84) are a full fence; the call form also clobbers
lr (l.157-172).
-/
import Verif.Arch.Arm
import Verif.Core.Private

namespace Verif.LegacyArm
open Arm (Conf ea ldr str ldrex strex ldrexd strexd cmp cmp0 eor orrs mov1 bne beq b clr lk dmb noFence loadFence
  storeFences swapFences CasProg casTable WeakProg weakTable lrKind)

/-- `ldr{b,h,} rd, [ra]` from a private buffer (zero-extending). -/
@[asm] def ldrp (cs : List (Cell 32)) (w rd ra : Nat) : Instr 32 := ldPriv cs w (·.setWidth 32) rd ra

/-! The ordering tables l.203-208, l.238-243, l.296-305, l.452-467, l.584-596 (and l.657-662, l.706-711, l.763-770,
l.945-959, l.1111-1123 for 64 bits) are those of src/arch/arm.rs. -/

/-! ### asm! blocks for 8, 16 and 32 bits -/

/-- operands of l.197-199 -/
@[asm] def loadKind (c : Conf) : Op → Kind
  | .src => .inp | .out => .inout | .tmp => .lateout | .x0 => .inout | .lr => lrKind c | _ => .unused
/-- l.189-202 `atomic_load!`. -/
@[asm] def loadAsm (c : Conf) (al : Op → Nat) (w : Nat) (f : Pairs) (po : BitVec 32) : List (Instr 32) :=
  [ ldr w (al .tmp) (al .src), lk c (al .lr) f, .fence f,
    stPriv ⟨po, al .x0⟩ w (al .tmp) (al .out) ]

/-- operands of l.235-237 -/
@[asm] def storeKind (c : Conf) : Op → Kind
  | .dst => .inout | .val => .inp | .tmp => .lateout | .x1 => .inout | .lr => lrKind c | _ => .unused
/-- l.223-237 `atomic_store!`. -/
@[asm] def storeAsm (c : Conf) (al : Op → Nat) (w : Nat) (f : Pairs × Pairs) (pv : BitVec 32) : List (Instr 32) :=
  [ ldrp [⟨pv, al .x1⟩] w (al .tmp) (al .val),
    lk c (al .lr) f.2, .fence f.2, str w (al .tmp) (al .dst), lk c (al .lr) f.1, .fence f.1 ]

/-- operands of l.288-292 -/
@[asm] def swapKind (c : Conf) : Op → Kind
  | .dst => .inp | .val => .inout | .out => .inp | .r => .out | .tmp => .out | .x0 => .inout | .x1 => .inout
  | .lr => lrKind c | _ => .unused
/-- l.268-295 `atomic_swap!`. Label `2:` = 3. -/
@[asm] def swapAsm (c : Conf) (al : Op → Nat) (w : Nat) (f : Pairs × Pairs) (po pv : BitVec 32) :
    List (Instr 32) := [
    ldrp [⟨po, al .x0⟩, ⟨pv, al .x1⟩] w (al .val) (al .val),
    lk c (al .lr) f.2,
    .fence f.2,
    /- 2: -/ ldrex w (al .tmp) (al .dst),
    strex w (al .r) (al .val) (al .dst),
    cmp0 (al .r),
    bne 3,
    lk c (al .lr) f.1,
    .fence f.1,
    stPriv ⟨po, al .x0⟩ w (al .tmp) (al .out) ]

/-- operands of l.361-366, l.402-407, l.443-448, l.510-515, l.542-547, l.575-580 -/
@[asm] def casKind (c : Conf) : Op → Kind
  | .dst => .inp | .old => .inout | .new => .inout | .out => .inp | .r => .out | .tmp => .out
  | .x0 => .inout | .x1 => .inout | .x2 => .inout | .lr => lrKind c | _ => .unused
/-- The private buffers of a compare_exchange. -/
@[asm] def casCells (al : Op → Nat) (po pold pnew : BitVec 32) : List (Cell 32) :=
  [⟨po, al .x0⟩, ⟨pold, al .x1⟩, ⟨pnew, al .x2⟩]
/-- l.334-451 `cmpxchg_store_relaxed!`, `cmpxchg_release!`, `cmpxchg_acqrel!`. -/
@[asm] def casAsm (c : Conf) (al : Op → Nat) (w : Nat) (po pold pnew : BitVec 32) : CasProg → List (Instr 32)
  | .storeRelaxed fs ff => [
    ldrp (casCells al po pold pnew) w (al .old) (al .old),
    ldrp (casCells al po pold pnew) w (al .new) (al .new),
    /- 2: -/ ldrex w (al .tmp) (al .dst),
    cmp (al .tmp) (al .old),
    bne 11,
    strex w (al .r) (al .new) (al .dst),
    cmp0 (al .r),
    bne 2,
    lk c (al .lr) fs,
    .fence fs,
    b 15,
    /- 3: -/ mov1 (al .r),
    clr c,
    lk c (al .lr) ff,
    .fence ff,
    stPriv ⟨po, al .x0⟩ w (al .tmp) (al .out) ]
  | .release ff => [
    ldrp (casCells al po pold pnew) w (al .old) (al .old),
    ldrp (casCells al po pold pnew) w (al .new) (al .new),
    ldrex w (al .tmp) (al .dst),
    cmp (al .tmp) (al .old),
    bne 13,
    lk c (al .lr) dmb,
    .fence dmb,
    /- 2: -/ strex w (al .r) (al .new) (al .dst),
    cmp0 (al .r),
    beq 17,
    ldrex w (al .tmp) (al .dst),
    cmp (al .tmp) (al .old),
    beq 7,
    /- 3: -/ mov1 (al .r),
    clr c,
    lk c (al .lr) ff,
    .fence ff,
    stPriv ⟨po, al .x0⟩ w (al .tmp) (al .out) ]
  | .acqrel ff => [
    ldrp (casCells al po pold pnew) w (al .old) (al .old),
    ldrp (casCells al po pold pnew) w (al .new) (al .new),
    ldrex w (al .tmp) (al .dst),
    cmp (al .tmp) (al .old),
    bne 13,
    lk c (al .lr) dmb,
    .fence dmb,
    /- 2: -/ strex w (al .r) (al .new) (al .dst),
    cmp0 (al .r),
    beq 18,
    ldrex w (al .tmp) (al .dst),
    cmp (al .tmp) (al .old),
    beq 7,
    /- 3: -/ mov1 (al .r),
    clr c,
    lk c (al .lr) ff,
    .fence ff,
    b 20,
    /- 4: -/ lk c (al .lr) dmb,
    .fence dmb,
    stPriv ⟨po, al .x0⟩ w (al .tmp) (al .out) ]
/-- l.489-583 `cmpxchg_weak!`, `cmpxchg_weak_fail_load_relaxed!`, `cmpxchg_weak_success_load_relaxed!`. -/
@[asm] def weakAsm (c : Conf) (al : Op → Nat) (w : Nat) (po pold pnew : BitVec 32) : WeakProg → List (Instr 32)
  | .weak acq rel => [
    ldrp (casCells al po pold pnew) w (al .old) (al .old),
    ldrp (casCells al po pold pnew) w (al .new) (al .new),
    ldrex w (al .tmp) (al .dst),
    cmp (al .tmp) (al .old),
    bne 9,
    lk c (al .lr) rel,
    .fence rel,
    strex w (al .r) (al .new) (al .dst),
    b 11,
    /- 3: -/ mov1 (al .r),
    clr c,
    /- 4: -/ lk c (al .lr) acq,
    .fence acq,
    stPriv ⟨po, al .x0⟩ w (al .tmp) (al .out) ]
  | .failRelaxed rel => [
    ldrp (casCells al po pold pnew) w (al .old) (al .old),
    ldrp (casCells al po pold pnew) w (al .new) (al .new),
    ldrex w (al .tmp) (al .dst),
    cmp (al .tmp) (al .old),
    bne 11,
    lk c (al .lr) rel,
    .fence rel,
    strex w (al .r) (al .new) (al .dst),
    cmp0 (al .r),
    beq 14,
    b 16,
    /- 3: -/ mov1 (al .r),
    clr c,
    b 16,
    /- 4: -/ lk c (al .lr) dmb,
    .fence dmb,
    stPriv ⟨po, al .x0⟩ w (al .tmp) (al .out) ]
  | .successRelaxed rel => [
    ldrp (casCells al po pold pnew) w (al .old) (al .old),
    ldrp (casCells al po pold pnew) w (al .new) (al .new),
    ldrex w (al .tmp) (al .dst),
    cmp (al .tmp) (al .old),
    bne 11,
    lk c (al .lr) rel,
    .fence rel,
    strex w (al .r) (al .new) (al .dst),
    cmp0 (al .r),
    beq 15,
    b 13,
    /- 3: -/ mov1 (al .r),
    clr c,
    /- 4: -/ lk c (al .lr) dmb,
    .fence dmb,
    stPriv ⟨po, al .x0⟩ w (al .tmp) (al .out) ]

/-! ### asm! blocks for 64 bits -/

/-- operands of l.649-653: r2, r3 are `prev_lo`, `prev_hi` -/
@[asm] def loaddKind (c : Conf) : Op → Kind
  | .src => .inp | .out => .inp | .prev_lo => .out | .prev_hi => .out | .x0 => .inout | .x3 => .inout
  | .lr => lrKind c | _ => .unused
/-- l.639-656 `atomic_load!`. -/
@[asm] def loaddAsm (e : Endian) (c : Conf) (al : Op → Nat) (f : Pairs) (po : BitVec 32) : List (Instr 32) :=
  [ ldrexd e (al .prev_lo) (al .prev_hi) (al .src), clr c, lk c (al .lr) f, .fence f,
    stPriv2 ⟨po, al .x0, al .x3⟩ (al .prev_lo) (al .prev_hi) (al .out) ]

/-- operands of l.698-706: r2, r3 are `val_lo`, `val_hi`, r4, r5 are `tmp_lo`, `tmp_hi` -/
@[asm] def storedKind (c : Conf) : Op → Kind
  | .dst => .inout | .val => .inp | .r => .lateout | .val_lo => .out | .val_hi => .out | .tmp_lo => .out
  | .tmp_hi => .out | .x1 => .inout | .x4 => .inout | .lr => lrKind c | _ => .unused
/-- l.682-707 `atomic_store!`. Label `2:` = 3. -/
@[asm] def storedAsm (e : Endian) (c : Conf) (al : Op → Nat) (f : Pairs × Pairs) (pv : BitVec 32) :
    List (Instr 32) := [
    ldPriv2 [⟨pv, al .x1, al .x4⟩] (al .val_lo) (al .val_hi) (al .val),
    lk c (al .lr) f.2,
    .fence f.2,
    /- 2: -/ ldrexd e (al .tmp_lo) (al .tmp_hi) (al .dst),
    strexd e (al .r) (al .val_lo) (al .val_hi) (al .dst),
    cmp0 (al .r),
    bne 3,
    lk c (al .lr) f.1,
    .fence f.1 ]

/-- operands of l.754-763: r2, r3 are `val_lo`, `val_hi`, r4, r5 are `prev_lo`, `prev_hi` -/
@[asm] def swapdKind (c : Conf) : Op → Kind
  | .dst => .inout | .val => .inp | .out => .inout | .r => .lateout | .val_lo => .out | .val_hi => .out
  | .prev_lo => .out | .prev_hi => .out | .x0 => .inout | .x3 => .inout | .x1 => .inout | .x4 => .inout
  | .lr => lrKind c | _ => .unused
/-- l.736-764 `atomic_swap!`. Label `2:` = 3. -/
@[asm] def swapdAsm (e : Endian) (c : Conf) (al : Op → Nat) (f : Pairs × Pairs) (po pv : BitVec 32) :
    List (Instr 32) := [
    ldPriv2 [⟨po, al .x0, al .x3⟩, ⟨pv, al .x1, al .x4⟩] (al .val_lo) (al .val_hi) (al .val),
    lk c (al .lr) f.2,
    .fence f.2,
    /- 2: -/ ldrexd e (al .prev_lo) (al .prev_hi) (al .dst),
    strexd e (al .r) (al .val_lo) (al .val_hi) (al .dst),
    cmp0 (al .r),
    bne 3,
    lk c (al .lr) f.1,
    .fence f.1,
    stPriv2 ⟨po, al .x0, al .x3⟩ (al .prev_lo) (al .prev_hi) (al .out) ]

/-- operands of l.827-841 and of the five following macros: r2, r3 are `old_lo`, `old_hi`, r4, r5 are `prev_lo`,
`prev_hi`, r8, r9 are `new_lo`, `new_hi` -/
@[asm] def casdKind (c : Conf) : Op → Kind
  | .dst => .inout | .r => .lateout | .old => .inp | .new => .inp | .out => .inout | .tmp => .out
  | .old_lo => .out | .old_hi => .out | .prev_lo => .out | .prev_hi => .out | .new_lo => .out | .new_hi => .out
  | .x0 => .inout | .x3 => .inout | .x1 => .inout | .x4 => .inout | .x2 => .inout | .x5 => .inout
  | .lr => lrKind c | _ => .unused
/-- The private buffers of a 64-bit compare_exchange. -/
@[asm] def casdCells (al : Op → Nat) (po pold pnew : BitVec 32) : List (Cell2 32) :=
  [⟨po, al .x0, al .x3⟩, ⟨pold, al .x1, al .x4⟩, ⟨pnew, al .x2, al .x5⟩]
/-- l.796-944, 64-bit `cmpxchg_store_relaxed!`, `cmpxchg_release!`, `cmpxchg_acqrel!`. -/
@[asm] def casdAsm (e : Endian) (c : Conf) (al : Op → Nat) (po pold pnew : BitVec 32) : CasProg → List (Instr 32)
  | .storeRelaxed fs ff => [
    ldPriv2 (casdCells al po pold pnew) (al .old_lo) (al .old_hi) (al .old),
    ldPriv2 (casdCells al po pold pnew) (al .new_lo) (al .new_hi) (al .new),
    /- 2: -/ ldrexd e (al .prev_lo) (al .prev_hi) (al .dst),
    eor (al .tmp) (al .prev_hi) (al .old_hi),
    eor (al .r) (al .prev_lo) (al .old_lo),
    orrs (al .r) (al .r) (al .tmp),
    bne 13,
    strexd e (al .r) (al .new_lo) (al .new_hi) (al .dst),
    cmp0 (al .r),
    bne 2,
    lk c (al .lr) fs,
    .fence fs,
    b 17,
    /- 3: -/ mov1 (al .r),
    clr c,
    lk c (al .lr) ff,
    .fence ff,
    stPriv2 ⟨po, al .x0, al .x3⟩ (al .prev_lo) (al .prev_hi) (al .out) ]
  | .release ff => [
    ldPriv2 (casdCells al po pold pnew) (al .old_lo) (al .old_hi) (al .old),
    ldPriv2 (casdCells al po pold pnew) (al .new_lo) (al .new_hi) (al .new),
    ldrexd e (al .prev_lo) (al .prev_hi) (al .dst),
    eor (al .tmp) (al .prev_hi) (al .old_hi),
    eor (al .r) (al .prev_lo) (al .old_lo),
    orrs (al .r) (al .r) (al .tmp),
    bne 17,
    lk c (al .lr) dmb,
    .fence dmb,
    /- 2: -/ strexd e (al .r) (al .new_lo) (al .new_hi) (al .dst),
    cmp0 (al .r),
    beq 21,
    ldrexd e (al .prev_lo) (al .prev_hi) (al .dst),
    eor (al .tmp) (al .prev_hi) (al .old_hi),
    eor (al .r) (al .prev_lo) (al .old_lo),
    orrs (al .r) (al .r) (al .tmp),
    beq 9,
    /- 3: -/ mov1 (al .r),
    clr c,
    lk c (al .lr) ff,
    .fence ff,
    stPriv2 ⟨po, al .x0, al .x3⟩ (al .prev_lo) (al .prev_hi) (al .out) ]
  | .acqrel ff => [
    ldPriv2 (casdCells al po pold pnew) (al .old_lo) (al .old_hi) (al .old),
    ldPriv2 (casdCells al po pold pnew) (al .new_lo) (al .new_hi) (al .new),
    ldrexd e (al .prev_lo) (al .prev_hi) (al .dst),
    eor (al .tmp) (al .prev_hi) (al .old_hi),
    eor (al .r) (al .prev_lo) (al .old_lo),
    orrs (al .r) (al .r) (al .tmp),
    bne 17,
    lk c (al .lr) dmb,
    .fence dmb,
    /- 2: -/ strexd e (al .r) (al .new_lo) (al .new_hi) (al .dst),
    cmp0 (al .r),
    beq 22,
    ldrexd e (al .prev_lo) (al .prev_hi) (al .dst),
    eor (al .tmp) (al .prev_hi) (al .old_hi),
    eor (al .r) (al .prev_lo) (al .old_lo),
    orrs (al .r) (al .r) (al .tmp),
    beq 9,
    /- 3: -/ mov1 (al .r),
    clr c,
    lk c (al .lr) ff,
    .fence ff,
    b 24,
    /- 4: -/ lk c (al .lr) dmb,
    .fence dmb,
    stPriv2 ⟨po, al .x0, al .x3⟩ (al .prev_lo) (al .prev_hi) (al .out) ]
/-- l.983-1110, 64-bit weak sequences. -/
@[asm] def weakdAsm (e : Endian) (c : Conf) (al : Op → Nat) (po pold pnew : BitVec 32) : WeakProg → List (Instr 32)
  | .weak acq rel => [
    ldPriv2 (casdCells al po pold pnew) (al .old_lo) (al .old_hi) (al .old),
    ldPriv2 (casdCells al po pold pnew) (al .new_lo) (al .new_hi) (al .new),
    ldrexd e (al .prev_lo) (al .prev_hi) (al .dst),
    eor (al .tmp) (al .prev_hi) (al .old_hi),
    eor (al .r) (al .prev_lo) (al .old_lo),
    orrs (al .r) (al .r) (al .tmp),
    bne 11,
    lk c (al .lr) rel,
    .fence rel,
    strexd e (al .r) (al .new_lo) (al .new_hi) (al .dst),
    b 13,
    /- 3: -/ mov1 (al .r),
    clr c,
    /- 4: -/ lk c (al .lr) acq,
    .fence acq,
    stPriv2 ⟨po, al .x0, al .x3⟩ (al .prev_lo) (al .prev_hi) (al .out) ]
  | .failRelaxed rel => [
    ldPriv2 (casdCells al po pold pnew) (al .old_lo) (al .old_hi) (al .old),
    ldPriv2 (casdCells al po pold pnew) (al .new_lo) (al .new_hi) (al .new),
    ldrexd e (al .prev_lo) (al .prev_hi) (al .dst),
    eor (al .tmp) (al .prev_hi) (al .old_hi),
    eor (al .r) (al .prev_lo) (al .old_lo),
    orrs (al .r) (al .r) (al .tmp),
    bne 13,
    lk c (al .lr) rel,
    .fence rel,
    strexd e (al .r) (al .new_lo) (al .new_hi) (al .dst),
    cmp0 (al .r),
    beq 16,
    b 18,
    /- 3: -/ mov1 (al .r),
    clr c,
    b 18,
    /- 4: -/ lk c (al .lr) dmb,
    .fence dmb,
    stPriv2 ⟨po, al .x0, al .x3⟩ (al .prev_lo) (al .prev_hi) (al .out) ]
  | .successRelaxed rel => [
    ldPriv2 (casdCells al po pold pnew) (al .old_lo) (al .old_hi) (al .old),
    ldPriv2 (casdCells al po pold pnew) (al .new_lo) (al .new_hi) (al .new),
    ldrexd e (al .prev_lo) (al .prev_hi) (al .dst),
    eor (al .tmp) (al .prev_hi) (al .old_hi),
    eor (al .r) (al .prev_lo) (al .old_lo),
    orrs (al .r) (al .r) (al .tmp),
    bne 13,
    lk c (al .lr) rel,
    .fence rel,
    strexd e (al .r) (al .new_lo) (al .new_hi) (al .dst),
    cmp0 (al .r),
    beq 17,
    b 15,
    /- 3: -/ mov1 (al .r),
    clr c,
    /- 4: -/ lk c (al .lr) dmb,
    .fence dmb,
    stPriv2 ⟨po, al .x0, al .x3⟩ (al .prev_lo) (al .prev_hi) (al .out) ]

/-! ### Blocks and back end -/

/-- l.176-212 -/
@[asm] def loadBlock (c : Conf) (al : Alloc (loadKind c)) (w : Nat) (f : Pairs) (po p : BitVec 32) :
    Block 32 w where
  code := loadAsm c al w f po
  args := [⟨al .src, 32, p⟩, ⟨al .out, 32, po⟩]
  outs := al.Outs
  out rs := (rs.r (al .x0)).setWidth w

/-- l.213-246 -/
@[asm] def storeBlock (c : Conf) (al : Alloc (storeKind c)) (w : Nat) (f : Pairs × Pairs) (pv p : BitVec 32)
    (val : BitVec w) : Block 32 w where
  code := storeAsm c al w f pv
  args := [⟨al .dst, 32, p⟩, ⟨al .val, 32, pv⟩, ⟨al .x1, w, val⟩]
  outs := al.Outs

/-- l.251-309 -/
@[asm] def swapBlock (c : Conf) (al : Alloc (swapKind c)) (w : Nat) (f : Pairs × Pairs) (po pv p : BitVec 32)
    (val : BitVec w) : Block 32 w where
  code := swapAsm c al w f po pv
  args := [⟨al .dst, 32, p⟩, ⟨al .val, 32, pv⟩, ⟨al .out, 32, po⟩, ⟨al .x1, w, val⟩]
  outs := al.Outs
  keepsFlags := false
  out rs := (rs.r (al .x0)).setWidth w

/-- operands and results of the compare_exchange blocks (l.315-472, l.473-602) -/
@[asm] def casFrame (c : Conf) (al : Alloc (casKind c)) (w : Nat) (code : List (Instr 32))
    (po pold pnew p : BitVec 32) (old new : BitVec w) : Block 32 w where
  code := code
  args := [⟨al .dst, 32, p⟩, ⟨al .old, 32, pold⟩, ⟨al .new, 32, pnew⟩, ⟨al .out, 32, po⟩, ⟨al .x1, w, old⟩,
    ⟨al .x2, w, new⟩]
  outs := al.Outs
  keepsFlags := false
  out rs := (rs.r (al .x0)).setWidth w
  ok rs := rs.r (al .r) == 0#32
  assumes rs := rs.r (al .r) = 0#32 ∨ rs.r (al .r) = 1#32

/-- l.625-666 -/
@[asm] def loaddBlock (e : Endian) (c : Conf) (al : Alloc (loaddKind c)) (f : Pairs) (po p : BitVec 32) :
    Block 32 64 where
  code := loaddAsm e c al f po
  args := [⟨al .src, 32, p⟩, ⟨al .out, 32, po⟩]
  outs := al.Outs
  out rs := join01 e 64 (rs.r (al .x0)) (rs.r (al .x3))

/-- l.667-715 -/
@[asm] def storedBlock (e : Endian) (c : Conf) (al : Alloc (storedKind c)) (f : Pairs × Pairs) (pv p : BitVec 32)
    (val : BitVec 64) : Block 32 64 where
  code := storedAsm e c al f pv
  args := [⟨al .dst, 32, p⟩, ⟨al .val, 32, pv⟩, ⟨al .x1, 32, word0 e 32 val⟩, ⟨al .x4, 32, word1 e 32 val⟩]
  outs := al.Outs
  keepsFlags := false

/-- l.716-774 -/
@[asm] def swapdBlock (e : Endian) (c : Conf) (al : Alloc (swapdKind c)) (f : Pairs × Pairs) (po pv p : BitVec 32)
    (val : BitVec 64) : Block 32 64 where
  code := swapdAsm e c al f po pv
  args := [⟨al .dst, 32, p⟩, ⟨al .val, 32, pv⟩, ⟨al .out, 32, po⟩, ⟨al .x1, 32, word0 e 32 val⟩,
    ⟨al .x4, 32, word1 e 32 val⟩]
  outs := al.Outs
  keepsFlags := false
  out rs := join01 e 64 (rs.r (al .x0)) (rs.r (al .x3))

/-- operands and results of the 64-bit compare_exchange blocks (l.775-964, l.965-1128) -/
@[asm] def casdFrame (e : Endian) (c : Conf) (al : Alloc (casdKind c)) (code : List (Instr 32))
    (po pold pnew p : BitVec 32) (old new : BitVec 64) : Block 32 64 where
  code := code
  args := [⟨al .dst, 32, p⟩, ⟨al .old, 32, pold⟩, ⟨al .new, 32, pnew⟩, ⟨al .out, 32, po⟩,
    ⟨al .x1, 32, word0 e 32 old⟩, ⟨al .x4, 32, word1 e 32 old⟩, ⟨al .x2, 32, word0 e 32 new⟩,
    ⟨al .x5, 32, word1 e 32 new⟩]
  outs := al.Outs
  keepsFlags := false
  out rs := join01 e 64 (rs.r (al .x0)) (rs.r (al .x3))
  ok rs := rs.r (al .r) == 0#32
  assumes rs := rs.r (al .r) = 0#32 ∨ rs.r (al .r) = 1#32

/-- `atomic_load` -/
inductive Load (e : Endian) (c : Conf) : Ordering → (w a : Nat) → Block 32 w → Prop
  | word (al) {o f w} (po p : BitVec 32) (hw : SubSize w ∨ w = 32) (hf : loadFence o = some f) :
      Load e c o w p.toNat (loadBlock c al w f po p)
  | dword (al) {o f} (po p : BitVec 32) (hf : loadFence o = some f) :
      Load e c o 64 p.toNat (loaddBlock e c al f po p)
/-- `atomic_store` -/
inductive Store (e : Endian) (c : Conf) : Ordering → (w a : Nat) → BitVec w → Block 32 w → Prop
  | word (al) {o f w} (pv p : BitVec 32) (val : BitVec w) (hw : SubSize w ∨ w = 32)
      (hf : storeFences o = some f) : Store e c o w p.toNat val (storeBlock c al w f pv p val)
  | dword (al) {o f} (pv p : BitVec 32) (val : BitVec 64) (hf : storeFences o = some f) :
      Store e c o 64 p.toNat val (storedBlock e c al f pv p val)
/-- `atomic_swap` -/
inductive Swap (e : Endian) (c : Conf) : Ordering → (w a : Nat) → BitVec w → Block 32 w → Prop
  | word (al o) {w} (po pv p : BitVec 32) (val : BitVec w) (hw : SubSize w ∨ w = 32) (hb : pv ≠ po) :
      Swap e c o w p.toNat val (swapBlock c al w (swapFences o) po pv p val)
  | dword (al o) (po pv p : BitVec 32) (val : BitVec 64) (hb : pv ≠ po) :
      Swap e c o 64 p.toNat val (swapdBlock e c al (swapFences o) po pv p val)
/-- `atomic_compare_exchange`; the orderings passed `assert_compare_exchange_ordering` (src/lib.rs
l.537-557) -/
inductive Cas (e : Endian) (c : Conf) :
    Ordering → Ordering → (w a : Nat) → BitVec w → BitVec w → Block 32 w → Prop
  | word (al) {s f w g} (po pold pnew p : BitVec 32) (old new : BitVec w) (hw : SubSize w ∨ w = 32)
      (hb : Distinct po pold pnew) (hv : assertCompareExchangeOrdering s f = .ok ()) (hg : casTable s f = some g) :
      Cas e c s f w p.toNat old new
        (casFrame c al w (casAsm c al w po pold pnew g) po pold pnew p old new)
  | dword (al) {s f g} (po pold pnew p : BitVec 32) (old new : BitVec 64)
      (hb : Distinct po pold pnew) (hv : assertCompareExchangeOrdering s f = .ok ()) (hg : casTable s f = some g) :
      Cas e c s f 64 p.toNat old new
        (casdFrame e c al (casdAsm e c al po pold pnew g) po pold pnew p old new)
/-- `atomic_compare_exchange_weak` -/
inductive CasWeak (e : Endian) (c : Conf) :
    Ordering → Ordering → (w a : Nat) → BitVec w → BitVec w → Block 32 w → Prop
  | word (al) {s f w g} (po pold pnew p : BitVec 32) (old new : BitVec w) (hw : SubSize w ∨ w = 32)
      (hb : Distinct po pold pnew) (hv : assertCompareExchangeOrdering s f = .ok ()) (hg : weakTable s f = some g) :
      CasWeak e c s f w p.toNat old new
        (casFrame c al w (weakAsm c al w po pold pnew g) po pold pnew p old new)
  | dword (al) {s f g} (po pold pnew p : BitVec 32) (old new : BitVec 64)
      (hb : Distinct po pold pnew) (hv : assertCompareExchangeOrdering s f = .ok ()) (hg : weakTable s f = some g) :
      CasWeak e c s f 64 p.toNat old new
        (casdFrame e c al (weakdAsm e c al po pold pnew g) po pold pnew p old new)

/-- The Armv6/v7 back end for old compilers. -/
def backend (e : Endian) (c : Conf) : Backend 32 where
  e := e
  imp := Pairs.none
  Load := Load e c
  Store := Store e c
  Swap := Swap e c
  Cas := Cas e c
  CasWeak := CasWeak e c

end Verif.LegacyArm
