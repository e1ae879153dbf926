/-
src/arch_legacy/aarch64.rs: AArch64 (compilers without `MaybeUninit` asm operands).

Values are passed through private buffers (Core/Private.lean): `.x0` is the content of `out`, `.x1` of `val` / `old`,
`.x2` of `new`; of 128-bit buffers `.x0`, `.x1`, `.x2` are the words at the buffer's address and `.x3`, `.x4`, `.x5` the
following words. Mnemonics, features and `atomic_rmw!` (l.40-59, the same text) are those of Arch/AArch64.lean.
Simplification: pointers are 64 bits, as there.
-/
import Verif.Arch.AArch64
import Verif.Core.Private

namespace Verif.LegacyAArch64
open AArch64 (Conf Acq RO LdProg StProg ldr str ldx stx swp cas mov movx cmpx ccmpEq csetEq csetNe cincNe mov1 cbnz cbz bne
  b ldp stp swpp casp ldxp ldxpz stxp lo ow dmbIsh dmbIshld ldarPairs noFence rmwOrd loadOrd storeOrd WSize)

/-! ### Mnemonics -/

/-- `ldr{b,h,} rd, [ra]` from a private buffer (zero-extending). -/
@[asm] def ldrp (cs : List (Cell 64)) (w rd ra : Nat) : Instr 64 := ldPriv cs w (·.setWidth 64) rd ra
/-- `cmp a, b` with the operand width of a `w`-bit access (no extension of `b`). -/
@[asm] def cmpw (w a b : Nat) : Instr 64 := .op fun _ s => s.setZ (lo (ow w) (s.r a) == lo (ow w) (s.r b))

/-! ### Ordering tables of the 128-bit loads and stores (`none` = `unreachable!()`) -/

/-- l.465-505 (LSE2), l.551-556. -/
def load128 (c : Conf) (o : Ordering) : Option LdProg :=
  if c.lse2 then
    match o with
    | .relaxed => some (.ldp .no noFence)
    | .acquire => some (if c.rcpc3 then .ldp .pc noFence else .ldp .no dmbIshld)
    | .seqCst => some (.ldar .no dmbIshld)
    | _ => none
  else
    let k := if c.lse then LdProg.casp else LdProg.ldxp
    match o with
    | .relaxed => some (k false false)
    | .acquire => some (k true false)
    | .seqCst => some (k true true)
    | _ => none
/-- l.618-647 (LSE2), l.675. -/
def store128 (c : Conf) (o : Ordering) : Option StProg :=
  if c.lse2 then
    match o with
    | .relaxed => some (.stp false noFence noFence)
    | .release => some (if c.rcpc3 then .stp true noFence noFence
        else if c.lse128 then .swpp (rmwOrd c o o) else .stp false noFence dmbIsh)
    | .seqCst => some (if c.lse128 then .swpp (rmwOrd c o o) else .stp false dmbIsh dmbIsh)
    | _ => none
  else some (.stxp (rmwOrd c o o))

/-! ### asm! blocks for 8 to 64 bits -/

/-- operands of l.82-84, l.99-101 -/
@[asm] def loadKind : Op → Kind
  | .src => .inp | .out => .inout | .tmp => .lateout | .x0 => .inout | _ => .unused
/-- l.77-86 `atomic_load!`, l.94-103 (ldapr). -/
@[asm] def loadAsm (al : Op → Nat) (w : Nat) (o : Acq) (po : BitVec 64) : List (Instr 64) := [
    ldr w (al .tmp) (al .src) o,
    stPriv ⟨po, al .x0⟩ w (al .tmp) (al .out) ]
/-- operands of l.134-136 -/
@[asm] def storeKind : Op → Kind
  | .dst => .inout | .val => .inp | .tmp => .lateout | .x1 => .inout | _ => .unused
/-- l.128-138 `atomic_store!`. -/
@[asm] def storeAsm (al : Op → Nat) (w : Nat) (o : Bool × Pairs) (pv : BitVec 64) : List (Instr 64) := [
    ldrp [⟨pv, al .x1⟩] w (al .tmp) (al .val),
    str w (al .tmp) (al .dst) o.1,
    .fence o.2 ]
/-- operands of l.185-188 -/
@[asm] def swpKind : Op → Kind
  | .dst => .inout | .val => .inp | .out => .inout | .tmp => .lateout | .x0 => .inout | .x1 => .inout | _ => .unused
/-- l.173-190 `swap!` (LSE). -/
@[asm] def swpAsm (al : Op → Nat) (w : Nat) (o : RO) (po pv : BitVec 64) : List (Instr 64) := [
    ldrp [⟨po, al .x0⟩, ⟨pv, al .x1⟩] w (al .tmp) (al .val),
    swp w (al .tmp) (al .tmp) (al .dst) o.acq o.rel,
    .fence o.fence,
    stPriv ⟨po, al .x0⟩ w (al .tmp) (al .out) ]
/-- operands of l.210-215 (`val_tmp` = tmp2, `out_tmp` = tmp) -/
@[asm] def swapKind : Op → Kind
  | .dst => .inout | .val => .inp | .tmp2 => .out | .out => .inout | .tmp => .out | .r => .lateout
  | .x0 => .inout | .x1 => .inout | _ => .unused
/-- l.196-217 `swap!`. -/
@[asm] def swapAsm (al : Op → Nat) (w : Nat) (o : RO) (po pv : BitVec 64) : List (Instr 64) := [
    ldrp [⟨po, al .x0⟩, ⟨pv, al .x1⟩] w (al .tmp2) (al .val),
    /- 2: -/ ldx w (al .tmp) (al .dst) o.acq,
    stx w (al .r) (al .tmp2) (al .dst) o.rel,
    cbnz (al .r) 1,
    .fence o.fence,
    stPriv ⟨po, al .x0⟩ w (al .tmp) (al .out) ]

/-- The private buffers of compare_exchange. -/
@[asm] def casCells (al : Op → Nat) (po pold pnew : BitVec 64) : List (Cell 64) :=
  [⟨po, al .x0⟩, ⟨pold, al .x1⟩, ⟨pnew, al .x2⟩]
/-- operands of l.265-272, l.303-310, l.363-370 (`old_tmp` = old_lo, `new_tmp` = new_lo, `out_tmp` = tmp) -/
@[asm] def casKind : Op → Kind
  | .dst => .inout | .old => .inp | .old_lo => .out | .new => .inp | .new_lo => .out | .out => .inout | .tmp => .out
  | .r => .lateout | .x0 => .inout | .x1 => .inout | .x2 => .inout | _ => .unused
/-- l.247-275 `cmpxchg!` (LSE). -/
@[asm] def casLseAsm (al : Op → Nat) (w : Nat) (o : RO) (po pold pnew : BitVec 64) : List (Instr 64) := [
    ldrp (casCells al po pold pnew) w (al .old_lo) (al .old),
    ldrp (casCells al po pold pnew) w (al .new_lo) (al .new),
    mov w (al .tmp) (al .old_lo),
    cas w (al .tmp) (al .new_lo) (al .dst) o.acq o.rel,
    .fence o.fence,
    cmpw w (al .tmp) (al .old_lo),
    stPriv ⟨po, al .x0⟩ w (al .tmp) (al .out),
    csetEq (al .r) ]
/-- l.283-312 `cmpxchg!`. -/
@[asm] def casAsm (al : Op → Nat) (w : Nat) (o : RO) (po pold pnew : BitVec 64) : List (Instr 64) := [
    ldrp (casCells al po pold pnew) w (al .new_lo) (al .new),
    ldrp (casCells al po pold pnew) w (al .old_lo) (al .old),
    /- 2: -/ ldx w (al .tmp) (al .dst) o.acq,
    cmpw w (al .tmp) (al .old_lo),
    bne 9,
    stx w (al .r) (al .new_lo) (al .dst) o.rel,
    cbnz (al .r) 2,
    .fence o.fence,
    b 11,
    /- 3: -/ mov1 (al .r),
    .clrex,
    /- 4: -/ stPriv ⟨po, al .x0⟩ w (al .tmp) (al .out) ]
/-- l.343-375 `cmpxchg_weak!`. -/
@[asm] def weakAsm (al : Op → Nat) (w : Nat) (o : RO) (po pold pnew : BitVec 64) : List (Instr 64) := [
    ldrp (casCells al po pold pnew) w (al .new_lo) (al .new),
    ldrp (casCells al po pold pnew) w (al .old_lo) (al .old),
    ldx w (al .tmp) (al .dst) o.acq,
    cmpw w (al .tmp) (al .old_lo),
    bne 8,
    stx w (al .r) (al .new_lo) (al .dst) o.rel,
    .fence o.fence,
    b 10,
    /- 3: -/ mov1 (al .r),
    .clrex,
    /- 4: -/ stPriv ⟨po, al .x0⟩ w (al .tmp) (al .out) ]

/-! ### asm! blocks for 128 bits -/

/-- operands of l.458-461, l.477-480 -/
@[asm] def ldpKind : Op → Kind
  | .src => .inp | .out => .inp | .tmp_lo => .out | .tmp_hi => .out | .x0 => .inout | .x3 => .inout | _ => .unused
/-- l.452-463 `atomic_load_relaxed!`, l.472-482 (ldiapp). -/
@[asm] def ldpAsm (e : Endian) (al : Op → Nat) (a : Acq) (f : Pairs) (po : BitVec 64) : List (Instr 64) := [
    ldp e (al .tmp_lo) (al .tmp_hi) (al .src) a,
    .fence f,
    stPriv2 ⟨po, al .x0, al .x3⟩ (al .tmp_lo) (al .tmp_hi) (al .out) ]
/-- operands of l.496-500 -/
@[asm] def ldarKind : Op → Kind
  | .src => .inp | .out => .inp | .tmp_lo => .out | .tmp_hi => .out | .tmp => .out | .x0 => .inout | .x3 => .inout
  | _ => .unused
/-- l.487-502. The second entry is the effect of `ldar` on the order of other accesses. -/
@[asm] def ldarAsm (e : Endian) (al : Op → Nat) (a : Acq) (f : Pairs) (po : BitVec 64) : List (Instr 64) := [
    ldr 64 (al .tmp) (al .src) .sc,
    .fence ldarPairs,
    ldp e (al .tmp_lo) (al .tmp_hi) (al .src) a,
    .fence f,
    stPriv2 ⟨po, al .x0, al .x3⟩ (al .tmp_lo) (al .tmp_hi) (al .out) ]
/-- operands of l.521-525 (tmp_lo = x2, tmp_hi = x3) -/
@[asm] def ldcaspKind : Op → Kind
  | .src => .inp | .out => .inp | .tmp_lo => .inout | .tmp_hi => .inout | .x0 => .inout | .x3 => .inout | _ => .unused
/-- l.513-526 `atomic_load!` (LSE). -/
@[asm] def ldcaspAsm (e : Endian) (al : Op → Nat) (a l : Bool) (po : BitVec 64) : List (Instr 64) := [
    casp e (al .tmp_lo) (al .tmp_hi) (al .tmp_lo) (al .tmp_hi) (al .src) a l,
    stPriv2 ⟨po, al .x0, al .x3⟩ (al .tmp_lo) (al .tmp_hi) (al .out) ]
/-- operands of l.544-548 -/
@[asm] def ldxpKind : Op → Kind
  | .src => .inp | .out => .inp | .tmp_lo => .out | .tmp_hi => .out | .r => .out | .x0 => .inout | .x3 => .inout
  | _ => .unused
/-- l.533-550 `atomic_load!`. -/
@[asm] def ldxpAsm (e : Endian) (al : Op → Nat) (a l : Bool) (po : BitVec 64) : List (Instr 64) := [
    /- 2: -/ ldxp e (al .tmp_lo) (al .tmp_hi) (al .src) a,
    stxp e (al .r) (al .tmp_lo) (al .tmp_hi) (al .src) l,
    cbnz (al .r) 0,
    stPriv2 ⟨po, al .x0, al .x3⟩ (al .tmp_lo) (al .tmp_hi) (al .out) ]
/-- operands of l.591-594, l.629-632, l.610-613 -/
@[asm] def stpKind : Op → Kind
  | .dst => .inp | .val => .inp | .val_lo => .out | .val_hi => .out | .x1 => .inout | .x4 => .inout | _ => .unused
/-- l.584-596 `atomic_store!`, l.624-634 (stilp). -/
@[asm] def stpAsm (e : Endian) (al : Op → Nat) (il : Bool) (acq rel : Pairs) (pv : BitVec 64) : List (Instr 64) := [
    ldPriv2 [⟨pv, al .x1, al .x4⟩] (al .val_lo) (al .val_hi) (al .val),
    .fence rel,
    stp e (al .val_lo) (al .val_hi) (al .dst) il,
    .fence acq ]
/-- l.604-615 `atomic_store_swpp!`. -/
@[asm] def stswppAsm (e : Endian) (al : Op → Nat) (o : RO) (pv : BitVec 64) : List (Instr 64) := [
    ldPriv2 [⟨pv, al .x1, al .x4⟩] (al .val_lo) (al .val_hi) (al .val),
    swpp e (al .val_lo) (al .val_hi) (al .dst) o.acq o.rel,
    .fence o.fence ]
/-- operands of l.666-670 -/
@[asm] def stxpKind : Op → Kind
  | .dst => .inout | .val => .inp | .val_lo => .out | .val_hi => .out | .tmp => .lateout | .x1 => .inout | .x4 => .inout
  | _ => .unused
/-- l.654-672 `store!`. -/
@[asm] def stxpAsm (e : Endian) (al : Op → Nat) (o : RO) (pv : BitVec 64) : List (Instr 64) := [
    ldPriv2 [⟨pv, al .x1, al .x4⟩] (al .val_lo) (al .val_hi) (al .val),
    /- 2: -/ ldxpz e (al .tmp) (al .dst) o.acq,
    stxp e (al .tmp) (al .val_lo) (al .val_hi) (al .dst) o.rel,
    cbnz (al .tmp) 1,
    .fence o.fence ]
/-- operands of l.704-708 -/
@[asm] def swppKind : Op → Kind
  | .dst => .inp | .val => .inp | .out => .inp | .val_lo => .out | .val_hi => .out
  | .x0 => .inout | .x3 => .inout | .x1 => .inout | .x4 => .inout | _ => .unused
/-- l.696-710 `swap!` (LSE128). -/
@[asm] def swppAsm (e : Endian) (al : Op → Nat) (o : RO) (po pv : BitVec 64) : List (Instr 64) := [
    ldPriv2 [⟨po, al .x0, al .x3⟩, ⟨pv, al .x1, al .x4⟩] (al .val_lo) (al .val_hi) (al .val),
    swpp e (al .val_lo) (al .val_hi) (al .dst) o.acq o.rel,
    .fence o.fence,
    stPriv2 ⟨po, al .x0, al .x3⟩ (al .val_lo) (al .val_hi) (al .out) ]
/-- operands of l.730-737 -/
@[asm] def swapxKind : Op → Kind
  | .dst => .inout | .val => .inp | .out => .inout | .val_lo => .out | .val_hi => .out | .out_lo => .out | .out_hi => .out
  | .r => .lateout | .x0 => .inout | .x3 => .inout | .x1 => .inout | .x4 => .inout | _ => .unused
/-- l.716-739 `swap!`. -/
@[asm] def swapxAsm (e : Endian) (al : Op → Nat) (o : RO) (po pv : BitVec 64) : List (Instr 64) := [
    ldPriv2 [⟨po, al .x0, al .x3⟩, ⟨pv, al .x1, al .x4⟩] (al .val_lo) (al .val_hi) (al .val),
    /- 2: -/ ldxp e (al .out_lo) (al .out_hi) (al .dst) o.acq,
    stxp e (al .r) (al .val_lo) (al .val_hi) (al .dst) o.rel,
    cbnz (al .r) 1,
    .fence o.fence,
    stPriv2 ⟨po, al .x0, al .x3⟩ (al .out_lo) (al .out_hi) (al .out) ]

/-- The private 128-bit buffers of compare_exchange. -/
@[asm] def casxCells (al : Op → Nat) (po pold pnew : BitVec 64) : List (Cell2 64) :=
  [⟨po, al .x0, al .x3⟩, ⟨pold, al .x1, al .x4⟩, ⟨pnew, al .x2, al .x5⟩]
/-- operands of l.787-799 (x4/x5 = new_lo/new_hi, x8/x9 = prev_lo/prev_hi) -/
@[asm] def caspKind : Op → Kind
  | .dst => .inp | .old => .inp | .new => .inp | .out => .inout | .old_lo => .out | .old_hi => .out | .r => .lateout
  | .new_lo => .out | .new_hi => .out | .prev_lo => .out | .prev_hi => .out
  | .x0 => .inout | .x3 => .inout | .x1 => .inout | .x4 => .inout | .x2 => .inout | .x5 => .inout | _ => .unused
/-- l.769-802 `cmpxchg!` (LSE). -/
@[asm] def caspAsm (e : Endian) (al : Op → Nat) (o : RO) (po pold pnew : BitVec 64) : List (Instr 64) := [
    ldPriv2 (casxCells al po pold pnew) (al .old_lo) (al .old_hi) (al .old),
    ldPriv2 (casxCells al po pold pnew) (al .new_lo) (al .new_hi) (al .new),
    movx (al .prev_lo) (al .old_lo),
    movx (al .prev_hi) (al .old_hi),
    casp e (al .prev_lo) (al .prev_hi) (al .new_lo) (al .new_hi) (al .dst) o.acq o.rel,
    .fence o.fence,
    cmpx (al .prev_lo) (al .old_lo),
    ccmpEq (al .prev_hi) (al .old_hi),
    csetEq (al .r),
    stPriv2 ⟨po, al .x0, al .x3⟩ (al .prev_lo) (al .prev_hi) (al .out) ]
/-- operands of l.835-845 -/
@[asm] def casxKind : Op → Kind
  | .dst => .inout | .old => .inp | .old_lo => .out | .old_hi => .out | .new => .inp | .new_lo => .out | .new_hi => .out
  | .out => .inout | .out_lo => .out | .out_hi => .out | .r => .lateout
  | .x0 => .inout | .x3 => .inout | .x1 => .inout | .x4 => .inout | .x2 => .inout | .x5 => .inout | _ => .unused
/-- l.810-848 `cmpxchg!`. -/
@[asm] def casxAsm (e : Endian) (al : Op → Nat) (o : RO) (po pold pnew : BitVec 64) : List (Instr 64) := [
    ldPriv2 (casxCells al po pold pnew) (al .new_lo) (al .new_hi) (al .new),
    ldPriv2 (casxCells al po pold pnew) (al .old_lo) (al .old_hi) (al .old),
    /- 2: -/ ldxp e (al .out_lo) (al .out_hi) (al .dst) o.acq,
    cmpx (al .out_lo) (al .old_lo),
    csetNe (al .r),
    cmpx (al .out_hi) (al .old_hi),
    cincNe (al .r) (al .r),
    cbz (al .r) 12,
    stxp e (al .r) (al .out_lo) (al .out_hi) (al .dst) o.rel,
    cbnz (al .r) 2,
    mov1 (al .r),
    b 14,
    /- 3: -/ stxp e (al .r) (al .new_lo) (al .new_hi) (al .dst) o.rel,
    cbnz (al .r) 2,
    /- 4: -/ .fence o.fence,
    stPriv2 ⟨po, al .x0, al .x3⟩ (al .out_lo) (al .out_hi) (al .out) ]

/-! ### Blocks and back end -/

/-- l.64-114 -/
@[asm] def loadBlock (al : Alloc loadKind) (w : Nat) (o : Acq) (po p : BitVec 64) : Block 64 w where
  code := loadAsm al w o po
  args := [⟨al .src, 64, p⟩, ⟨al .out, 64, po⟩]
  outs := al.Outs
  out rs := (rs.r (al .x0)).setWidth w
/-- l.115-155 -/
@[asm] def storeBlock (al : Alloc storeKind) (w : Nat) (o : Bool × Pairs) (pv p : BitVec 64) (val : BitVec w) :
    Block 64 w where
  code := storeAsm al w o pv
  args := [⟨al .dst, 64, p⟩, ⟨al .val, 64, pv⟩, ⟨al .x1, w, val⟩]
  outs := al.Outs
/-- l.156-224 (LSE) -/
@[asm] def swpBlock (al : Alloc swpKind) (w : Nat) (o : RO) (po pv p : BitVec 64) (val : BitVec w) :
    Block 64 w where
  code := swpAsm al w o po pv
  args := [⟨al .dst, 64, p⟩, ⟨al .val, 64, pv⟩, ⟨al .out, 64, po⟩, ⟨al .x1, w, val⟩]
  outs := al.Outs
  out rs := (rs.r (al .x0)).setWidth w
/-- l.156-224 -/
@[asm] def swapBlock (al : Alloc swapKind) (w : Nat) (o : RO) (po pv p : BitVec 64) (val : BitVec w) :
    Block 64 w where
  code := swapAsm al w o po pv
  args := [⟨al .dst, 64, p⟩, ⟨al .val, 64, pv⟩, ⟨al .out, 64, po⟩, ⟨al .x1, w, val⟩]
  outs := al.Outs
  out rs := (rs.r (al .x0)).setWidth w
/-- l.225-278 (LSE) -/
@[asm] def casLseBlock (al : Alloc casKind) (w : Nat) (o : RO) (po pold pnew p : BitVec 64) (old new : BitVec w) :
    Block 64 w where
  code := casLseAsm al w o po pold pnew
  args := [⟨al .dst, 64, p⟩, ⟨al .old, 64, pold⟩, ⟨al .new, 64, pnew⟩, ⟨al .out, 64, po⟩, ⟨al .x1, w, old⟩,
    ⟨al .x2, w, new⟩]
  outs := al.Outs
  keepsFlags := false
  out rs := (rs.r (al .x0)).setWidth w
  ok rs := !((rs.r (al .r)).setWidth 32 == 0#32)
  assumes rs := (rs.r (al .r)).setWidth 32 = 0#32 ∨ (rs.r (al .r)).setWidth 32 = 1#32
/-- l.225-320 -/
@[asm] def casBlock (al : Alloc casKind) (w : Nat) (o : RO) (po pold pnew p : BitVec 64) (old new : BitVec w) :
    Block 64 w where
  code := casAsm al w o po pold pnew
  args := [⟨al .dst, 64, p⟩, ⟨al .old, 64, pold⟩, ⟨al .new, 64, pnew⟩, ⟨al .out, 64, po⟩, ⟨al .x1, w, old⟩,
    ⟨al .x2, w, new⟩]
  outs := al.Outs
  keepsFlags := false
  out rs := (rs.r (al .x0)).setWidth w
  ok rs := (rs.r (al .r)).setWidth 32 == 0#32
  assumes rs := (rs.r (al .r)).setWidth 32 = 0#32 ∨ (rs.r (al .r)).setWidth 32 = 1#32
/-- l.321-384 -/
@[asm] def weakBlock (al : Alloc casKind) (w : Nat) (o : RO) (po pold pnew p : BitVec 64) (old new : BitVec w) :
    Block 64 w where
  code := weakAsm al w o po pold pnew
  args := [⟨al .dst, 64, p⟩, ⟨al .old, 64, pold⟩, ⟨al .new, 64, pnew⟩, ⟨al .out, 64, po⟩, ⟨al .x1, w, old⟩,
    ⟨al .x2, w, new⟩]
  outs := al.Outs
  keepsFlags := false
  out rs := (rs.r (al .x0)).setWidth w
  ok rs := (rs.r (al .r)).setWidth 32 == 0#32
  assumes rs := (rs.r (al .r)).setWidth 32 = 0#32 ∨ (rs.r (al .r)).setWidth 32 = 1#32

/-- l.431-505 -/
@[asm] def ldpBlock (e : Endian) (al : Alloc ldpKind) (a : Acq) (f : Pairs) (po p : BitVec 64) : Block 64 128 where
  code := ldpAsm e al a f po
  args := [⟨al .src, 64, p⟩, ⟨al .out, 64, po⟩]
  outs := al.Outs
  out rs := join01 e 128 (rs.r (al .x0)) (rs.r (al .x3))
/-- l.431-505 (SeqCst) -/
@[asm] def ldarBlock (e : Endian) (al : Alloc ldarKind) (a : Acq) (f : Pairs) (po p : BitVec 64) : Block 64 128 where
  code := ldarAsm e al a f po
  args := [⟨al .src, 64, p⟩, ⟨al .out, 64, po⟩]
  outs := al.Outs
  out rs := join01 e 128 (rs.r (al .x0)) (rs.r (al .x3))
/-- l.506-560 (LSE) -/
@[asm] def ldcaspBlock (e : Endian) (al : Alloc ldcaspKind) (a l : Bool) (po p : BitVec 64) : Block 64 128 where
  code := ldcaspAsm e al a l po
  args := [⟨al .src, 64, p⟩, ⟨al .out, 64, po⟩, ⟨al .tmp_lo, 64, 0#64⟩, ⟨al .tmp_hi, 64, 0#64⟩]
  outs := al.Outs
  out rs := join01 e 128 (rs.r (al .x0)) (rs.r (al .x3))
/-- l.506-560 -/
@[asm] def ldxpBlock (e : Endian) (al : Alloc ldxpKind) (a l : Bool) (po p : BitVec 64) : Block 64 128 where
  code := ldxpAsm e al a l po
  args := [⟨al .src, 64, p⟩, ⟨al .out, 64, po⟩]
  outs := al.Outs
  out rs := join01 e 128 (rs.r (al .x0)) (rs.r (al .x3))
/-- l.561-648 -/
@[asm] def stpBlock (e : Endian) (al : Alloc stpKind) (il : Bool) (acq rel : Pairs) (pv p : BitVec 64)
    (val : BitVec 128) : Block 64 128 where
  code := stpAsm e al il acq rel pv
  args := [⟨al .dst, 64, p⟩, ⟨al .val, 64, pv⟩, ⟨al .x1, 64, word0 e 64 val⟩, ⟨al .x4, 64, word1 e 64 val⟩]
  outs := al.Outs
/-- l.601-617 -/
@[asm] def stswppBlock (e : Endian) (al : Alloc stpKind) (o : RO) (pv p : BitVec 64) (val : BitVec 128) :
    Block 64 128 where
  code := stswppAsm e al o pv
  args := [⟨al .dst, 64, p⟩, ⟨al .val, 64, pv⟩, ⟨al .x1, 64, word0 e 64 val⟩, ⟨al .x4, 64, word1 e 64 val⟩]
  outs := al.Outs
/-- l.649-677 -/
@[asm] def stxpBlock (e : Endian) (al : Alloc stxpKind) (o : RO) (pv p : BitVec 64) (val : BitVec 128) :
    Block 64 128 where
  code := stxpAsm e al o pv
  args := [⟨al .dst, 64, p⟩, ⟨al .val, 64, pv⟩, ⟨al .x1, 64, word0 e 64 val⟩, ⟨al .x4, 64, word1 e 64 val⟩]
  outs := al.Outs
/-- l.679-746 (LSE128) -/
@[asm] def swppBlock (e : Endian) (al : Alloc swppKind) (o : RO) (po pv p : BitVec 64) (val : BitVec 128) :
    Block 64 128 where
  code := swppAsm e al o po pv
  args := [⟨al .dst, 64, p⟩, ⟨al .val, 64, pv⟩, ⟨al .out, 64, po⟩, ⟨al .x1, 64, word0 e 64 val⟩,
    ⟨al .x4, 64, word1 e 64 val⟩]
  outs := al.Outs
  out rs := join01 e 128 (rs.r (al .x0)) (rs.r (al .x3))
/-- l.679-746 -/
@[asm] def swapxBlock (e : Endian) (al : Alloc swapxKind) (o : RO) (po pv p : BitVec 64) (val : BitVec 128) :
    Block 64 128 where
  code := swapxAsm e al o po pv
  args := [⟨al .dst, 64, p⟩, ⟨al .val, 64, pv⟩, ⟨al .out, 64, po⟩, ⟨al .x1, 64, word0 e 64 val⟩,
    ⟨al .x4, 64, word1 e 64 val⟩]
  outs := al.Outs
  out rs := join01 e 128 (rs.r (al .x0)) (rs.r (al .x3))
/-- l.747-805 (LSE) -/
@[asm] def caspBlock (e : Endian) (al : Alloc caspKind) (o : RO) (po pold pnew p : BitVec 64) (old new : BitVec 128) :
    Block 64 128 where
  code := caspAsm e al o po pold pnew
  args := [⟨al .dst, 64, p⟩, ⟨al .old, 64, pold⟩, ⟨al .new, 64, pnew⟩, ⟨al .out, 64, po⟩,
    ⟨al .x1, 64, word0 e 64 old⟩, ⟨al .x4, 64, word1 e 64 old⟩, ⟨al .x2, 64, word0 e 64 new⟩,
    ⟨al .x5, 64, word1 e 64 new⟩]
  outs := al.Outs
  keepsFlags := false
  out rs := join01 e 128 (rs.r (al .x0)) (rs.r (al .x3))
  ok rs := !((rs.r (al .r)).setWidth 32 == 0#32)
  assumes rs := (rs.r (al .r)).setWidth 32 = 0#32 ∨ (rs.r (al .r)).setWidth 32 = 1#32
/-- l.747-857 -/
@[asm] def casxBlock (e : Endian) (al : Alloc casxKind) (o : RO) (po pold pnew p : BitVec 64) (old new : BitVec 128) :
    Block 64 128 where
  code := casxAsm e al o po pold pnew
  args := [⟨al .dst, 64, p⟩, ⟨al .old, 64, pold⟩, ⟨al .new, 64, pnew⟩, ⟨al .out, 64, po⟩,
    ⟨al .x1, 64, word0 e 64 old⟩, ⟨al .x4, 64, word1 e 64 old⟩, ⟨al .x2, 64, word0 e 64 new⟩,
    ⟨al .x5, 64, word1 e 64 new⟩]
  outs := al.Outs
  keepsFlags := false
  out rs := join01 e 128 (rs.r (al .x0)) (rs.r (al .x3))
  ok rs := (rs.r (al .r)).setWidth 32 == 0#32
  assumes rs := (rs.r (al .r)).setWidth 32 = 0#32 ∨ (rs.r (al .r)).setWidth 32 = 1#32

/-- `atomic_load` -/
inductive Load (e : Endian) (c : Conf) : Ordering → (w a : Nat) → Block 64 w → Prop
  | word (al) {o f w} (po p : BitVec 64) (hw : WSize w) (hf : loadOrd c o = some f) :
      Load e c o w p.toNat (loadBlock al w f po p)
  | ldp (al) {o a f} (po p : BitVec 64) (hf : load128 c o = some (.ldp a f)) :
      Load e c o 128 p.toNat (ldpBlock e al a f po p)
  | ldar (al) {o a f} (po p : BitVec 64) (hf : load128 c o = some (.ldar a f)) :
      Load e c o 128 p.toNat (ldarBlock e al a f po p)
  | casp (al) {o a l} (po p : BitVec 64) (hf : load128 c o = some (.casp a l)) :
      Load e c o 128 p.toNat (ldcaspBlock e al a l po p)
  | ldxp (al) {o a l} (po p : BitVec 64) (hf : load128 c o = some (.ldxp a l)) :
      Load e c o 128 p.toNat (ldxpBlock e al a l po p)
/-- `atomic_store`; the ordering passed `assert_store_ordering` (src/lib.rs l.330-339). -/
inductive Store (e : Endian) (c : Conf) : Ordering → (w a : Nat) → BitVec w → Block 64 w → Prop
  | word (al) {o f w} (pv p : BitVec 64) (val : BitVec w) (hw : WSize w)
      (hf : storeOrd c o = some f) : Store e c o w p.toNat val (storeBlock al w f pv p val)
  | stp (al) {o il acq rel} (pv p : BitVec 64) (val : BitVec 128) (hv : assertStoreOrdering o = .ok ())
      (hf : store128 c o = some (.stp il acq rel)) :
      Store e c o 128 p.toNat val (stpBlock e al il acq rel pv p val)
  | swpp (al) {o r} (pv p : BitVec 64) (val : BitVec 128) (hv : assertStoreOrdering o = .ok ())
      (hf : store128 c o = some (.swpp r)) :
      Store e c o 128 p.toNat val (stswppBlock e al r pv p val)
  | stxp (al) {o r} (pv p : BitVec 64) (val : BitVec 128) (hv : assertStoreOrdering o = .ok ())
      (hf : store128 c o = some (.stxp r)) :
      Store e c o 128 p.toNat val (stxpBlock e al r pv p val)
/-- `atomic_swap`; the private buffers are different objects -/
inductive Swap (e : Endian) (c : Conf) : Ordering → (w a : Nat) → BitVec w → Block 64 w → Prop
  | swp (al o) {w} (hc : c.lse = true) (po pv p : BitVec 64) (val : BitVec w) (hw : WSize w) (hd : pv ≠ po) :
      Swap e c o w p.toNat val (swpBlock al w (rmwOrd c o o) po pv p val)
  | word (al o) {w} (hc : c.lse = false) (po pv p : BitVec 64) (val : BitVec w) (hw : WSize w) (hd : pv ≠ po) :
      Swap e c o w p.toNat val (swapBlock al w (rmwOrd c o o) po pv p val)
  | swpp (al o) (hc : c.lse128 = true) (po pv p : BitVec 64) (val : BitVec 128) (hd : pv ≠ po) :
      Swap e c o 128 p.toNat val (swppBlock e al (rmwOrd c o o) po pv p val)
  | ldxp (al o) (hc : c.lse128 = false) (po pv p : BitVec 64) (val : BitVec 128) (hd : pv ≠ po) :
      Swap e c o 128 p.toNat val (swapxBlock e al (rmwOrd c o o) po pv p val)
/-- `atomic_compare_exchange`; the orderings passed `assert_compare_exchange_ordering` (src/lib.rs
l.537-557) and are combined by `upgrade_success_ordering` (l.235, l.757); `write = success` (l.317, l.854) -/
inductive Cas (e : Endian) (c : Conf) :
    Ordering → Ordering → (w a : Nat) → BitVec w → BitVec w → Block 64 w → Prop
  | lse (al) {s f w} (hc : c.lse = true) (po pold pnew p : BitVec 64) (old new : BitVec w) (hw : WSize w)
      (hd : Distinct po pold pnew) (hv : assertCompareExchangeOrdering s f = .ok ()) :
      Cas e c s f w p.toNat old new
        (casLseBlock al w (rmwOrd c (upgradeSuccessOrdering s f) s) po pold pnew p old new)
  | word (al) {s f w} (hc : c.lse = false) (po pold pnew p : BitVec 64) (old new : BitVec w) (hw : WSize w)
      (hd : Distinct po pold pnew) (hv : assertCompareExchangeOrdering s f = .ok ()) :
      Cas e c s f w p.toNat old new (casBlock al w (rmwOrd c (upgradeSuccessOrdering s f) s) po pold pnew p old new)
  | casp (al) {s f} (hc : c.lse = true) (po pold pnew p : BitVec 64) (old new : BitVec 128)
      (hd : Distinct po pold pnew) (hv : assertCompareExchangeOrdering s f = .ok ()) :
      Cas e c s f 128 p.toNat old new (caspBlock e al (rmwOrd c (upgradeSuccessOrdering s f) s) po pold pnew p old new)
  | ldxp (al) {s f} (hc : c.lse = false) (po pold pnew p : BitVec 64) (old new : BitVec 128)
      (hd : Distinct po pold pnew) (hv : assertCompareExchangeOrdering s f = .ok ()) :
      Cas e c s f 128 p.toNat old new (casxBlock e al (rmwOrd c (upgradeSuccessOrdering s f) s) po pold pnew p old new)
/-- `atomic_compare_exchange_weak` (l.321-384; otherwise the default of src/raw.rs, which calls the strong
one) -/
inductive CasWeak (e : Endian) (c : Conf) :
    Ordering → Ordering → (w a : Nat) → BitVec w → BitVec w → Block 64 w → Prop
  | word (al) {s f w} (hc : c.lse = false) (po pold pnew p : BitVec 64) (old new : BitVec w) (hw : WSize w)
      (hd : Distinct po pold pnew) (hv : assertCompareExchangeOrdering s f = .ok ()) :
      CasWeak e c s f w p.toNat old new
        (weakBlock al w (rmwOrd c (upgradeSuccessOrdering s f) s) po pold pnew p old new)
  | strong {s f w a old new B} (hc : c.lse = true ∨ w = 128) (h : Cas e c s f w a old new B) :
      CasWeak e c s f w a old new B

/-- The AArch64 back end for old compilers. -/
def backend (e : Endian) (c : Conf) : Backend 64 where
  e := e
  imp := Pairs.none
  Load := Load e c
  Store := Store e c
  Swap := Swap e c
  Cas := Cas e c
  CasWeak := CasWeak e c

end Verif.LegacyAArch64
