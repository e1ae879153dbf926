/-
src/arch_legacy/arm_linux.rs: pre-v6 Arm Linux/Android (compilers without `MaybeUninit` asm operands).

Mnemonics, kernel helpers and their contract are those of Arch/ArmLinux.lean. Unlike src/arch/arm_linux.rs this file
does not look at the carry flag but at r0, which the helpers set to 0 if they have stored and to a nonzero value
otherwise (kernel_user_helpers.rst). Values are passed through private buffers (Core/Private.lean): `.out_lo` (and
`.out_hi`, the second word of a 64-bit value) is the content of `out` / `out_tmp`, `.val_lo` (`.val_hi`) of `val` (in a
64-bit compare_exchange: of `new`), `.old_lo` of `old` (64 bits: `.tmp_lo`, `.tmp_hi`), `.new_lo` of `new`.
-/
import Verif.Arch.ArmLinux
import Verif.Core.Private

namespace Verif.LegacyArmLinux
open ArmLinux (Conf KUSER_CMPXCHG KUSER_MEMORY_BARRIER KUSER_CMPXCHG64 assertHasKuserCmpxchg64 ldr ldr4 str strBuf mov
  mov1 mvn and_ orr eor orrs lsl lsr cmp bne b blxBarrier blxBarrier' callee kcas1 kcas2 kcas64_1 kcas64_2 buf sub)

/-- `cmp a, #0`: Z = (a == 0). -/
@[asm] def cmp0 (a : Nat) : Instr 32 := .op fun _ s => s.setZ (s.r a == 0#32)

/-- A nonzero word. -/
def nz (o : Orc) : BitVec 32 := if BitVec.ofNat 32 o.junk = 0#32 then 1#32 else BitVec.ofNat 32 o.junk

@[asm] theorem nz_ne (o : Orc) : (nz o = 0#32) = False := by
  unfold nz
  by_cases h : BitVec.ofNat 32 o.junk = 0#32 <;> simp [h]

/-- Step (3) of a cmpxchg helper: r0 is nonzero on failure. -/
@[asm] def kcas3 (r0 : Nat) : Instr 32 := .op fun o s => s.setIf (s.cc != 1#2) r0 (nz o)

/-- `ldr{b,h,} rd, [ra]` from a private buffer (ldrb and ldrh zero-extend). -/
@[asm] def ldrp (cs : List (Cell 32)) (w rd ra : Nat) : Instr 32 := ldPriv cs w (fun x => x.setWidth 32) rd ra
/-- `str{b,h,} rv, [ra]` to a private buffer. -/
@[asm] def strp (c : Cell 32) (w rv ra : Nat) : Instr 32 := stPriv c w rv ra
/-- `ldr rd, [ra]` from a private buffer of two words. -/
@[asm] def ldrp0 (cs : List (Cell2 32)) (rd ra : Nat) : Instr 32 :=
  .op fun o s => s.set rd (readCell2 (s.r ra) (BitVec.ofNat 32 o.junk) s cs).1
/-- `ldr rd, [ra, #4]` from a private buffer of two words. -/
@[asm] def ldrp1 (cs : List (Cell2 32)) (rd ra : Nat) : Instr 32 :=
  .op fun o s => s.set rd (readCell2 (s.r ra) (BitVec.ofNat 32 o.junk) s cs).2

/-! ### asm! blocks: 8, 16, 32 bits -/

/-- operands of l.78-80 -/
@[asm] def loadKind : Op → Kind
  | .src => .inp | .out => .inout | .tmp => .lateout | .out_lo => .inout | _ => .unused
/-- l.73-82 `atomic_load`, Relaxed. -/
@[asm] def loadAsm (al : Op → Nat) (w : Nat) (po : BitVec 32) : List (Instr 32) := [
    ldr w (al .tmp) (al .src),
    strp ⟨po, al .out_lo⟩ w (al .tmp) (al .out) ]
/-- operands of l.93-97 -/
@[asm] def loadAcqKind : Op → Kind
  | .src => .inp | .out => .inout | .tmp => .lateout | .fn_ptr => .inout | .lr => .out | .out_lo => .inout | _ => .unused
/-- l.87-99 `atomic_load`, Acquire and SeqCst. -/
@[asm] def loadAcqAsm (al : Op → Nat) (w : Nat) (po : BitVec 32) : List (Instr 32) := [
    ldr w (al .tmp) (al .src),
    blxBarrier (al .fn_ptr) (al .lr) (al .tmp), .fence Pairs.full,
    strp ⟨po, al .out_lo⟩ w (al .tmp) (al .out) ]

/-- operands of l.145-147 -/
@[asm] def storeKind : Op → Kind
  | .dst => .inout | .val => .inp | .tmp => .lateout | .val_lo => .inout | _ => .unused
/-- l.140-149 `atomic_store`, Relaxed. -/
@[asm] def storeAsm (al : Op → Nat) (w : Nat) (pv : BitVec 32) : List (Instr 32) := [
    ldrp [⟨pv, al .val_lo⟩] w (al .tmp) (al .val),
    str w (al .tmp) (al .dst) ]
/-- operands of l.129-133 -/
@[asm] def storeRelKind : Op → Kind
  | .dst => .inout | .val => .inp | .tmp => .lateout | .fn_ptr => .inout | .lr => .out | .val_lo => .inout | _ => .unused
/-- l.122-135 `atomic_store_release!("")` (Release, l.151). -/
@[asm] def storeRelAsm (al : Op → Nat) (w : Nat) (pv : BitVec 32) : List (Instr 32) := [
    ldrp [⟨pv, al .val_lo⟩] w (al .tmp) (al .val),
    callee 1 (al .fn_ptr), blxBarrier (al .fn_ptr) (al .lr) (al .tmp), .fence Pairs.full,
    str w (al .tmp) (al .dst) ]
/-- l.122-135 `atomic_store_release!(blx!("{kuser_memory_barrier}"))` (SeqCst, l.152). -/
@[asm] def storeScAsm (al : Op → Nat) (w : Nat) (pv : BitVec 32) : List (Instr 32) := [
    ldrp [⟨pv, al .val_lo⟩] w (al .tmp) (al .val),
    callee 1 (al .fn_ptr), blxBarrier (al .fn_ptr) (al .lr) (al .tmp), .fence Pairs.full,
    str w (al .tmp) (al .dst),
    callee 5 (al .fn_ptr), blxBarrier' (al .lr), .fence Pairs.full ]

/-- operands of l.188-196 (x0 = r0, x1 = r1, dst = r2, x3 = r3, x4 = ip) -/
@[asm] def swapKind : Op → Kind
  | .out => .inp | .tmp => .out | .fn_ptr => .inp | .x0 => .out | .x1 => .inout | .dst => .inp | .x3 => .out
  | .x4 => .out | .lr => .out | .out_lo => .inout | .val_lo => .inout | _ => .unused
/-- l.179-199 `atomic_swap` of a word. -/
@[asm] def swapAsm (c : Conf) (al : Op → Nat) (po pv : BitVec 32) : List (Instr 32) := [
    ldrp [⟨po, al .out_lo⟩, ⟨pv, al .val_lo⟩] 32 (al .x1) (al .x1),
    /- 2: -/ ldr 32 (al .x0) (al .dst),
    mov (al .tmp) (al .x0),
    kcas1 c (al .x3) (al .x4) (al .lr),
    kcas2 (al .fn_ptr) (al .x0) (al .x1) (al .dst),
    kcas3 (al .x0),
    cmp0 (al .x0),
    bne 1,
    strp ⟨po, al .out_lo⟩ 32 (al .tmp) (al .out) ]

/-- The private buffers of a word or sub-word compare_exchange. -/
@[asm] def casCells (al : Op → Nat) (po pold pnew : BitVec 32) : List (Cell 32) :=
  [⟨po, al .out_lo⟩, ⟨pold, al .old_lo⟩, ⟨pnew, al .new_lo⟩]

/-- operands of l.245-255 -/
@[asm] def casKind : Op → Kind
  | .old => .inout | .new => .inout | .out => .inp | .tmp => .out | .fn_ptr => .inp | .x0 => .out | .x1 => .out
  | .dst => .inp | .x3 => .out | .x4 => .out | .lr => .out | .out_lo => .inout | .old_lo => .inout | .new_lo => .inout
  | _ => .unused
/-- l.223-258 `atomic_compare_exchange` of a word. -/
@[asm] def casAsm (c : Conf) (al : Op → Nat) (po pold pnew : BitVec 32) : List (Instr 32) := [
    ldrp (casCells al po pold pnew) 32 (al .old) (al .old),
    ldrp (casCells al po pold pnew) 32 (al .new) (al .new),
    /- 2: -/ ldr 32 (al .x0) (al .dst),
    mov (al .tmp) (al .x0),
    cmp (al .x0) (al .old),
    bne 13,
    mov (al .x1) (al .new),
    kcas1 c (al .x3) (al .x4) (al .lr),
    kcas2 (al .fn_ptr) (al .x0) (al .x1) (al .dst),
    kcas3 (al .x0),
    cmp0 (al .x0),
    bne 2,
    b 20,
    /- 3: -/ mov (al .x1) (al .x0),
    kcas1 c (al .x3) (al .x4) (al .lr),
    kcas2 (al .fn_ptr) (al .x0) (al .x1) (al .dst),
    kcas3 (al .x0),
    cmp0 (al .x0),
    bne 2,
    mov1 (al .x0),
    /- 4: -/ strp ⟨po, al .out_lo⟩ 32 (al .tmp) (al .out) ]

/-- operands of l.303-315 -/
@[asm] def subSwapKind : Op → Kind
  | .val => .inout | .out => .inp | .shift => .inp | .mask => .inp | .inv_mask => .inp | .tmp => .out | .fn_ptr => .inp
  | .x0 => .out | .x1 => .out | .dst => .inp | .x3 => .out | .x4 => .out | .lr => .out | .out_lo => .inout
  | .val_lo => .inout | _ => .unused
/-- l.289-318 `atomic_swap` of a sub-word. -/
@[asm] def subSwapAsm (c : Conf) (al : Op → Nat) (w : Nat) (po pv : BitVec 32) : List (Instr 32) := [
    ldrp [⟨po, al .out_lo⟩, ⟨pv, al .val_lo⟩] w (al .val) (al .val),
    lsl (al .val) (al .val) (al .shift),
    and_ (al .val) (al .val) (al .mask),
    /- 2: -/ ldr 32 (al .x0) (al .dst),
    mov (al .tmp) (al .x0),
    and_ (al .x1) (al .x0) (al .inv_mask),
    orr (al .x1) (al .x1) (al .val),
    kcas1 c (al .x3) (al .x4) (al .lr),
    kcas2 (al .fn_ptr) (al .x0) (al .x1) (al .dst),
    kcas3 (al .x0),
    cmp0 (al .x0),
    bne 3,
    lsr (al .tmp) (al .tmp) (al .shift),
    strp ⟨po, al .out_lo⟩ w (al .tmp) (al .out) ]

/-- operands of l.374-388 -/
@[asm] def subCasKind : Op → Kind
  | .old => .inout | .new => .inout | .out => .inp | .shift => .inp | .mask => .inp | .tmp => .out | .fn_ptr => .inp
  | .x0 => .out | .x1 => .out | .dst => .inp | .x3 => .out | .x4 => .out | .lr => .out
  | .out_lo => .inout | .old_lo => .inout | .new_lo => .inout | _ => .unused
/-- l.345-391 `atomic_compare_exchange` of a sub-word. -/
@[asm] def subCasAsm (c : Conf) (al : Op → Nat) (w : Nat) (po pold pnew : BitVec 32) : List (Instr 32) := [
    ldrp (casCells al po pold pnew) w (al .old) (al .old),
    ldrp (casCells al po pold pnew) w (al .new) (al .new),
    lsl (al .old) (al .old) (al .shift),
    lsl (al .new) (al .new) (al .shift),
    and_ (al .old) (al .old) (al .mask),
    and_ (al .new) (al .new) (al .mask),
    /- 2: -/ ldr 32 (al .x0) (al .dst),
    and_ (al .tmp) (al .x0) (al .mask),
    cmp (al .tmp) (al .old),
    bne 19,
    mvn (al .x1) (al .mask),
    and_ (al .x1) (al .x0) (al .x1),
    orr (al .x1) (al .x1) (al .new),
    kcas1 c (al .x3) (al .x4) (al .lr),
    kcas2 (al .fn_ptr) (al .x0) (al .x1) (al .dst),
    kcas3 (al .x0),
    cmp0 (al .x0),
    bne 6,
    b 26,
    /- 3: -/ mov (al .x1) (al .x0),
    kcas1 c (al .x3) (al .x4) (al .lr),
    kcas2 (al .fn_ptr) (al .x0) (al .x1) (al .dst),
    kcas3 (al .x0),
    cmp0 (al .x0),
    bne 6,
    mov1 (al .x0),
    /- 4: -/ lsr (al .tmp) (al .tmp) (al .shift),
    strp ⟨po, al .out_lo⟩ w (al .tmp) (al .out) ]

/-! ### asm! blocks: 64 bits -/

/-- operands of l.435-440 (x1 = r1 = out_ptr, src = r2) and the buffer `out` -/
@[asm] def loaddKind : Op → Kind
  | .fn_ptr => .inp | .x0 => .out | .x1 => .inp | .src => .inp | .x3 => .out | .lr => .out
  | .out_lo => .inout | .out_hi => .inout | _ => .unused
/-- l.425-443 `atomic_load`. -/
@[asm] def loaddAsm (e : Endian) (c : Conf) (po : BitVec 32) (al : Op → Nat) : List (Instr 32) := [
    /- 2: -/ ldr 32 (al .x0) (al .src),
    ldr4 (al .x3) (al .src),
    strBuf po (al .out_lo) (al .x0) (al .x1),
    strBuf po (al .out_hi) (al .x3) (al .x1),
    mov (al .x0) (al .x1),
    kcas64_1 c (al .x3) (al .lr),
    kcas64_2 (buf e po po al) (al .fn_ptr) (al .x0) (al .x1) (al .src),
    kcas3 (al .x0),
    cmp0 (al .x0),
    bne 0 ]

/-- operands of l.472-478 (l.510-516) and the buffers -/
@[asm] def swapdKind : Op → Kind
  | .out_ptr => .inp | .fn_ptr => .inp | .x0 => .out | .x1 => .inp | .dst => .inp | .x3 => .out | .lr => .out
  | .out_lo => .inout | .out_hi => .inout | .val_lo => .inp | .val_hi => .inp | _ => .unused
/-- l.462-481 `atomic_store` and l.500-519 `atomic_swap` (the same sequence). -/
@[asm] def swapdAsm (e : Endian) (c : Conf) (po pv : BitVec 32) (al : Op → Nat) : List (Instr 32) := [
    /- 2: -/ ldr 32 (al .x0) (al .dst),
    ldr4 (al .x3) (al .dst),
    strBuf po (al .out_lo) (al .x0) (al .out_ptr),
    strBuf po (al .out_hi) (al .x3) (al .out_ptr),
    mov (al .x0) (al .out_ptr),
    kcas64_1 c (al .x3) (al .lr),
    kcas64_2 (buf e po pv al) (al .fn_ptr) (al .x0) (al .x1) (al .dst),
    kcas3 (al .x0),
    cmp0 (al .x0),
    bne 0 ]

/-- operands of l.570-579 and the buffers -/
@[asm] def casdKind : Op → Kind
  | .new => .inp | .out_ptr => .inp | .old_lo => .out | .old_hi => .inout | .fn_ptr => .inp | .x0 => .out
  | .x1 => .out | .dst => .inp | .x3 => .out | .lr => .out
  | .out_lo => .inout | .out_hi => .inout | .val_lo => .inp | .val_hi => .inp | .tmp_lo => .inout | .tmp_hi => .inout
  | _ => .unused
/-- l.543-582 `atomic_compare_exchange`. -/
@[asm] def casdAsm (e : Endian) (c : Conf) (po pold pnew : BitVec 32) (al : Op → Nat) : List (Instr 32) := [
    ldrp0 [⟨po, al .out_lo, al .out_hi⟩, ⟨pold, al .tmp_lo, al .tmp_hi⟩, ⟨pnew, al .val_lo, al .val_hi⟩]
      (al .old_lo) (al .old_hi),
    ldrp1 [⟨po, al .out_lo, al .out_hi⟩, ⟨pold, al .tmp_lo, al .tmp_hi⟩, ⟨pnew, al .val_lo, al .val_hi⟩]
      (al .old_hi) (al .old_hi),
    /- 2: -/ ldr 32 (al .x0) (al .dst),
    ldr4 (al .x3) (al .dst),
    strBuf po (al .out_lo) (al .x0) (al .out_ptr),
    strBuf po (al .out_hi) (al .x3) (al .out_ptr),
    eor (al .x0) (al .x0) (al .old_lo),
    eor (al .x3) (al .x3) (al .old_hi),
    orrs (al .x0) (al .x0) (al .x3),
    bne 18,
    mov (al .x0) (al .out_ptr),
    mov (al .x1) (al .new),
    kcas64_1 c (al .x3) (al .lr),
    kcas64_2 (buf e po pnew al) (al .fn_ptr) (al .x0) (al .x1) (al .dst),
    kcas3 (al .x0),
    cmp0 (al .x0),
    bne 2,
    b 26,
    /- 3: -/ mov (al .x0) (al .out_ptr),
    mov (al .x1) (al .out_ptr),
    kcas64_1 c (al .x3) (al .lr),
    kcas64_2 (buf e po pnew al) (al .fn_ptr) (al .x0) (al .x1) (al .dst),
    kcas3 (al .x0),
    cmp0 (al .x0),
    bne 2,
    mov1 (al .x0) ]
    /- 4: -/

/-! ### Blocks and back end -/

/-- l.72-83 -/
@[asm] def loadBlock (al : Alloc loadKind) (w : Nat) (po p : BitVec 32) : Block 32 w where
  code := loadAsm al w po
  args := [⟨al .src, 32, p⟩, ⟨al .out, 32, po⟩]
  outs := al.Outs
  out rs := (rs.r (al .out_lo)).setWidth w
/-- l.85-100 -/
@[asm] def loadAcqBlock (al : Alloc loadAcqKind) (w : Nat) (po p : BitVec 32) : Block 32 w where
  code := loadAcqAsm al w po
  args := [⟨al .src, 32, p⟩, ⟨al .out, 32, po⟩, ⟨al .fn_ptr, 32, KUSER_MEMORY_BARRIER⟩]
  outs := al.Outs
  out rs := (rs.r (al .out_lo)).setWidth w
/-- l.139-150 -/
@[asm] def storeBlock (al : Alloc storeKind) (w : Nat) (pv p : BitVec 32) (val : BitVec w) : Block 32 w where
  code := storeAsm al w pv
  args := [⟨al .dst, 32, p⟩, ⟨al .val, 32, pv⟩, ⟨al .val_lo, w, val⟩]
  outs := al.Outs
/-- l.119-137, l.151-152 -/
@[asm] def storeRelBlock (al : Alloc storeRelKind) (w : Nat) (sc : Bool) (pv p : BitVec 32) (val : BitVec w) :
    Block 32 w where
  code := if sc then storeScAsm al w pv else storeRelAsm al w pv
  args := [⟨al .dst, 32, p⟩, ⟨al .val, 32, pv⟩, ⟨al .fn_ptr, 32, KUSER_MEMORY_BARRIER⟩, ⟨al .val_lo, w, val⟩]
  outs := al.Outs
/-- l.164-203 -/
@[asm] def swapBlock (c : Conf) (al : Alloc swapKind) (po pv p val : BitVec 32) : Block 32 32 where
  code := swapAsm c al po pv
  args := [⟨al .dst, 32, p⟩, ⟨al .x1, 32, pv⟩, ⟨al .out, 32, po⟩, ⟨al .val_lo, 32, val⟩,
    ⟨al .fn_ptr, 32, KUSER_CMPXCHG⟩]
  outs := al.Outs
  keepsFlags := false
  out rs := rs.r (al .out_lo)
/-- l.204-264 -/
@[asm] def casBlock (c : Conf) (al : Alloc casKind) (po pold pnew p old new : BitVec 32) : Block 32 32 where
  code := casAsm c al po pold pnew
  args := [⟨al .dst, 32, p⟩, ⟨al .old, 32, pold⟩, ⟨al .new, 32, pnew⟩, ⟨al .out, 32, po⟩, ⟨al .old_lo, 32, old⟩,
    ⟨al .new_lo, 32, new⟩, ⟨al .fn_ptr, 32, KUSER_CMPXCHG⟩]
  outs := al.Outs
  keepsFlags := false
  out rs := rs.r (al .out_lo)
  ok rs := rs.r (al .x0) == 0#32
  assumes rs := rs.r (al .x0) = 0#32 ∨ rs.r (al .x0) = 1#32
/-- l.271-322 -/
@[asm] def subSwapBlock (e : Endian) (c : Conf) (al : Alloc subSwapKind) (w : Nat) (po pv p : BitVec 32)
    (val : BitVec w) : Block 32 w where
  code := subSwapAsm c al w po pv
  args := [⟨al .dst, 32, (sub e w p).1⟩, ⟨al .shift, 32, (sub e w p).2.1⟩, ⟨al .mask, 32, (sub e w p).2.2⟩,
    ⟨al .inv_mask, 32, ~~~ (sub e w p).2.2⟩, ⟨al .val, 32, pv⟩, ⟨al .out, 32, po⟩, ⟨al .val_lo, w, val⟩,
    ⟨al .fn_ptr, 32, KUSER_CMPXCHG⟩]
  outs := al.Outs
  keepsFlags := false
  out rs := (rs.r (al .out_lo)).setWidth w
/-- l.323-397 -/
@[asm] def subCasBlock (e : Endian) (c : Conf) (al : Alloc subCasKind) (w : Nat) (po pold pnew p : BitVec 32)
    (old new : BitVec w) : Block 32 w where
  code := subCasAsm c al w po pold pnew
  args := [⟨al .dst, 32, (sub e w p).1⟩, ⟨al .shift, 32, (sub e w p).2.1⟩, ⟨al .mask, 32, (sub e w p).2.2⟩,
    ⟨al .old, 32, pold⟩, ⟨al .new, 32, pnew⟩, ⟨al .out, 32, po⟩, ⟨al .old_lo, w, old⟩, ⟨al .new_lo, w, new⟩,
    ⟨al .fn_ptr, 32, KUSER_CMPXCHG⟩]
  outs := al.Outs
  keepsFlags := false
  out rs := (rs.r (al .out_lo)).setWidth w
  ok rs := rs.r (al .x0) == 0#32
  assumes rs := rs.r (al .x0) = 0#32 ∨ rs.r (al .x0) = 1#32

/-- l.412-447 -/
@[asm] def loaddBlock (e : Endian) (c : Conf) (al : Alloc loaddKind) (po p : BitVec 32) : Block 32 64 where
  code := loaddAsm e c po al
  args := [⟨al .src, 32, p⟩, ⟨al .x1, 32, po⟩, ⟨al .fn_ptr, 32, KUSER_CMPXCHG64⟩]
  outs := al.Outs
  keepsFlags := false
  out rs := join01 e 64 (rs.r (al .out_lo)) (rs.r (al .out_hi))
/-- l.448-484 (`out_tmp` is dropped), l.485-523 -/
@[asm] def swapdBlock (e : Endian) (c : Conf) (al : Alloc swapdKind) (po pv p : BitVec 32) (val : BitVec 64) :
    Block 32 64 where
  code := swapdAsm e c po pv al
  args := [⟨al .dst, 32, p⟩, ⟨al .x1, 32, pv⟩, ⟨al .out_ptr, 32, po⟩, ⟨al .val_lo, 32, word0 e 32 val⟩,
    ⟨al .val_hi, 32, word1 e 32 val⟩, ⟨al .fn_ptr, 32, KUSER_CMPXCHG64⟩]
  outs := al.Outs
  keepsFlags := false
  out rs := join01 e 64 (rs.r (al .out_lo)) (rs.r (al .out_hi))
/-- l.524-592 -/
@[asm] def casdBlock (e : Endian) (c : Conf) (al : Alloc casdKind) (po pold pnew p : BitVec 32)
    (old new : BitVec 64) : Block 32 64 where
  code := casdAsm e c po pold pnew al
  args := [⟨al .dst, 32, p⟩, ⟨al .new, 32, pnew⟩, ⟨al .out_ptr, 32, po⟩, ⟨al .old_hi, 32, pold⟩,
    ⟨al .val_lo, 32, word0 e 32 new⟩, ⟨al .val_hi, 32, word1 e 32 new⟩, ⟨al .tmp_lo, 32, word0 e 32 old⟩,
    ⟨al .tmp_hi, 32, word1 e 32 old⟩, ⟨al .fn_ptr, 32, KUSER_CMPXCHG64⟩]
  outs := al.Outs
  keepsFlags := false
  out rs := join01 e 64 (rs.r (al .out_lo)) (rs.r (al .out_hi))
  ok rs := rs.r (al .x0) == 0#32
  assumes rs := rs.r (al .x0) = 0#32 ∨ rs.r (al .x0) = 1#32

/-- `atomic_load` -/
inductive Load (e : Endian) (c : Conf) : Ordering → (w a : Nat) → Block 32 w → Prop
  | relaxed (al) {w} (po p : BitVec 32) (hw : SubSize w ∨ w = 32) :
      Load e c .relaxed w p.toNat (loadBlock al w po p)
  | acquire (al) {o w} (po p : BitVec 32) (hw : SubSize w ∨ w = 32) (ho : o = .acquire ∨ o = .seqCst) :
      Load e c o w p.toNat (loadAcqBlock al w po p)
  | dword (al) (o) (p po : BitVec 32) (hk : assertHasKuserCmpxchg64 c = .ok ()) (hal : p.toNat % 8 = 0) :
      Load e c o 64 p.toNat (loaddBlock e c al po p)
/-- `atomic_store`; private buffers are different objects -/
inductive Store (e : Endian) (c : Conf) : Ordering → (w a : Nat) → BitVec w → Block 32 w → Prop
  | relaxed (al) {w} (pv p : BitVec 32) (val : BitVec w) (hw : SubSize w ∨ w = 32) :
      Store e c .relaxed w p.toNat val (storeBlock al w pv p val)
  | release (al) {w} (pv p : BitVec 32) (val : BitVec w) (hw : SubSize w ∨ w = 32) :
      Store e c .release w p.toNat val (storeRelBlock al w false pv p val)
  | seqCst (al) {w} (pv p : BitVec 32) (val : BitVec w) (hw : SubSize w ∨ w = 32) :
      Store e c .seqCst w p.toNat val (storeRelBlock al w true pv p val)
  | dword (al) (o) (p po pv : BitVec 32) (val : BitVec 64) (hne : pv ≠ po)
      (hk : assertHasKuserCmpxchg64 c = .ok ()) (hal : p.toNat % 8 = 0) :
      Store e c o 64 p.toNat val (swapdBlock e c al po pv p val)
/-- `atomic_swap` -/
inductive Swap (e : Endian) (c : Conf) : Ordering → (w a : Nat) → BitVec w → Block 32 w → Prop
  | word (al o) (po pv p val : BitVec 32) (hd : pv ≠ po) : Swap e c o 32 p.toNat val (swapBlock c al po pv p val)
  | sub (al o) {w} (po pv p : BitVec 32) (val : BitVec w) (hw : SubSize w) (hal : p.toNat % (w / 8) = 0)
      (hd : pv ≠ po) : Swap e c o w p.toNat val (subSwapBlock e c al w po pv p val)
  | dword (al) (o) (p po pv : BitVec 32) (val : BitVec 64) (hne : pv ≠ po)
      (hk : assertHasKuserCmpxchg64 c = .ok ()) (hal : p.toNat % 8 = 0) :
      Swap e c o 64 p.toNat val (swapdBlock e c al po pv p val)
/-- `atomic_compare_exchange` (the orderings are ignored) -/
inductive Cas (e : Endian) (c : Conf) :
    Ordering → Ordering → (w a : Nat) → BitVec w → BitVec w → Block 32 w → Prop
  | word (al s f) (po pold pnew p old new : BitVec 32) (hd : Distinct po pold pnew) :
      Cas e c s f 32 p.toNat old new (casBlock c al po pold pnew p old new)
  | sub (al s f) {w} (po pold pnew p : BitVec 32) (old new : BitVec w) (hw : SubSize w) (hal : p.toNat % (w / 8) = 0)
      (hd : Distinct po pold pnew) : Cas e c s f w p.toNat old new (subCasBlock e c al w po pold pnew p old new)
  | dword (al) (s f) (p po pold pnew : BitVec 32) (old new : BitVec 64) (hd : Distinct po pold pnew)
      (hk : assertHasKuserCmpxchg64 c = .ok ()) (hal : p.toNat % 8 = 0) :
      Cas e c s f 64 p.toNat old new (casdBlock e c al po pold pnew p old new)

/-- The pre-v6 Arm Linux back end for old compilers; `atomic_compare_exchange_weak` is the default of src/raw.rs. -/
def backend (e : Endian) (c : Conf) : Backend 32 where
  e := e
  imp := Pairs.none
  Load := Load e c
  Store := Store e c
  Swap := Swap e c
  Cas := Cas e c
  CasWeak := Cas e c

end Verif.LegacyArmLinux
