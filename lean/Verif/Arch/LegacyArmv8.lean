/-
src/arch_legacy/armv8.rs: Armv8 AArch32 (compilers without `MaybeUninit` asm operands).

Values are passed through private buffers (Core/Private.lean): `.x0` (and `.x3`, the second word of a 64-bit value) is
the content of `out`, `.x1` (`.x4`) of `val` / `old`, `.x2` (`.x5`) of `new`. Mnemonics and ordering tables are those of
src/arch/armv8.rs. The fixed registers r2-r5, r8, r9 of the 64-bit blocks are treated as any other early-clobber
output registers.
-/
import Verif.Arch.Armv8
import Verif.Core.Private

namespace Verif.LegacyArmv8
open Armv8 (Conf rd wr ldr str ldex stex ldexd stexd cmp cmp0 eor orrs mov1 bne b loadOrd storeOrd rmwOrd)

/-- `ldr{b,h,} rd, [ra]` from a private buffer (zero-extending). -/
@[asm] def ldrp (cs : List (Cell 32)) (w rd ra : Nat) : Instr 32 := ldPriv cs w (·.setWidth 32) rd ra

/-! The ordering tables l.95-102, l.131-138 and l.41-52 are those of src/arch/armv8.rs (`loadOrd`, `storeOrd`,
`rmwOrd`), `s!` (l.54-67) is `mov1`. -/

/-! ### asm! blocks for 8, 16 and 32 bits -/

/-- operands of l.90-92 -/
@[asm] def loadKind : Op → Kind
  | .src => .inp | .out => .inout | .tmp => .lateout | .x0 => .inout | _ => .unused
/-- l.85-94 `atomic_load!`. -/
@[asm] def loadAsm (al : Op → Nat) (w : Nat) (o : Bool) (po : BitVec 32) : List (Instr 32) :=
  [ ldr w (al .tmp) (al .src) o,
    stPriv ⟨po, al .x0⟩ w (al .tmp) (al .out) ]
/-- operands of l.126-128 -/
@[asm] def storeKind : Op → Kind
  | .dst => .inout | .val => .inp | .tmp => .lateout | .x1 => .inout | _ => .unused
/-- l.121-130 `atomic_store!`. -/
@[asm] def storeAsm (al : Op → Nat) (w : Nat) (o : Bool) (pv : BitVec 32) : List (Instr 32) :=
  [ ldrp [⟨pv, al .x1⟩] w (al .tmp) (al .val),
    str w (al .tmp) (al .dst) o ]
/-- operands of l.172-176 -/
@[asm] def swapKind : Op → Kind
  | .dst => .inp | .val => .inout | .out => .inp | .r => .out | .tmp => .out | .x0 => .inout | .x1 => .inout
  | _ => .unused
/-- l.158-179 `swap!`. Label `2:` = 1. -/
@[asm] def swapAsm (al : Op → Nat) (w : Nat) (o : Bool × Bool) (po pv : BitVec 32) : List (Instr 32) := [
    ldrp [⟨po, al .x0⟩, ⟨pv, al .x1⟩] w (al .val) (al .val),
    /- 2: -/ ldex w (al .tmp) (al .dst) o.1,
    stex w (al .r) (al .val) (al .dst) o.2,
    cmp0 (al .r),
    bne 1,
    stPriv ⟨po, al .x0⟩ w (al .tmp) (al .out) ]
/-- operands of l.231-236, l.286-291 -/
@[asm] def casKind : Op → Kind
  | .dst => .inp | .old => .inout | .new => .inout | .out => .inp | .r => .out | .tmp => .out
  | .x0 => .inout | .x1 => .inout | .x2 => .inout | _ => .unused
/-- The private buffers of a compare_exchange. -/
@[asm] def casCells (al : Op → Nat) (po pold pnew : BitVec 32) : List (Cell 32) :=
  [⟨po, al .x0⟩, ⟨pold, al .x1⟩, ⟨pnew, al .x2⟩]
/-- l.208-239 `cmpxchg!`. Labels `2:` = 2, `3:` = 9, `4:` = 11. -/
@[asm] def casAsm (c : Conf) (al : Op → Nat) (w : Nat) (o : Bool × Bool) (po pold pnew : BitVec 32) :
    List (Instr 32) := [
    ldrp (casCells al po pold pnew) w (al .old) (al .old),
    ldrp (casCells al po pold pnew) w (al .new) (al .new),
    /- 2: -/ ldex w (al .tmp) (al .dst) o.1,
    cmp (al .tmp) (al .old),
    bne 9,
    stex w (al .r) (al .new) (al .dst) o.2,
    cmp0 (al .r),
    bne 2,
    b 11,
    /- 3: -/ .clrex,
    mov1 c (al .r),
    /- 4: -/ stPriv ⟨po, al .x0⟩ w (al .tmp) (al .out) ]
/-- l.268-294 `cmpxchg_weak!`. Labels `3:` = 7, `4:` = 9. -/
@[asm] def weakAsm (c : Conf) (al : Op → Nat) (w : Nat) (o : Bool × Bool) (po pold pnew : BitVec 32) :
    List (Instr 32) := [
    ldrp (casCells al po pold pnew) w (al .old) (al .old),
    ldrp (casCells al po pold pnew) w (al .new) (al .new),
    ldex w (al .tmp) (al .dst) o.1,
    cmp (al .tmp) (al .old),
    bne 7,
    stex w (al .r) (al .new) (al .dst) o.2,
    b 9,
    /- 3: -/ .clrex,
    mov1 c (al .r),
    /- 4: -/ stPriv ⟨po, al .x0⟩ w (al .tmp) (al .out) ]

/-! ### asm! blocks for 64 bits -/

/-- operands of l.340-344: r2, r3 are `prev_lo`, `prev_hi` -/
@[asm] def loaddKind : Op → Kind
  | .src => .inp | .out => .inp | .prev_lo => .out | .prev_hi => .out | .x0 => .inout | .x3 => .inout | _ => .unused
/-- l.334-346 `atomic_load!`. -/
@[asm] def loaddAsm (e : Endian) (al : Op → Nat) (o : Bool) (po : BitVec 32) : List (Instr 32) :=
  [ ldexd e (al .prev_lo) (al .prev_hi) (al .src) o,
    .clrex,
    stPriv2 ⟨po, al .x0, al .x3⟩ (al .prev_lo) (al .prev_hi) (al .out) ]
/-- operands of l.386-394: r2, r3 are `val_lo`, `val_hi`, r4, r5 are `tmp_lo`, `tmp_hi` -/
@[asm] def storedKind : Op → Kind
  | .dst => .inout | .val => .inp | .r => .lateout | .val_lo => .out | .val_hi => .out | .tmp_lo => .out
  | .tmp_hi => .out | .x1 => .inout | .x4 => .inout | _ => .unused
/-- l.374-397 `store!`. Label `2:` = 1. -/
@[asm] def storedAsm (e : Endian) (al : Op → Nat) (o : Bool × Bool) (pv : BitVec 32) : List (Instr 32) := [
    ldPriv2 [⟨pv, al .x1, al .x4⟩] (al .val_lo) (al .val_hi) (al .val),
    /- 2: -/ ldexd e (al .tmp_lo) (al .tmp_hi) (al .dst) o.1,
    stexd e (al .r) (al .val_lo) (al .val_hi) (al .dst) o.2,
    cmp0 (al .r),
    bne 1 ]
/-- operands of l.435-444: r2, r3 are `val_lo`, `val_hi`, r4, r5 are `prev_lo`, `prev_hi` -/
@[asm] def swapdKind : Op → Kind
  | .dst => .inout | .val => .inp | .out => .inout | .r => .lateout | .val_lo => .out | .val_hi => .out
  | .prev_lo => .out | .prev_hi => .out
  | .x0 => .inout | .x3 => .inout | .x1 => .inout | .x4 => .inout | _ => .unused
/-- l.421-447 `swap!`. Label `2:` = 1. -/
@[asm] def swapdAsm (e : Endian) (al : Op → Nat) (o : Bool × Bool) (po pv : BitVec 32) : List (Instr 32) := [
    ldPriv2 [⟨po, al .x0, al .x3⟩, ⟨pv, al .x1, al .x4⟩] (al .val_lo) (al .val_hi) (al .val),
    /- 2: -/ ldexd e (al .prev_lo) (al .prev_hi) (al .dst) o.1,
    stexd e (al .r) (al .val_lo) (al .val_hi) (al .dst) o.2,
    cmp0 (al .r),
    bne 1,
    stPriv2 ⟨po, al .x0, al .x3⟩ (al .prev_lo) (al .prev_hi) (al .out) ]
/-- operands of l.499-513, l.562-576: r2, r3 are `old_lo`, `old_hi`, r4, r5 are `prev_lo`, `prev_hi`, r8, r9 are
`new_lo`, `new_hi` -/
@[asm] def casdKind : Op → Kind
  | .dst => .inout | .r => .lateout | .old => .inp | .new => .inp | .out => .inout | .tmp => .out
  | .old_lo => .out | .old_hi => .out | .prev_lo => .out | .prev_hi => .out | .new_lo => .out | .new_hi => .out
  | .x0 => .inout | .x3 => .inout | .x1 => .inout | .x4 => .inout | .x2 => .inout | .x5 => .inout | _ => .unused
/-- The private buffers of a 64-bit compare_exchange. -/
@[asm] def casdCells (al : Op → Nat) (po pold pnew : BitVec 32) : List (Cell2 32) :=
  [⟨po, al .x0, al .x3⟩, ⟨pold, al .x1, al .x4⟩, ⟨pnew, al .x2, al .x5⟩]
/-- l.477-516 `cmpxchg!`. Labels `2:` = 2, `3:` = 11, `4:` = 13. -/
@[asm] def casdAsm (e : Endian) (c : Conf) (al : Op → Nat) (o : Bool × Bool) (po pold pnew : BitVec 32) :
    List (Instr 32) := [
    ldPriv2 (casdCells al po pold pnew) (al .old_lo) (al .old_hi) (al .old),
    ldPriv2 (casdCells al po pold pnew) (al .new_lo) (al .new_hi) (al .new),
    /- 2: -/ ldexd e (al .prev_lo) (al .prev_hi) (al .dst) o.1,
    eor (al .tmp) (al .prev_hi) (al .old_hi),
    eor (al .r) (al .prev_lo) (al .old_lo),
    orrs (al .r) (al .r) (al .tmp),
    bne 11,
    stexd e (al .r) (al .new_lo) (al .new_hi) (al .dst) o.2,
    cmp0 (al .r),
    bne 2,
    b 13,
    /- 3: -/ .clrex,
    mov1 c (al .r),
    /- 4: -/ stPriv2 ⟨po, al .x0, al .x3⟩ (al .prev_lo) (al .prev_hi) (al .out) ]
/-- l.545-579 `cmpxchg_weak!`. Labels `3:` = 9, `4:` = 11. -/
@[asm] def weakdAsm (e : Endian) (c : Conf) (al : Op → Nat) (o : Bool × Bool) (po pold pnew : BitVec 32) :
    List (Instr 32) := [
    ldPriv2 (casdCells al po pold pnew) (al .old_lo) (al .old_hi) (al .old),
    ldPriv2 (casdCells al po pold pnew) (al .new_lo) (al .new_hi) (al .new),
    ldexd e (al .prev_lo) (al .prev_hi) (al .dst) o.1,
    eor (al .tmp) (al .prev_hi) (al .old_hi),
    eor (al .r) (al .prev_lo) (al .old_lo),
    orrs (al .r) (al .r) (al .tmp),
    bne 9,
    stexd e (al .r) (al .new_lo) (al .new_hi) (al .dst) o.2,
    b 11,
    /- 3: -/ .clrex,
    mov1 c (al .r),
    /- 4: -/ stPriv2 ⟨po, al .x0, al .x3⟩ (al .prev_lo) (al .prev_hi) (al .out) ]

/-! ### Blocks and back end -/

/-- l.73-105 -/
@[asm] def loadBlock (al : Alloc loadKind) (w : Nat) (o : Bool) (po p : BitVec 32) : Block 32 w where
  code := loadAsm al w o po
  args := [⟨al .src, 32, p⟩, ⟨al .out, 32, po⟩]
  outs := al.Outs
  out rs := (rs.r (al .x0)).setWidth w

/-- l.109-140 -/
@[asm] def storeBlock (al : Alloc storeKind) (w : Nat) (o : Bool) (pv p : BitVec 32) (val : BitVec w) :
    Block 32 w where
  code := storeAsm al w o pv
  args := [⟨al .dst, 32, p⟩, ⟨al .val, 32, pv⟩, ⟨al .x1, w, val⟩]
  outs := al.Outs

/-- l.144-185 -/
@[asm] def swapBlock (al : Alloc swapKind) (w : Nat) (o : Bool × Bool) (po pv p : BitVec 32) (val : BitVec w) :
    Block 32 w where
  code := swapAsm al w o po pv
  args := [⟨al .dst, 32, p⟩, ⟨al .val, 32, pv⟩, ⟨al .out, 32, po⟩, ⟨al .x1, w, val⟩]
  outs := al.Outs
  keepsFlags := false
  out rs := (rs.r (al .x0)).setWidth w

/-- operands and results of the compare_exchange blocks (l.189-247, l.249-302) -/
@[asm] def casFrame (al : Alloc casKind) (w : Nat) (code : List (Instr 32))
    (po pold pnew p : BitVec 32) (old new : BitVec w) : Block 32 w where
  code := code
  args := [⟨al .dst, 32, p⟩, ⟨al .old, 32, pold⟩, ⟨al .new, 32, pnew⟩, ⟨al .out, 32, po⟩, ⟨al .x1, w, old⟩,
    ⟨al .x2, w, new⟩]
  outs := al.Outs
  keepsFlags := false
  out rs := (rs.r (al .x0)).setWidth w
  ok rs := rs.r (al .r) == 0#32
  assumes rs := rs.r (al .r) = 0#32 ∨ rs.r (al .r) = 1#32

/-- l.322-357 -/
@[asm] def loaddBlock (e : Endian) (al : Alloc loaddKind) (o : Bool) (po p : BitVec 32) : Block 32 64 where
  code := loaddAsm e al o po
  args := [⟨al .src, 32, p⟩, ⟨al .out, 32, po⟩]
  outs := al.Outs
  out rs := join01 e 64 (rs.r (al .x0)) (rs.r (al .x3))

/-- l.362-402 -/
@[asm] def storedBlock (e : Endian) (al : Alloc storedKind) (o : Bool × Bool) (pv p : BitVec 32)
    (val : BitVec 64) : Block 32 64 where
  code := storedAsm e al o pv
  args := [⟨al .dst, 32, p⟩, ⟨al .val, 32, pv⟩, ⟨al .x1, 32, word0 e 32 val⟩, ⟨al .x4, 32, word1 e 32 val⟩]
  outs := al.Outs
  keepsFlags := false

/-- l.407-453 -/
@[asm] def swapdBlock (e : Endian) (al : Alloc swapdKind) (o : Bool × Bool) (po pv p : BitVec 32)
    (val : BitVec 64) : Block 32 64 where
  code := swapdAsm e al o po pv
  args := [⟨al .dst, 32, p⟩, ⟨al .val, 32, pv⟩, ⟨al .out, 32, po⟩, ⟨al .x1, 32, word0 e 32 val⟩,
    ⟨al .x4, 32, word1 e 32 val⟩]
  outs := al.Outs
  keepsFlags := false
  out rs := join01 e 64 (rs.r (al .x0)) (rs.r (al .x3))

/-- operands and results of the 64-bit compare_exchange blocks (l.458-524, l.526-587) -/
@[asm] def casdFrame (e : Endian) (al : Alloc casdKind) (code : List (Instr 32))
    (po pold pnew p : BitVec 32) (old new : BitVec 64) : Block 32 64 where
  code := code
  args := [⟨al .dst, 32, p⟩, ⟨al .old, 32, pold⟩, ⟨al .new, 32, pnew⟩, ⟨al .out, 32, po⟩,
    ⟨al .x1, 32, word0 e 32 old⟩, ⟨al .x4, 32, word1 e 32 old⟩, ⟨al .x2, 32, word0 e 32 new⟩,
    ⟨al .x5, 32, word1 e 32 new⟩]
  outs := al.Outs
  keepsFlags := false
  out rs := join01 e 64 (rs.r (al .x0)) (rs.r (al .x3))
  ok rs := rs.r (al .r) == 0#32
  assumes rs := rs.r (al .r) = 0#32 ∨ rs.r (al .r) = 1#32

/-- `atomic_load` -/
inductive Load (e : Endian) (c : Conf) : Ordering → (w a : Nat) → Block 32 w → Prop
  | word (al) {o f w} (po p : BitVec 32) (hw : SubSize w ∨ w = 32) (hf : loadOrd o = some f) :
      Load e c o w p.toNat (loadBlock al w f po p)
  | dword (al) {o f} (hc : c.mclass = false) (po p : BitVec 32) (hf : loadOrd o = some f) :
      Load e c o 64 p.toNat (loaddBlock e al f po p)
/-- `atomic_store`; the 64-bit store uses `atomic_rmw!` with an ordering that passed
`assert_store_ordering` (src/lib.rs l.330-339). -/
inductive Store (e : Endian) (c : Conf) : Ordering → (w a : Nat) → BitVec w → Block 32 w → Prop
  | word (al) {o f w} (pv p : BitVec 32) (val : BitVec w) (hw : SubSize w ∨ w = 32)
      (hf : storeOrd o = some f) : Store e c o w p.toNat val (storeBlock al w f pv p val)
  | dword (al) {o} (hc : c.mclass = false) (pv p : BitVec 32) (val : BitVec 64)
      (hv : assertStoreOrdering o = .ok ()) :
      Store e c o 64 p.toNat val (storedBlock e al (rmwOrd o) pv p val)
/-- `atomic_swap` -/
inductive Swap (e : Endian) (c : Conf) : Ordering → (w a : Nat) → BitVec w → Block 32 w → Prop
  | word (al o) {w} (po pv p : BitVec 32) (val : BitVec w) (hw : SubSize w ∨ w = 32) (hb : pv ≠ po) :
      Swap e c o w p.toNat val (swapBlock al w (rmwOrd o) po pv p val)
  | dword (al o) (hc : c.mclass = false) (po pv p : BitVec 32) (val : BitVec 64) (hb : pv ≠ po) :
      Swap e c o 64 p.toNat val (swapdBlock e al (rmwOrd o) po pv p val)
/-- `atomic_compare_exchange`; the orderings passed `assert_compare_exchange_ordering` (src/lib.rs
l.537-557) and are combined by `upgrade_success_ordering` (l.197, l.466) -/
inductive Cas (e : Endian) (c : Conf) :
    Ordering → Ordering → (w a : Nat) → BitVec w → BitVec w → Block 32 w → Prop
  | word (al) {s f w} (po pold pnew p : BitVec 32) (old new : BitVec w) (hw : SubSize w ∨ w = 32)
      (hv : assertCompareExchangeOrdering s f = .ok ()) (hb : Distinct po pold pnew) :
      Cas e c s f w p.toNat old new
        (casFrame al w (casAsm c al w (rmwOrd (upgradeSuccessOrdering s f)) po pold pnew) po pold pnew p old new)
  | dword (al) {s f} (hc : c.mclass = false) (po pold pnew p : BitVec 32) (old new : BitVec 64)
      (hv : assertCompareExchangeOrdering s f = .ok ()) (hb : Distinct po pold pnew) :
      Cas e c s f 64 p.toNat old new
        (casdFrame e al (casdAsm e c al (rmwOrd (upgradeSuccessOrdering s f)) po pold pnew) po pold pnew p old new)
/-- `atomic_compare_exchange_weak` (l.257, l.534) -/
inductive CasWeak (e : Endian) (c : Conf) :
    Ordering → Ordering → (w a : Nat) → BitVec w → BitVec w → Block 32 w → Prop
  | word (al) {s f w} (po pold pnew p : BitVec 32) (old new : BitVec w) (hw : SubSize w ∨ w = 32)
      (hv : assertCompareExchangeOrdering s f = .ok ()) (hb : Distinct po pold pnew) :
      CasWeak e c s f w p.toNat old new
        (casFrame al w (weakAsm c al w (rmwOrd (upgradeSuccessOrdering s f)) po pold pnew) po pold pnew p old new)
  | dword (al) {s f} (hc : c.mclass = false) (po pold pnew p : BitVec 32) (old new : BitVec 64)
      (hv : assertCompareExchangeOrdering s f = .ok ()) (hb : Distinct po pold pnew) :
      CasWeak e c s f 64 p.toNat old new
        (casdFrame e al (weakdAsm e c al (rmwOrd (upgradeSuccessOrdering s f)) po pold pnew) po pold pnew p old new)

/-- The Armv8 AArch32 back end for old compilers. -/
def backend (e : Endian) (c : Conf) : Backend 32 where
  e := e
  imp := Pairs.none
  Load := Load e c
  Store := Store e c
  Swap := Swap e c
  Cas := Cas e c
  CasWeak := CasWeak e c

end Verif.LegacyArmv8
