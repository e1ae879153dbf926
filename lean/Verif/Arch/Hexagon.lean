/-
src/arch/hexagon.rs: Hexagon (little endian, 32-bit registers).

The back end ignores the ordering arguments and emits no barrier: it relies on the processor keeping all
memory accesses in program order (`imp := full` below, an assumption about the hardware).
8- and 16-bit swap/compare_exchange use word-sized locked accesses, 64-bit objects use register pairs.
The predicate register `p0` is an operand of the blocks (`Op.cr`, `out("p0") _`); the explicit registers r2..r7
are the operands `*_lo`, `*_hi`. Simplification: the two instructions of a packet
`{ p0 = cmp.eq(..); if (!p0.new) jump }` execute one after the other.
-/
import Verif.Core.Alloc
import Verif.Contract
import Verif.Core.Ordering
import Verif.Core.Sizes
import Verif.Core.Pair

namespace Verif.Hexagon

/-! ### Mnemonics -/

/-- Base-register address `mem*(reg)`. -/
@[asm] def ea (b : Nat) : RS 32 → Nat := fun s => (s.r b).toNat
/-- A predicate register: all eight bits set or clear. -/
def pred (b : Bool) : BitVec 32 := if b then 0xff#32 else 0#32
/-- What a conditional jump tests: the least significant bit. -/
def lsb (x : BitVec 32) : Bool := x.getLsbD 0
@[asm] theorem pred_lsb (b : Bool) : lsb (pred b) = b := by cases b <;> decide
/-- `rd = mem{ub,uh,w}(rs)`: zero-extending load. -/
@[asm] def mem (w rd rs : Nat) : Instr 32 := .ld .plain (ea rs) w (fun x s => s.set rd (x.setWidth 32))
/-- `mem{b,h,w}(rs) = rv`. -/
@[asm] def memst (w rs rv : Nat) : Instr 32 := .st .plain (ea rs) w (fun s => (s.r rv).setWidth w)
/-- `rd = memw_locked(rs)`. -/
@[asm] def memw_locked (rd rs : Nat) : Instr 32 := .ll .plain false (ea rs) 32 (fun x s => s.set rd x)
/-- `memw_locked(rs,p) = rv`. -/
@[asm] def memw_cond (rs p rv : Nat) : Instr 32 :=
  .sc .plain (ea rs) 32 (fun s => s.r rv) (fun b _ s => s.set p (pred b))
/-- `rhi:lo = memd(rs)`. -/
@[asm] def memd (lo hi rs : Nat) : Instr 32 :=
  .ld .plain (ea rs) 64 (fun x s => (s.set lo (word0 .little 32 x)).set hi (word1 .little 32 x))
/-- `memd(rs) = rhi:lo`. -/
@[asm] def memdst (rs lo hi : Nat) : Instr 32 :=
  .st .plain (ea rs) 64 (fun s => join01 .little 64 (s.r lo) (s.r hi))
/-- `rhi:lo = memd_locked(rs)`. -/
@[asm] def memd_locked (lo hi rs : Nat) : Instr 32 :=
  .ll .plain false (ea rs) 64 (fun x s => (s.set lo (word0 .little 32 x)).set hi (word1 .little 32 x))
/-- `memd_locked(rs,p) = rhi:lo`. -/
@[asm] def memd_cond (rs p lo hi : Nat) : Instr 32 :=
  .sc .plain (ea rs) 64 (fun s => join01 .little 64 (s.r lo) (s.r hi)) (fun b _ s => s.set p (pred b))
/-- `p = cmp.eq(a,b)`. -/
@[asm] def cmpeq (p a b : Nat) : Instr 32 := .op fun _ s => s.set p (pred (s.r a == s.r b))
/-- `if (!p) jump t`: tests the least significant bit. -/
@[asm] def jumpNot (p t : Nat) : Instr 32 := .br (fun s => !lsb (s.r p)) t
/-- `jump t`. -/
@[asm] def jump (t : Nat) : Instr 32 := .br (fun _ => true) t
/-- `rd = #imm`. -/
@[asm] def seti (rd : Nat) (imm : BitVec 32) : Instr 32 := .op fun _ s => s.set rd imm
/-- `rd = and(a,b)`. -/
@[asm] def and (rd a b : Nat) : Instr 32 := .op fun _ s => s.set rd (s.r a &&& s.r b)
/-- `rd = and(a,~b)`. -/
@[asm] def andn (rd a b : Nat) : Instr 32 := .op fun _ s => s.set rd (s.r a &&& ~~~s.r b)
/-- `rd = or(a,b)`. -/
@[asm] def or (rd a b : Nat) : Instr 32 := .op fun _ s => s.set rd (s.r a ||| s.r b)
/-- Shift left by a signed 7-bit amount; a negative amount shifts right (arithmetically). -/
def aslVal (x amount : BitVec 32) : BitVec 32 :=
  if amount.toNat % 128 < 64 then x <<< (amount.toNat % 128) else x.sshiftRight (128 - amount.toNat % 128)
/-- Arithmetic shift right by a signed 7-bit amount; a negative amount shifts left. -/
def asrVal (x amount : BitVec 32) : BitVec 32 :=
  if amount.toNat % 128 < 64 then x.sshiftRight (amount.toNat % 128) else x <<< (128 - amount.toNat % 128)
/-- `rd = asl(a,b)`. -/
@[asm] def asl (rd a b : Nat) : Instr 32 := .op fun _ s => s.set rd (aslVal (s.r a) (s.r b))
/-- `rd = asr(a,b)`. -/
@[asm] def asr (rd a b : Nat) : Instr 32 := .op fun _ s => s.set rd (asrVal (s.r a) (s.r b))

/-! ### asm! blocks -/

/-- operands of l.43-44 -/
@[asm] def loadKind : Op → Kind
  | .src => .inp | .out => .lateout | _ => .unused
/-- l.41-46 `atomic_load`. -/
@[asm] def loadAsm (al : Op → Nat) (w : Nat) : List (Instr 32) := [ mem w (al .out) (al .src) ]
/-- operands of l.64-65 -/
@[asm] def storeKind : Op → Kind
  | .dst => .inp | .val => .inp | _ => .unused
/-- l.61-66 `atomic_store`. -/
@[asm] def storeAsm (al : Op → Nat) (w : Nat) : List (Instr 32) := [ memst w (al .dst) (al .val) ]
/-- operands of l.94-97 -/
@[asm] def swapKind : Op → Kind
  | .dst => .inp | .val => .inp | .out => .out | .cr => .out | _ => .unused
/-- l.89-99 word `atomic_swap`. -/
@[asm] def swapAsm (al : Op → Nat) : List (Instr 32) := [
    /- 2: -/ memw_locked (al .out) (al .dst),
    memw_cond (al .dst) (al .cr) (al .val),
    jumpNot (al .cr) 0 ]
/-- operands of l.130-135 -/
@[asm] def casKind : Op → Kind
  | .dst => .inp | .old => .inp | .new => .inp | .out => .out | .r => .inout | .cr => .out | _ => .unused
/-- l.118-136 word `atomic_compare_exchange`. -/
@[asm] def casAsm (al : Op → Nat) : List (Instr 32) := [
    /- 2: -/ memw_locked (al .out) (al .dst),
    cmpeq (al .cr) (al .out) (al .old),
    jumpNot (al .cr) 6,
    memw_cond (al .dst) (al .cr) (al .new),
    jumpNot (al .cr) 0,
    jump 7,
    /- 3: -/ seti (al .r) 0#32 ]
/-- operands of l.173-179 -/
@[asm] def subSwapKind : Op → Kind
  | .dst => .inp | .val => .inout | .out => .out | .shift => .inp | .mask => .inp | .tmp => .out | .cr => .out
  | _ => .unused
/-- l.164-181 sub-word `atomic_swap`. -/
@[asm] def subSwapAsm (al : Op → Nat) : List (Instr 32) := [
    asl (al .val) (al .val) (al .shift),
    /- 2: -/ memw_locked (al .out) (al .dst),
    andn (al .tmp) (al .out) (al .mask),
    or (al .tmp) (al .tmp) (al .val),
    memw_cond (al .dst) (al .cr) (al .tmp),
    jumpNot (al .cr) 1,
    asr (al .out) (al .out) (al .shift) ]
/-- operands of l.221-229 -/
@[asm] def subCasKind : Op → Kind
  | .dst => .inp | .old => .inout | .new => .inout | .out => .out | .shift => .inp | .mask => .inp
  | .tmp => .out | .r => .inout | .cr => .out | _ => .unused
/-- l.204-231 sub-word `atomic_compare_exchange`. -/
@[asm] def subCasAsm (al : Op → Nat) : List (Instr 32) := [
    asl (al .old) (al .old) (al .shift),
    asl (al .new) (al .new) (al .shift),
    /- 2: -/ memw_locked (al .out) (al .dst),
    and (al .tmp) (al .out) (al .mask),
    cmpeq (al .cr) (al .tmp) (al .old),
    jumpNot (al .cr) 11,
    andn (al .tmp) (al .out) (al .mask),
    or (al .tmp) (al .tmp) (al .new),
    memw_cond (al .dst) (al .cr) (al .tmp),
    jumpNot (al .cr) 2,
    jump 12,
    /- 3: -/ seti (al .r) 0#32,
    /- 4: -/ asr (al .out) (al .out) (al .shift) ]

/-- operands of l.257-259 -/
@[asm] def loaddKind : Op → Kind
  | .src => .inp | .prev_lo => .out | .prev_hi => .out | _ => .unused
/-- l.262-268 64-bit `atomic_load`. -/
@[asm] def loaddAsm (al : Op → Nat) : List (Instr 32) := [ memd (al .prev_lo) (al .prev_hi) (al .src) ]
/-- operands of l.280-282 -/
@[asm] def storedKind : Op → Kind
  | .dst => .inp | .val_lo => .inp | .val_hi => .inp | _ => .unused
/-- l.285-291 64-bit `atomic_store`. -/
@[asm] def storedAsm (al : Op → Nat) : List (Instr 32) := [ memdst (al .dst) (al .val_lo) (al .val_hi) ]
/-- operands of l.313-318 -/
@[asm] def swapdKind : Op → Kind
  | .dst => .inp | .val_lo => .inp | .val_hi => .inp | .prev_lo => .out | .prev_hi => .out | .cr => .out
  | _ => .unused
/-- l.308-320 64-bit `atomic_swap`. -/
@[asm] def swapdAsm (al : Op → Nat) : List (Instr 32) := [
    /- 2: -/ memd_locked (al .prev_lo) (al .prev_hi) (al .dst),
    memd_cond (al .dst) (al .cr) (al .val_lo) (al .val_hi),
    jumpNot (al .cr) 0 ]
/-- operands of l.356-364 -/
@[asm] def casdKind : Op → Kind
  | .dst => .inp | .r => .inout | .old_lo => .inp | .old_hi => .inp | .new_lo => .inp | .new_hi => .inp
  | .prev_lo => .out | .prev_hi => .out | .cr => .out | _ => .unused
/-- l.342-366 64-bit `atomic_compare_exchange`. -/
@[asm] def casdAsm (al : Op → Nat) : List (Instr 32) := [
    /- 2: -/ memd_locked (al .prev_lo) (al .prev_hi) (al .dst),
    cmpeq (al .cr) (al .prev_lo) (al .old_lo),
    jumpNot (al .cr) 8,
    cmpeq (al .cr) (al .prev_hi) (al .old_hi),
    jumpNot (al .cr) 8,
    memd_cond (al .dst) (al .cr) (al .new_lo) (al .new_hi),
    jumpNot (al .cr) 0,
    jump 9,
    /- 3: -/ seti (al .r) 0#32 ]

/-! ### Blocks and back end -/

/-- Parameters of `create_sub_word_mask_values` on Hexagon (src/utils.rs l.261-273, l.282). -/
def subCfg : SubWordCfg := { shiftMask := true, leLike := true }

/-- (aligned_ptr, shift, mask) for an object of `w` bits at `p`. -/
abbrev sub (w : Nat) (p : BitVec 32) : BitVec 32 × BitVec 32 × BitVec 32 :=
  createSubWordMaskValues subCfg 32 32 (w / 8) p

/-- l.32-49 -/
@[asm] def loadBlock (al : Alloc loadKind) (w : Nat) (p : BitVec 32) : Block 32 w where
  code := loadAsm al w
  args := [⟨al .src, 32, p⟩]
  outs := al.Outs
  out rs := (rs.r (al .out)).setWidth w
/-- l.51-69 -/
@[asm] def storeBlock (al : Alloc storeKind) (w : Nat) (p : BitVec 32) (val : BitVec w) : Block 32 w where
  code := storeAsm al w
  args := [⟨al .dst, 32, p⟩, ⟨al .val, w, val⟩]
  outs := al.Outs
/-- l.78-103 -/
@[asm] def swapBlock (al : Alloc swapKind) (p : BitVec 32) (val : BitVec 32) : Block 32 32 where
  code := swapAsm al
  args := [⟨al .dst, 32, p⟩, ⟨al .val, 32, val⟩]
  outs := al.Outs
  out rs := rs.r (al .out)
/-- l.105-141 (l.117: `let mut r: i32 = 1`) -/
@[asm] def casBlock (al : Alloc casKind) (p : BitVec 32) (old new : BitVec 32) : Block 32 32 where
  code := casAsm al
  args := [⟨al .dst, 32, p⟩, ⟨al .old, 32, old⟩, ⟨al .new, 32, new⟩, ⟨al .r, 32, 1#32⟩]
  outs := al.Outs
  out rs := rs.r (al .out)
  ok rs := rs.r (al .r) != 0#32
  assumes rs := rs.r (al .r) = 0#32 ∨ rs.r (al .r) = 1#32
/-- l.148-182 -/
@[asm] def subSwapBlock (al : Alloc subSwapKind) (w : Nat) (p : BitVec 32) (val : BitVec w) : Block 32 w where
  code := subSwapAsm al
  args := [⟨al .dst, 32, (sub w p).1⟩, ⟨al .shift, 32, (sub w p).2.1⟩, ⟨al .mask, 32, (sub w p).2.2⟩,
    ⟨al .val, 32, zeroExtend .little val⟩]
  outs := al.Outs
  out rs := (rs.r (al .out)).setWidth w
/-- l.184-230 (l.196: `let mut r: i32 = 1`) -/
@[asm] def subCasBlock (al : Alloc subCasKind) (w : Nat) (p : BitVec 32) (old new : BitVec w) : Block 32 w where
  code := subCasAsm al
  args := [⟨al .dst, 32, (sub w p).1⟩, ⟨al .shift, 32, (sub w p).2.1⟩, ⟨al .mask, 32, (sub w p).2.2⟩,
    ⟨al .old, 32, zeroExtend .little old⟩, ⟨al .new, 32, zeroExtend .little new⟩, ⟨al .r, 32, 1#32⟩]
  outs := al.Outs
  out rs := (rs.r (al .out)).setWidth w
  ok rs := rs.r (al .r) != 0#32
  assumes rs := rs.r (al .r) = 0#32 ∨ rs.r (al .r) = 1#32
/-- l.245-265 -/
@[asm] def loaddBlock (al : Alloc loaddKind) (p : BitVec 32) : Block 32 64 where
  code := loaddAsm al
  args := [⟨al .src, 32, p⟩]
  outs := al.Outs
  out rs := ofPair true .little 64 (rs.r (al .prev_lo)) (rs.r (al .prev_hi))
/-- l.266-287 -/
@[asm] def storedBlock (al : Alloc storedKind) (p : BitVec 32) (val : BitVec 64) : Block 32 64 where
  code := storedAsm al
  args := [⟨al .dst, 32, p⟩, ⟨al .val_lo, 32, (pairOf true .little 32 val).1⟩,
    ⟨al .val_hi, 32, (pairOf true .little 32 val).2⟩]
  outs := al.Outs
/-- l.288-318 -/
@[asm] def swapdBlock (al : Alloc swapdKind) (p : BitVec 32) (val : BitVec 64) : Block 32 64 where
  code := swapdAsm al
  args := [⟨al .dst, 32, p⟩, ⟨al .val_lo, 32, (pairOf true .little 32 val).1⟩,
    ⟨al .val_hi, 32, (pairOf true .little 32 val).2⟩]
  outs := al.Outs
  out rs := ofPair true .little 64 (rs.r (al .prev_lo)) (rs.r (al .prev_hi))
/-- l.319-369 (l.337: `let mut r: i32 = 1`) -/
@[asm] def casdBlock (al : Alloc casdKind) (p : BitVec 32) (old new : BitVec 64) : Block 32 64 where
  code := casdAsm al
  args := [⟨al .dst, 32, p⟩, ⟨al .r, 32, 1#32⟩, ⟨al .old_lo, 32, (pairOf true .little 32 old).1⟩,
    ⟨al .old_hi, 32, (pairOf true .little 32 old).2⟩, ⟨al .new_lo, 32, (pairOf true .little 32 new).1⟩,
    ⟨al .new_hi, 32, (pairOf true .little 32 new).2⟩]
  outs := al.Outs
  out rs := ofPair true .little 64 (rs.r (al .prev_lo)) (rs.r (al .prev_hi))
  ok rs := rs.r (al .r) != 0#32
  assumes rs := rs.r (al .r) = 0#32 ∨ rs.r (al .r) = 1#32

/-- `atomic_load`; every ordering that passed `assert_load_ordering` (src/lib.rs l.295-309) -/
inductive Load : Ordering → (w a : Nat) → Block 32 w → Prop
  | word (al) {o w} (p : BitVec 32) (hw : SubSize w ∨ w = 32) (hv : assertLoadOrdering o = .ok ()) :
      Load o w p.toNat (loadBlock al w p)
  | dword (al) {o} (p : BitVec 32) (hv : assertLoadOrdering o = .ok ()) : Load o 64 p.toNat (loaddBlock al p)
/-- `atomic_store`; every ordering that passed `assert_store_ordering` (src/lib.rs l.330-340) -/
inductive Store : Ordering → (w a : Nat) → BitVec w → Block 32 w → Prop
  | word (al) {o w} (p : BitVec 32) (val : BitVec w) (hw : SubSize w ∨ w = 32)
      (hv : assertStoreOrdering o = .ok ()) : Store o w p.toNat val (storeBlock al w p val)
  | dword (al) {o} (p : BitVec 32) (val : BitVec 64) (hv : assertStoreOrdering o = .ok ()) :
      Store o 64 p.toNat val (storedBlock al p val)
/-- `atomic_swap` -/
inductive Swap : Ordering → (w a : Nat) → BitVec w → Block 32 w → Prop
  | word (al o) (p : BitVec 32) (val : BitVec 32) : Swap o 32 p.toNat val (swapBlock al p val)
  | sub (al o) {w} (p : BitVec 32) (val : BitVec w) (hw : SubSize w) (hal : p.toNat % (w / 8) = 0) :
      Swap o w p.toNat val (subSwapBlock al w p val)
  | dword (al o) (p : BitVec 32) (val : BitVec 64) : Swap o 64 p.toNat val (swapdBlock al p val)
/-- `atomic_compare_exchange`, called with orderings that passed `assert_compare_exchange_ordering`
(src/lib.rs l.536-557); the weak form defaults to it (src/raw.rs) -/
inductive Cas : Ordering → Ordering → (w a : Nat) → BitVec w → BitVec w → Block 32 w → Prop
  | word (al s f) (p : BitVec 32) (old new : BitVec 32) (hv : assertCompareExchangeOrdering s f = .ok ()) :
      Cas s f 32 p.toNat old new (casBlock al p old new)
  | sub (al s f) {w} (p : BitVec 32) (old new : BitVec w) (hw : SubSize w)
      (hv : assertCompareExchangeOrdering s f = .ok ()) (hal : p.toNat % (w / 8) = 0) :
      Cas s f w p.toNat old new (subCasBlock al w p old new)
  | dword (al s f) (p : BitVec 32) (old new : BitVec 64) (hv : assertCompareExchangeOrdering s f = .ok ()) :
      Cas s f 64 p.toNat old new (casdBlock al p old new)

/-- The Hexagon back end. `imp`: the processor is assumed to keep all accesses in program order. -/
def backend : Backend 32 where
  e := .little
  imp := Pairs.full
  Load := Load
  Store := Store
  Swap := Swap
  Cas := Cas
  CasWeak := Cas

end Verif.Hexagon
