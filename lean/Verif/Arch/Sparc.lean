/-
src/arch/sparc.rs: SPARC V9 (sparc64, or sparc with `v9`) and SPARC V8 with `leoncasa` (big endian).

Simplifications: the `nop`s (branch delay slots, LEON errata workarounds) and alignment directives are omitted;
`ldstub [%sp-1], %g0` (V8) is modelled by its barrier effect only, its write to the dead byte below the stack
pointer is not. V9 code is checked against RMO (no ordering without `membar`), V8 code against TSO.
-/
import Verif.Core.Alloc
import Verif.Contract
import Verif.Core.Ordering
import Verif.Core.Sizes
import Verif.Core.SubPtr

namespace Verif.Sparc
variable {W : Nat}

/-! ### Mnemonics -/

/-- `[reg]`. -/
@[asm] def ea (b : Nat) : RS W → Nat := fun s => (s.r b).toNat
/-- `ld{ub,uh,,x} [rs], rd`: zero-extending load (`ld` = `lduw`). -/
@[asm] def ld (w rs rd : Nat) : Instr W := .ld .plain (ea rs) w (fun x q => q.set rd (x.setWidth W))
/-- `st{b,h,,x} rv, [rs]`. -/
@[asm] def st (w rv rs : Nat) : Instr W := .st .plain (ea rs) w (fun q => (q.r rv).setWidth w)
/-- l.28-44 `cas!`: `cas{,x} [d], c, t` (V9) or `casa [d] 10, c, t` (LEON): x = *d; if x == c { *d = t }; t = x. -/
@[asm] def cas (w d c t : Nat) : Instr W :=
  .rmw .plain (ea d) w (fun q x => if x = (q.r c).setWidth w then some ((q.r t).setWidth w) else none)
    (fun x q => q.set t (x.setWidth W))
/-- `mov a, rd`. -/
@[asm] def mov (a rd : Nat) : Instr W := .op fun _ s => s.set rd (s.r a)
/-- `mov %g0, rd`. -/
@[asm] def clr (rd : Nat) : Instr W := .op fun _ s => s.set rd 0#W
/-- `mov imm, rd`. -/
@[asm] def movi (imm rd : Nat) : Instr W := .op fun _ s => s.set rd (BitVec.ofNat W imm)
/-- `cmp a, b`: icc.Z compares 32 bits (flag `z`), xcc.Z compares the registers (flag `cc`, 1 = equal). -/
@[asm] def cmp (a b : Nat) : Instr W :=
  .op fun _ s => (s.setZ ((s.r a).setWidth 32 == (s.r b).setWidth 32)).setCC
    (if s.r a = s.r b then 1 else 0)
/-- condition "equal" of `%icc` (objects up to 32 bits) or `%xcc` (64 bits) -/
@[asm] def eqCC (w : Nat) (s : RS W) : Bool := if w = 64 then s.cc == 1#2 else s.z
/-- l.46-66 `bne!`: `bne cc, target; nop`. -/
@[asm] def bne (w t : Nat) : Instr W := .br (fun s => !(eqCC w s)) t
/-- `move cc, imm, rd` (V9): rd = imm if equal. -/
@[asm] def move (w imm rd : Nat) : Instr W := .op fun _ s => s.setIf (eqCC w s) rd (BitVec.ofNat W imm)
/-- `and a, b, rd`. -/
@[asm] def and (a b rd : Nat) : Instr W := .op fun _ s => s.set rd (s.r a &&& s.r b)
/-- `andn a, b, rd`. -/
@[asm] def andn (a b rd : Nat) : Instr W := .op fun _ s => s.set rd (s.r a &&& ~~~(s.r b))
/-- `or a, b, rd`. -/
@[asm] def or (a b rd : Nat) : Instr W := .op fun _ s => s.set rd (s.r a ||| s.r b)
/-- `sll a, b, rd`: shifts the whole register by the low five bits of `b`. -/
@[asm] def sll (a b rd : Nat) : Instr W := .op fun _ s => s.set rd (s.r a <<< ((s.r b).toNat % 32))
/-- `srl a, b, rd`: shifts the low 32 bits right, zeroing the upper half. -/
@[asm] def srl (a b rd : Nat) : Instr W :=
  .op fun _ s => s.set rd (((s.r a).setWidth 32 >>> ((s.r b).toNat % 32)).setWidth W)

/-- `membar n`: bit 0 #LoadLoad, bit 1 #StoreLoad, bit 2 #LoadStore, bit 3 #StoreStore. -/
def membar (n : Nat) : Pairs := ⟨n.testBit 0, n.testBit 2, n.testBit 1, n.testBit 3, n.testBit 1⟩
/-- `stbar` -/
def stbar : Pairs := ⟨false, false, false, true, false⟩
/-- `ldstub [%sp-1], %g0`: under TSO an atomic load-store keeps earlier stores before later loads. -/
def ldstub : Pairs := ⟨false, false, true, false, true⟩
/-- `""` -/
def noFence : Pairs := Pairs.none

/-! ### Ordering tables: (acquire, release); `none` = `unreachable!()` -/

/-- l.124-164 `atomic_rmw!` -/
def rmwFences (v9 : Bool) : Ordering → Pairs × Pairs
  | .relaxed => (noFence, noFence)
  | .acquire => (if v9 then membar 15 else stbar, noFence)
  | .release => (noFence, if v9 then membar 15 else stbar.union ldstub)
  | .acqRel | .seqCst => if v9 then (membar 15, membar 15) else (stbar, stbar.union ldstub)
/-- l.191-218 -/
def loadFences (v9 : Bool) : Ordering → Option (Pairs × Pairs)
  | .relaxed => some (noFence, noFence)
  | .acquire => some (if v9 then membar 5 else stbar, noFence)
  | .seqCst => some (if v9 then (membar 5, membar 3) else (stbar, ldstub))
  | _ => none
/-- l.246-273 -/
def storeFences (v9 : Bool) : Ordering → Option (Pairs × Pairs)
  | .relaxed => some (noFence, noFence)
  | .release => some (noFence, if v9 then membar 12 else stbar)
  | .seqCst => some (if v9 then (membar 10, membar 12) else (stbar.union ldstub, stbar))
  | _ => none

/-! ### asm! blocks (`f` = (acquire, release) barriers) -/

/-- operands of l.185-186 -/
@[asm] def loadKind : Op → Kind
  | .src => .inp | .out => .lateout
  | _ => .unused
/-- l.181-188 `atomic_load` -/
@[asm] def loadAsm (al : Op → Nat) (w : Nat) (f : Pairs × Pairs) : List (Instr W) := [
    .fence f.2,
    ld w (al .src) (al .out),
    .fence f.1 ]
/-- operands of l.240-241 -/
@[asm] def storeKind : Op → Kind
  | .dst => .inp | .val => .inp
  | _ => .unused
/-- l.234-243 `atomic_store` -/
@[asm] def storeAsm (al : Op → Nat) (w : Nat) (f : Pairs × Pairs) : List (Instr W) := [
    .fence f.2,
    st w (al .val) (al .dst),
    .fence f.1 ]
/-- operands of l.307-310 -/
@[asm] def swapKind : Op → Kind
  | .dst => .inp | .val => .inp | .out => .out | .tmp => .out
  | _ => .unused
/-- l.297-313 `atomic_swap` -/
@[asm] def swapAsm (al : Op → Nat) (w : Nat) (f : Pairs × Pairs) : List (Instr W) := [
    .fence f.2,
    ld w (al .dst) (al .out),
    /- 2: -/ mov (al .out) (al .tmp),
    mov (al .val) (al .out),
    cas w (al .dst) (al .tmp) (al .out),
    cmp (al .out) (al .tmp),
    bne w 2,
    .fence f.1 ]
/-- operands of l.346-349 -/
@[asm] def casKind : Op → Kind
  | .dst => .inp | .old => .inp | .out => .inout | .r => .lateout
  | _ => .unused
/-- l.338-352 `atomic_compare_exchange` with the V9 `move_!` (l.69-78) -/
@[asm] def casAsm9 (al : Op → Nat) (w : Nat) (f : Pairs × Pairs) : List (Instr W) := [
    .fence f.2,
    cas w (al .dst) (al .old) (al .out),
    cmp (al .out) (al .old),
    clr (al .r),
    move w 1 (al .r),
    .fence f.1 ]
/-- l.338-352 `atomic_compare_exchange` with the V8 `move_!` (l.79-88) -/
@[asm] def casAsm8 (al : Op → Nat) (w : Nat) (f : Pairs × Pairs) : List (Instr W) := [
    .fence f.2,
    cas w (al .dst) (al .old) (al .out),
    cmp (al .out) (al .old),
    clr (al .r),
    bne w 6,
    movi 1 (al .r),
    /- 99: -/ .fence f.1 ]
/-- operands of l.398-403 -/
@[asm] def subSwapKind : Op → Kind
  | .dst => .inp | .val => .inout | .out => .out | .shift => .inp | .mask => .inout | .tmp => .out
  | _ => .unused
/-- l.384-406 sub-word `atomic_swap` -/
@[asm] def subSwapAsm (al : Op → Nat) (f : Pairs × Pairs) : List (Instr W) := [
    sll (al .mask) (al .shift) (al .mask),
    sll (al .val) (al .shift) (al .val),
    .fence f.2,
    ld 32 (al .dst) (al .out),
    /- 2: -/ mov (al .out) (al .tmp),
    andn (al .out) (al .mask) (al .out),
    or (al .out) (al .val) (al .out),
    cas 32 (al .dst) (al .tmp) (al .out),
    cmp (al .out) (al .tmp),
    bne 32 4,
    srl (al .out) (al .shift) (al .out),
    .fence f.1 ]
/-- operands of l.455-461 -/
@[asm] def subCasKind : Op → Kind
  | .dst => .inp | .old => .inout | .new => .inout | .out => .out | .shift => .inp | .mask => .inout | .tmp => .out
  | _ => .unused
/-- l.434-464 sub-word `atomic_compare_exchange` with the V9 `move_!` -/
@[asm] def subCasAsm9 (al : Op → Nat) (f : Pairs × Pairs) : List (Instr W) := [
    sll (al .mask) (al .shift) (al .mask),
    sll (al .old) (al .shift) (al .old),
    sll (al .new) (al .shift) (al .new),
    .fence f.2,
    ld 32 (al .dst) (al .out),
    /- 2: -/ and (al .out) (al .mask) (al .tmp),
    cmp (al .old) (al .tmp),
    bne 32 14,
    mov (al .out) (al .tmp),
    andn (al .out) (al .mask) (al .out),
    or (al .out) (al .new) (al .out),
    cas 32 (al .dst) (al .tmp) (al .out),
    cmp (al .out) (al .tmp),
    bne 32 5,
    /- 3: -/ clr (al .tmp),
    move 32 1 (al .tmp),
    srl (al .out) (al .shift) (al .out),
    .fence f.1 ]
/-- l.434-464 sub-word `atomic_compare_exchange` with the V8 `move_!` -/
@[asm] def subCasAsm8 (al : Op → Nat) (f : Pairs × Pairs) : List (Instr W) := [
    sll (al .mask) (al .shift) (al .mask),
    sll (al .old) (al .shift) (al .old),
    sll (al .new) (al .shift) (al .new),
    .fence f.2,
    ld 32 (al .dst) (al .out),
    /- 2: -/ and (al .out) (al .mask) (al .tmp),
    cmp (al .old) (al .tmp),
    bne 32 14,
    mov (al .out) (al .tmp),
    andn (al .out) (al .mask) (al .out),
    or (al .out) (al .new) (al .out),
    cas 32 (al .dst) (al .tmp) (al .out),
    cmp (al .out) (al .tmp),
    bne 32 5,
    /- 3: -/ clr (al .tmp),
    bne 32 17,
    movi 1 (al .tmp),
    /- 99: -/ srl (al .out) (al .shift) (al .out),
    .fence f.1 ]

/-! ### Blocks and back end -/

/-- Parameters of `create_sub_word_mask_values` on SPARC (src/utils.rs l.261-273, l.282). -/
def subCfg : SubWordCfg := { shiftMask := false, leLike := false }
/-- (aligned_ptr, shift, mask) for an object of `w` bits at `p`. The aligned pointer is passed with `ptr_reg!` (src/gen/utils.rs
l.30-100), which zero-extends it if pointers (of `P` bits) are narrower than registers (`C28_zero_extend64_ptr`). -/
def sub (W : Nat) (w : Nat) {P : Nat} (p : BitVec P) : BitVec W × BitVec W × BitVec W :=
  let v := createSubWordMaskValues subCfg P W (w / 8) p
  (v.1.setWidth W, v.2.1, v.2.2)

/-- l.169-221 -/
@[asm] def loadBlock (al : Alloc loadKind) (w : Nat) (f : Pairs × Pairs) (p : BitVec W) : Block W w where
  code := loadAsm al w f
  args := [⟨al .src, W, p⟩]
  outs := al.Outs
  out rs := (rs.r (al .out)).setWidth w
/-- l.222-276 -/
@[asm] def storeBlock (al : Alloc storeKind) (w : Nat) (f : Pairs × Pairs) (p : BitVec W) (val : BitVec w) :
    Block W w where
  code := storeAsm al w f
  args := [⟨al .dst, W, p⟩, ⟨al .val, w, val⟩]
  outs := al.Outs
/-- l.284-320 -/
@[asm] def swapBlock (al : Alloc swapKind) (w : Nat) (f : Pairs × Pairs) (p : BitVec W) (val : BitVec w) :
    Block W w where
  code := swapAsm al w f
  args := [⟨al .dst, W, p⟩, ⟨al .val, w, val⟩]
  outs := al.Outs
  keepsFlags := false
  out rs := (rs.r (al .out)).setWidth w
/-- l.321-360 -/
@[asm] def casBlock (v9 : Bool) (al : Alloc casKind) (w : Nat) (f : Pairs × Pairs) (p : BitVec W)
    (old new : BitVec w) : Block W w where
  code := if v9 then casAsm9 al w f else casAsm8 al w f
  args := [⟨al .dst, W, p⟩, ⟨al .old, w, old⟩, ⟨al .out, w, new⟩]
  outs := al.Outs
  keepsFlags := false
  out rs := (rs.r (al .out)).setWidth w
  ok rs := rs.r (al .r) != 0#W
  assumes rs := rs.r (al .r) = 0#W ∨ rs.r (al .r) = 1#W
/-- l.368-413 -/
@[asm] def subSwapBlock (al : Alloc subSwapKind) (w : Nat) (f : Pairs × Pairs) {P : Nat} (p : BitVec P)
    (val : BitVec w) : Block W w where
  code := subSwapAsm al f
  args := [⟨al .dst, W, (sub W w p).1⟩, ⟨al .shift, W, (sub W w p).2.1⟩, ⟨al .mask, W, (sub W w p).2.2⟩,
    ⟨al .val, 32, zeroExtend .big val⟩]
  outs := al.Outs
  keepsFlags := false
  out rs := (rs.r (al .out)).setWidth w
/-- l.414-472 -/
@[asm] def subCasBlock (v9 : Bool) (al : Alloc subCasKind) (w : Nat) (f : Pairs × Pairs) {P : Nat} (p : BitVec P)
    (old new : BitVec w) : Block W w where
  code := if v9 then subCasAsm9 al f else subCasAsm8 al f
  args := [⟨al .dst, W, (sub W w p).1⟩, ⟨al .shift, W, (sub W w p).2.1⟩, ⟨al .mask, W, (sub W w p).2.2⟩,
    ⟨al .old, 32, zeroExtend .big old⟩, ⟨al .new, 32, zeroExtend .big new⟩]
  outs := al.Outs
  keepsFlags := false
  out rs := (rs.r (al .out)).setWidth w
  ok rs := rs.r (al .tmp) != 0#W
  assumes rs := rs.r (al .tmp) = 0#W ∨ rs.r (al .tmp) = 1#W

/-- `atomic_load` (l.475-495: 8, 16, 32 and, on sparc64, 64 bits) -/
inductive Load (v9 : Bool) : Ordering → (w a : Nat) → Block W w → Prop
  | mk (al) {o f w} (p : BitVec W) (hw : SubSize w ∨ WordSize W w) (hf : loadFences v9 o = some f) :
      Load v9 o w p.toNat (loadBlock al w f p)
/-- `atomic_store` -/
inductive Store (v9 : Bool) : Ordering → (w a : Nat) → BitVec w → Block W w → Prop
  | mk (al) {o f w} (p : BitVec W) (val : BitVec w) (hw : SubSize w ∨ WordSize W w)
      (hf : storeFences v9 o = some f) : Store v9 o w p.toNat val (storeBlock al w f p val)
/-- `atomic_swap` -/
inductive Swap (v9 : Bool) : Ordering → (w a : Nat) → BitVec w → Block W w → Prop
  | word (al o) {w} (p : BitVec W) (val : BitVec w) (hw : WordSize W w) :
      Swap v9 o w p.toNat val (swapBlock al w (rmwFences v9 o) p val)
  | sub (al o) {w P} (p : BitVec P) (val : BitVec w) (hw : SubSize w) (hal : SubPtr W w p) :
      Swap v9 o w p.toNat val (subSwapBlock al w (rmwFences v9 o) p val)
/-- `atomic_compare_exchange`, called with orderings that passed `assert_compare_exchange_ordering`
(src/lib.rs l.536-557); the weak form defaults to it (src/raw.rs) -/
inductive Cas (v9 : Bool) : Ordering → Ordering → (w a : Nat) → BitVec w → BitVec w → Block W w → Prop
  | word (al s f) {w} (p : BitVec W) (old new : BitVec w) (hw : WordSize W w)
      (hv : assertCompareExchangeOrdering s f = .ok ()) :
      Cas v9 s f w p.toNat old new (casBlock v9 al w (rmwFences v9 (upgradeSuccessOrdering s f)) p old new)
  | sub (al s f) {w P} (p : BitVec P) (old new : BitVec w) (hw : SubSize w)
      (hv : assertCompareExchangeOrdering s f = .ok ()) (hal : SubPtr W w p) :
      Cas v9 s f w p.toNat old new (subCasBlock v9 al w (rmwFences v9 (upgradeSuccessOrdering s f)) p old new)

/-- What the processor orders without barriers: nothing under RMO (V9), everything but store-load under TSO (V8). -/
def imp (v9 : Bool) : Pairs := if v9 then Pairs.none else ⟨true, true, false, true, false⟩

/-- The SPARC back end; `W` is 32 or 64. -/
def backend (W : Nat) (v9 : Bool) : Backend W where
  e := .big
  imp := imp v9
  Load := Load v9
  Store := Store v9
  Swap := Swap v9
  Cas := Cas v9
  CasWeak := Cas v9

end Verif.Sparc
