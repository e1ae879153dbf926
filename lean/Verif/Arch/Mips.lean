/-
src/arch/mips.rs (mips, mips32r6, mips64, mips64r6; both endiannesses).

`W` is the register size (32 or 64), `w` the object size in bits. `.set` directives are not modelled;
branch delay slots are filled by the assembler (the code is assembled in `reorder` mode).
-/
import Verif.Core.Alloc
import Verif.Contract
import Verif.Core.Ordering
import Verif.Core.Sizes
import Verif.Core.SubPtr

namespace Verif.Mips

/-! ### Mnemonics -/
section
variable {W : Nat}

/-- Base-register address `0(reg)`. -/
@[asm] def ea (b : Nat) : RS W → Nat := fun s => (s.r b).toNat
/-- `l{b,h,w,d} rd, 0(rs)`: sign-extending load (the `$l_u_suffix` argument is not used by the macro). -/
@[asm] def l (w rd rs : Nat) : Instr W := .ld .plain (ea rs) w (fun x s => s.set rd (x.signExtend W))
/-- `s{b,h,w,d} rv, 0(rs)`. -/
@[asm] def s (w rv rs : Nat) : Instr W := .st .plain (ea rs) w (fun s => (s.r rv).setWidth w)
/-- `ll[d] rd, 0(rs)`. -/
@[asm] def ll (w rd rs : Nat) : Instr W := .ll .plain false (ea rs) w (fun x s => s.set rd (x.signExtend W))
/-- `sc[d] rt, 0(rs)`: stores rt, then rt = 1 on success, 0 on failure. -/
@[asm] def sc (w rt rs : Nat) : Instr W :=
  .sc .plain (ea rs) w (fun s => (s.r rt).setWidth w) (fun ok _ s => s.set rt (if ok then 1#W else 0#W))
/-- `bne a, b, target`. -/
@[asm] def bne (a b t : Nat) : Instr W := .br (fun s => s.r a != s.r b) t
/-- `beqz a, target`. -/
@[asm] def beqz (a t : Nat) : Instr W := .br (fun s => s.r a == 0#W) t
/-- `b target`. -/
@[asm] def b (t : Nat) : Instr W := .br (fun _ => true) t
/-- `move rd, rs`. -/
@[asm] def move (rd rs : Nat) : Instr W := .op fun _ s => s.set rd (s.r rs)
/-- `li rd, 0`. -/
@[asm] def li0 (rd : Nat) : Instr W := .op fun _ s => s.set rd 0#W
/-- `xor rd, a, b`. -/
@[asm] def xor (rd a b : Nat) : Instr W := .op fun _ s => s.set rd (s.r a ^^^ s.r b)
/-- `and rd, a, b`. -/
@[asm] def and (rd a b : Nat) : Instr W := .op fun _ s => s.set rd (s.r a &&& s.r b)
/-- `sllv rd, rt, rs`: 32-bit shift, amount modulo 32, result sign-extended. -/
@[asm] def sllv (rd a b : Nat) : Instr W :=
  .op fun _ s => s.set rd (((s.r a).setWidth 32 <<< ((s.r b).toNat % 32)).signExtend W)
/-- `srlv rd, rt, rs`: 32-bit shift, amount modulo 32, result sign-extended; on 64-bit processors the
result is UNPREDICTABLE unless rt holds a sign-extended 32-bit value. -/
@[asm] def srlv (rd a b : Nat) : Instr W :=
  .op fun o s => s.set rd (if IsSext (s.r a) then
    (((s.r a).setWidth 32 >>> ((s.r b).toNat % 32)).signExtend W) else BitVec.ofNat W o.junk)
end

/-- `sync` -/
def sync : Pairs := Pairs.full
/-- `""` -/
def noFence : Pairs := Pairs.none

/-! ### Ordering tables (`none` = `unreachable!()`) -/

/-- l.24-35 `atomic_rmw!`: (acquire, release), used by stores (l.97), swap and compare_exchange. -/
def rmwFences : Ordering → Pairs × Pairs
  | .relaxed => (noFence, noFence)
  | .acquire => (sync, noFence)
  | .release => (noFence, sync)
  | .acqRel | .seqCst => (sync, sync)
/-- l.63-68: acquire fence of a load. -/
def loadFence : Ordering → Option Pairs
  | .relaxed => some noFence
  | .acquire | .seqCst => some sync
  | _ => none

/-! ### asm! blocks -/
section
variable {W : Nat}

/-- operands of l.59-60 -/
@[asm] def loadKind : Op → Kind
  | .src => .inp | .out => .out | _ => .unused
/-- l.49-62 `atomic_load`. -/
@[asm] def loadAsm (al : Op → Nat) (w : Nat) (f : Pairs) : List (Instr W) :=
  [ l w (al .out) (al .src), .fence f ]

/-- operands of l.95-96 -/
@[asm] def storeKind : Op → Kind
  | .dst => .inp | .val => .inp | _ => .unused
/-- l.88-98 `atomic_store`. -/
@[asm] def storeAsm (al : Op → Nat) (w : Nat) (f : Pairs × Pairs) : List (Instr W) :=
  [ .fence f.2, s w (al .val) (al .dst), .fence f.1 ]

/-- operands of l.137-140 -/
@[asm] def swapKind : Op → Kind
  | .dst => .inp | .val => .inp | .out => .out | .tmp => .out | _ => .unused
/-- l.126-142 word `atomic_swap`. Label `2:` = 1. -/
@[asm] def swapAsm (al : Op → Nat) (w : Nat) (f : Pairs × Pairs) : List (Instr W) :=
  [ .fence f.2,
    ll w (al .out) (al .dst),
    move (al .tmp) (al .val),
    sc w (al .tmp) (al .dst),
    beqz (al .tmp) 1,
    .fence f.1 ]

/-- operands of l.184-188 -/
@[asm] def casKind : Op → Kind
  | .dst => .inp | .old => .inp | .new => .inp | .out => .out | .tmp => .out | _ => .unused
/-- l.164-190 word `atomic_compare_exchange`. Labels `2:` = 1, `3:` = 7, `4:` = 8. -/
@[asm] def casAsm (al : Op → Nat) (w : Nat) (f : Pairs × Pairs) : List (Instr W) :=
  [ .fence f.2,
    ll w (al .out) (al .dst),
    bne (al .out) (al .old) 7,
    move (al .tmp) (al .new),
    sc w (al .tmp) (al .dst),
    beqz (al .tmp) 1,
    b 8,
    li0 (al .tmp),
    .fence f.1 ]

/-- operands of l.239-244 -/
@[asm] def subSwapKind : Op → Kind
  | .dst => .inp | .val => .inout | .out => .out | .shift => .inp | .mask => .inout | .tmp => .out
  | _ => .unused
/-- l.223-246 sub-word `atomic_swap`. Label `2:` = 3. -/
@[asm] def subSwapAsm (al : Op → Nat) (f : Pairs × Pairs) : List (Instr W) :=
  [ sllv (al .mask) (al .mask) (al .shift),
    sllv (al .val) (al .val) (al .shift),
    .fence f.2,
    ll 32 (al .out) (al .dst),
    xor (al .tmp) (al .out) (al .val),
    and (al .tmp) (al .tmp) (al .mask),
    xor (al .tmp) (al .tmp) (al .out),
    sc 32 (al .tmp) (al .dst),
    beqz (al .tmp) 3,
    srlv (al .out) (al .out) (al .shift),
    .fence f.1 ]

/-- operands of l.298-304 -/
@[asm] def subCasKind : Op → Kind
  | .dst => .inp | .old => .inout | .new => .inout | .out => .out | .shift => .inp | .mask => .inout
  | .tmp => .out | _ => .unused
/-- l.272-306 sub-word `atomic_compare_exchange`. Labels `2:` = 4, `3:` = 13, `4:` = 14. -/
@[asm] def subCasAsm (al : Op → Nat) (f : Pairs × Pairs) : List (Instr W) :=
  [ sllv (al .mask) (al .mask) (al .shift),
    sllv (al .old) (al .old) (al .shift),
    sllv (al .new) (al .new) (al .shift),
    .fence f.2,
    ll 32 (al .out) (al .dst),
    and (al .tmp) (al .out) (al .mask),
    bne (al .tmp) (al .old) 13,
    xor (al .tmp) (al .out) (al .new),
    and (al .tmp) (al .tmp) (al .mask),
    xor (al .tmp) (al .tmp) (al .out),
    sc 32 (al .tmp) (al .dst),
    beqz (al .tmp) 4,
    b 14,
    li0 (al .tmp),
    srlv (al .out) (al .out) (al .shift),
    .fence f.1 ]
end

/-! ### Blocks and back end -/
section
variable {W : Nat}

/-- Parameters of `create_sub_word_mask_values` on MIPS (src/utils.rs l.261-273, l.282). -/
def subCfg (e : Endian) : SubWordCfg := { shiftMask := false, leLike := e == .little }

/-- (aligned_ptr, shift, mask) for an object of `w` bits at `p`. The aligned pointer is passed with `ptr_reg!` (src/gen/utils.rs
l.30-100), which zero-extends it if pointers (of `P` bits) are narrower than registers (`C28_zero_extend64_ptr`). -/
def sub (W : Nat) (e : Endian) (w : Nat) {P : Nat} (p : BitVec P) : BitVec W × BitVec W × BitVec W :=
  let v := createSubWordMaskValues (subCfg e) P W (w / 8) p
  (v.1.setWidth W, v.2.1, v.2.2)

/-- l.38-72 -/
@[asm] def loadBlock (al : Alloc loadKind) (w : Nat) (f : Pairs) (p : BitVec W) : Block W w where
  code := loadAsm al w f
  args := [⟨al .src, W, p⟩]
  outs := al.Outs
  out rs := (rs.r (al .out)).setWidth w

/-- l.73-101 -/
@[asm] def storeBlock (al : Alloc storeKind) (w : Nat) (f : Pairs × Pairs) (p : BitVec W) (val : BitVec w) :
    Block W w where
  code := storeAsm al w f
  args := [⟨al .dst, W, p⟩, ⟨al .val, w, val⟩]
  outs := al.Outs

/-- l.108-146 -/
@[asm] def swapBlock (al : Alloc swapKind) (w : Nat) (f : Pairs × Pairs) (p : BitVec W) (val : BitVec w) :
    Block W w where
  code := swapAsm al w f
  args := [⟨al .dst, W, p⟩, ⟨al .val, w, val⟩]
  outs := al.Outs
  out rs := (rs.r (al .out)).setWidth w

/-- l.147-197 -/
@[asm] def casBlock (al : Alloc casKind) (w : Nat) (f : Pairs × Pairs) (p : BitVec W) (old new : BitVec w) :
    Block W w where
  code := casAsm al w f
  args := [⟨al .dst, W, p⟩, ⟨al .old, w, old⟩, ⟨al .new, w, new⟩]
  outs := al.Outs
  out rs := (rs.r (al .out)).setWidth w
  ok rs := rs.r (al .tmp) != 0#W
  assumes rs := rs.r (al .tmp) = 0#W ∨ rs.r (al .tmp) = 1#W

/-- l.204-250 -/
@[asm] def subSwapBlock (e : Endian) (al : Alloc subSwapKind) (w : Nat) (f : Pairs × Pairs) {P : Nat} (p : BitVec P)
    (val : BitVec w) : Block W w where
  code := subSwapAsm al f
  args := [⟨al .dst, W, (sub W e w p).1⟩, ⟨al .shift, W, (sub W e w p).2.1⟩, ⟨al .mask, W, (sub W e w p).2.2⟩,
    ⟨al .val, 32, zeroExtend e val⟩]
  outs := al.Outs
  out rs := (rs.r (al .out)).setWidth w

/-- l.251-313 -/
@[asm] def subCasBlock (e : Endian) (al : Alloc subCasKind) (w : Nat) (f : Pairs × Pairs) {P : Nat} (p : BitVec P)
    (old new : BitVec w) : Block W w where
  code := subCasAsm al f
  args := [⟨al .dst, W, (sub W e w p).1⟩, ⟨al .shift, W, (sub W e w p).2.1⟩, ⟨al .mask, W, (sub W e w p).2.2⟩,
    ⟨al .old, 32, zeroExtend e old⟩, ⟨al .new, 32, zeroExtend e new⟩]
  outs := al.Outs
  out rs := (rs.r (al .out)).setWidth w
  ok rs := rs.r (al .tmp) != 0#W
  assumes rs := rs.r (al .tmp) = 0#W ∨ rs.r (al .tmp) = 1#W

/-! Sizes (l.317-335): `"b"`, `"h"` sub-word, `"w"` and on mips64 `"d"` word code. -/

/-- `atomic_load` -/
inductive Load : Ordering → (w a : Nat) → Block W w → Prop
  | mk (al) {o f w} (p : BitVec W) (hw : SubSize w ∨ WordSize W w) (hf : loadFence o = some f) :
      Load o w p.toNat (loadBlock al w f p)
/-- `atomic_store`, called with an ordering that passed `assert_store_ordering` (src/lib.rs l.330-335). -/
inductive Store : Ordering → (w a : Nat) → BitVec w → Block W w → Prop
  | mk (al) {o w} (p : BitVec W) (val : BitVec w) (hw : SubSize w ∨ WordSize W w)
      (hv : assertStoreOrdering o = .ok ()) : Store o w p.toNat val (storeBlock al w (rmwFences o) p val)
/-- `atomic_swap` -/
inductive Swap (e : Endian) : Ordering → (w a : Nat) → BitVec w → Block W w → Prop
  | word (al o) {w} (p : BitVec W) (val : BitVec w) (hw : WordSize W w) :
      Swap e o w p.toNat val (swapBlock al w (rmwFences o) p val)
  | sub (al o) {w P} (p : BitVec P) (val : BitVec w) (hw : SubSize w) (hal : SubPtr W w p) :
      Swap e o w p.toNat val (subSwapBlock e al w (rmwFences o) p val)
/-- `atomic_compare_exchange`, called with orderings that passed `assert_compare_exchange_ordering`
(src/lib.rs l.537-557); the weak form defaults to it (src/raw.rs). -/
inductive Cas (e : Endian) : Ordering → Ordering → (w a : Nat) → BitVec w → BitVec w → Block W w → Prop
  | word (al s f) {w} (p : BitVec W) (old new : BitVec w) (hw : WordSize W w)
      (hv : assertCompareExchangeOrdering s f = .ok ()) :
      Cas e s f w p.toNat old new (casBlock al w (rmwFences (upgradeSuccessOrdering s f)) p old new)
  | sub (al s f) {w P} (p : BitVec P) (old new : BitVec w) (hw : SubSize w)
      (hv : assertCompareExchangeOrdering s f = .ok ()) (hal : SubPtr W w p) :
      Cas e s f w p.toNat old new
        (subCasBlock e al w (rmwFences (upgradeSuccessOrdering s f)) p old new)

/-- The MIPS back end. The architecture orders nothing without `sync` that the crate could rely on. -/
def backend (e : Endian) (W : Nat) : Backend W where
  e := e
  imp := Pairs.none
  Load := Load
  Store := Store
  Swap := Swap e
  Cas := Cas e
  CasWeak := Cas e
end

end Verif.Mips
