/-
src/arch/riscv.rs (riscv32 and riscv64).

`W` is XLEN (32 or 64), `w` the object size in bits.  The back end never mentions the endianness;
the theorems hold for both.
-/
import Verif.Core.Alloc
import Verif.Contract
import Verif.Core.Ordering
import Verif.Core.Sizes
import Verif.Core.SubPtr

namespace Verif.RiscV

/-! ### Mnemonics (RISC-V ISA manual, cited in src/arch/riscv.rs l.5-16) -/
section
variable {W : Nat}

/-- Base-register address `0(reg)`. -/
@[asm] def ea (b : Nat) : RS W → Nat := fun s => (s.r b).toNat
/-- `l{b,h,w,d} rd, 0(rs)`: loads are sign-extended to XLEN. -/
@[asm] def l (w rd rs : Nat) : Instr W := .ld .plain (ea rs) w (fun x s => s.set rd (x.signExtend W))
/-- `s{b,h,w,d} rv, 0(rs)`. -/
@[asm] def s (w rv rs : Nat) : Instr W := .st .plain (ea rs) w (fun s => (s.r rv).setWidth w)
/-- `amoswap.{b,h,w,d}[.aq][.rl] rd, rv, 0(rs)`. -/
@[asm] def amoswap (a : Acc) (w rd rv rs : Nat) : Instr W :=
  .rmw a (ea rs) w (fun s _ => some ((s.r rv).setWidth w)) (fun x s => s.set rd (x.signExtend W))
/-- `lr.{w,d}[.aq][.rl] rd, 0(rs)`. -/
@[asm] def lr (a : Acc) (w rd rs : Nat) : Instr W :=
  .ll a false (ea rs) w (fun x s => s.set rd (x.signExtend W))
/-- `sc.{w,d}[.rl] rd, rv, 0(rs)`: rd = 0 on success, nonzero on failure. -/
@[asm] def sc (a : Acc) (w rd rv rs : Nat) : Instr W :=
  .sc a (ea rs) w (fun s => (s.r rv).setWidth w)
    (fun ok j s => s.set rd (if ok then 0#W else nz W j))
/-- `bne a, b, target`. -/
@[asm] def bne (a b t : Nat) : Instr W := .br (fun s => s.r a != s.r b) t
/-- `bnez a, target`. -/
@[asm] def bnez (a t : Nat) : Instr W := .br (fun s => s.r a != 0#W) t
/-- `xor rd, a, b`. -/
@[asm] def xor (rd a b : Nat) : Instr W := .op fun _ s => s.set rd (s.r a ^^^ s.r b)
/-- `and rd, a, b`. -/
@[asm] def and (rd a b : Nat) : Instr W := .op fun _ s => s.set rd (s.r a &&& s.r b)
/-- `seqz rd, a`. -/
@[asm] def seqz (rd a : Nat) : Instr W := .op fun _ s => s.set rd (if s.r a = 0#W then 1#W else 0#W)
/-- `sll` on RV32, `sllw` on RV64 (src/arch/riscv.rs l.46-59 macro `w!`): 32-bit shift, amount
modulo 32, result sign-extended. -/
@[asm] def sllw (rd a b : Nat) : Instr W :=
  .op fun _ s => s.set rd (((s.r a).setWidth 32 <<< ((s.r b).toNat % 32)).signExtend W)
/-- `srl` / `srlw`: logical 32-bit shift, result sign-extended. -/
@[asm] def srlw (rd a b : Nat) : Instr W :=
  .op fun _ s => s.set rd (((s.r a).setWidth 32 >>> ((s.r b).toNat % 32)).signExtend W)
end

/-- `fence r, rw` -/
def fenceR_RW : Pairs := ⟨true, true, false, false, false⟩
/-- `fence rw, w` -/
def fenceRW_W : Pairs := ⟨false, true, false, true, false⟩
/-- `fence rw, rw` -/
def fenceRW_RW : Pairs := Pairs.full
/-- the empty template string `""`: no instruction, modelled as a barrier that orders nothing -/
def noFence : Pairs := Pairs.none

/-- instruction suffixes `""`, `.aq`, `.rl`, `.aqrl` (RCsc annotations) -/
def sfx : Acc := {}
def sfxAq : Acc := { aq := true, sc := true }
def sfxRl : Acc := { rl := true, sc := true }
def sfxAqRl : Acc := { aq := true, rl := true, sc := true }

/-! ### Ordering tables (`none` = `unreachable!()`) -/

/-- l.113-118: (acquire, release) fences of a load. -/
def loadFences : Ordering → Option (Pairs × Pairs)
  | .relaxed => some (noFence, noFence)
  | .acquire => some (fenceR_RW, noFence)
  | .seqCst => some (fenceR_RW, fenceRW_RW)
  | _ => none
/-- l.146-152: (acquire, release) fences of a store. -/
def storeFences : Ordering → Option (Pairs × Pairs)
  | .relaxed => some (noFence, noFence)
  | .release => some (noFence, fenceRW_W)
  | .seqCst => some (fenceRW_RW, fenceRW_W)
  | _ => none
/-- l.67-78 `atomic_rmw_amo!`. -/
def amoOrder : Ordering → Acc
  | .relaxed => sfx
  | .acquire => sfxAq
  | .release => sfxRl
  | .acqRel | .seqCst => sfxAqRl
/-- l.80-91 `atomic_rmw_lr_sc!`: suffixes of `lr` and `sc`. -/
def lrscOrder : Ordering → Acc × Acc
  | .relaxed => (sfx, sfx)
  | .acquire => (sfxAq, sfx)
  | .release => (sfx, sfxRl)
  | .acqRel => (sfxAq, sfxRl)
  | .seqCst => (sfxAqRl, sfxRl)

/-! ### asm! blocks -/
section
variable {W : Nat}

/-- operands of l.113-114 -/
@[asm] def loadKind : Op → Kind
  | .src => .inp | .out => .lateout | _ => .unused
/-- l.95-122 `atomic_load`. -/
@[asm] def loadAsm (al : Op → Nat) (w : Nat) (f : Pairs × Pairs) : List (Instr W) :=
  [ .fence f.2, l w (al .out) (al .src), .fence f.1 ]

/-- operands of l.146-147 -/
@[asm] def storeKind : Op → Kind
  | .dst => .inp | .val => .inp | _ => .unused
/-- l.124-156 `atomic_store`. -/
@[asm] def storeAsm (al : Op → Nat) (w : Nat) (f : Pairs × Pairs) : List (Instr W) :=
  [ .fence f.2, s w (al .val) (al .dst), .fence f.1 ]

/-- operands of l.190-192 -/
@[asm] def swapKind : Op → Kind
  | .dst => .inp | .val => .inp | .out => .lateout | _ => .unused
/-- l.160-202 `atomic_swap` (AMO). -/
@[asm] def swapAsm (al : Op → Nat) (w : Nat) (a : Acc) : List (Instr W) :=
  [ amoswap a w (al .out) (al .val) (al .dst) ]

/-- operands of l.238-242 -/
@[asm] def casKind : Op → Kind
  | .dst => .inp | .old => .inp | .new => .inp | .out => .out | .r => .out | _ => .unused
/-- l.206-253 word/doubleword `atomic_compare_exchange`. Labels: `2:` = 0, `3:` = 4. -/
@[asm] def casAsm (al : Op → Nat) (w : Nat) (o : Acc × Acc) : List (Instr W) :=
  [ lr o.1 w (al .out) (al .dst),
    bne (al .out) (al .old) 4,
    sc o.2 w (al .r) (al .new) (al .dst),
    bnez (al .r) 0,
    xor (al .r) (al .out) (al .old),
    seqz (al .r) (al .r) ]

/-- operands of l.293-298 -/
@[asm] def subSwapKind : Op → Kind
  | .dst => .inp | .val => .inout | .out => .out | .shift => .inp | .mask => .inout | .tmp => .out
  | _ => .unused
/-- l.263-309 sub-word `atomic_swap` (LR/SC). Label `2:` = 2. -/
@[asm] def subSwapAsm (al : Op → Nat) (o : Acc × Acc) : List (Instr W) :=
  [ sllw (al .mask) (al .mask) (al .shift),
    sllw (al .val) (al .val) (al .shift),
    lr o.1 32 (al .out) (al .dst),
    xor (al .tmp) (al .val) (al .out),
    and (al .tmp) (al .tmp) (al .mask),
    xor (al .tmp) (al .tmp) (al .out),
    sc o.2 32 (al .tmp) (al .tmp) (al .dst),
    bnez (al .tmp) 2,
    srlw (al .out) (al .out) (al .shift) ]

/-- operands of l.349-355 -/
@[asm] def subCasKind : Op → Kind
  | .dst => .inp | .old => .inout | .new => .inout | .out => .out | .shift => .inp | .mask => .inout
  | .tmp => .out | _ => .unused
/-- l.310-371 sub-word `atomic_compare_exchange`. Labels: `2:` = 3, `3:` = 11. -/
@[asm] def subCasAsm (al : Op → Nat) (o : Acc × Acc) : List (Instr W) :=
  [ sllw (al .mask) (al .mask) (al .shift),
    sllw (al .old) (al .old) (al .shift),
    sllw (al .new) (al .new) (al .shift),
    lr o.1 32 (al .tmp) (al .dst),
    and (al .out) (al .tmp) (al .mask),
    bne (al .out) (al .old) 11,
    xor (al .out) (al .tmp) (al .new),
    and (al .out) (al .out) (al .mask),
    xor (al .out) (al .out) (al .tmp),
    sc o.2 32 (al .out) (al .out) (al .dst),
    bnez (al .out) 3,
    srlw (al .out) (al .tmp) (al .shift),
    and (al .tmp) (al .tmp) (al .mask),
    xor (al .tmp) (al .old) (al .tmp),
    seqz (al .tmp) (al .tmp) ]
end

/-! ### Blocks and back end -/
section
variable {W : Nat}

/-- Parameters of `create_sub_word_mask_values` on RISC-V (src/utils.rs l.261-273, l.282). -/
def subCfg (e : Endian) : SubWordCfg := { shiftMask := false, leLike := e == .little }

/-- (aligned_ptr, shift, mask) for an object of `w` bits at `p`. The aligned pointer is passed with `ptr_reg!` (src/gen/utils.rs
l.30-100), which zero-extends it if pointers (of `P` bits) are narrower than registers (`C28_zero_extend64_ptr`). -/
def sub (W : Nat) (e : Endian) (w : Nat) {P : Nat} (p : BitVec P) : BitVec W × BitVec W × BitVec W :=
  let v := createSubWordMaskValues (subCfg e) P W (w / 8) p
  (v.1.setWidth W, v.2.1, v.2.2)

/-- l.95-122 -/
@[asm] def loadBlock (al : Alloc loadKind) (w : Nat) (f : Pairs × Pairs) (p : BitVec W) : Block W w where
  code := loadAsm al w f
  args := [⟨al .src, W, p⟩]
  outs := al.Outs
  out rs := (rs.r (al .out)).setWidth w

/-- l.124-156 -/
@[asm] def storeBlock (al : Alloc storeKind) (w : Nat) (f : Pairs × Pairs) (p : BitVec W) (val : BitVec w) :
    Block W w where
  code := storeAsm al w f
  args := [⟨al .dst, W, p⟩, ⟨al .val, w, val⟩]
  outs := al.Outs

/-- l.160-202 -/
@[asm] def swapBlock (al : Alloc swapKind) (w : Nat) (o : Acc) (p : BitVec W) (val : BitVec w) :
    Block W w where
  code := swapAsm al w o
  args := [⟨al .dst, W, p⟩, ⟨al .val, w, val⟩]
  outs := al.Outs
  out rs := (rs.r (al .out)).setWidth w

/-- l.206-253 -/
@[asm] def casBlock (al : Alloc casKind) (w : Nat) (o : Acc × Acc) (p : BitVec W) (old new : BitVec w) :
    Block W w where
  code := casAsm al w o
  args := [⟨al .dst, W, p⟩, ⟨al .old, w, old⟩, ⟨al .new, w, new⟩]
  outs := al.Outs
  out rs := (rs.r (al .out)).setWidth w
  ok rs := rs.r (al .r) != 0#W
  assumes rs := rs.r (al .r) = 0#W ∨ rs.r (al .r) = 1#W

/-- l.263-309 -/
@[asm] def subSwapBlock (e : Endian) (al : Alloc subSwapKind) (w : Nat) (o : Acc × Acc) {P : Nat} (p : BitVec P)
    (val : BitVec w) : Block W w where
  code := subSwapAsm al o
  args := [⟨al .dst, W, (sub W e w p).1⟩, ⟨al .shift, W, (sub W e w p).2.1⟩, ⟨al .mask, W, (sub W e w p).2.2⟩,
    ⟨al .val, 32, zeroExtend e val⟩]
  outs := al.Outs
  out rs := (rs.r (al .out)).setWidth w

/-- l.310-371 -/
@[asm] def subCasBlock (e : Endian) (al : Alloc subCasKind) (w : Nat) (o : Acc × Acc) {P : Nat} (p : BitVec P)
    (old new : BitVec w) : Block W w where
  code := subCasAsm al o
  args := [⟨al .dst, W, (sub W e w p).1⟩, ⟨al .shift, W, (sub W e w p).2.1⟩, ⟨al .mask, W, (sub W e w p).2.2⟩,
    ⟨al .old, 32, zeroExtend e old⟩, ⟨al .new, 32, zeroExtend e new⟩]
  outs := al.Outs
  out rs := (rs.r (al .out)).setWidth w
  ok rs := rs.r (al .tmp) != 0#W
  assumes rs := rs.r (al .tmp) = 0#W ∨ rs.r (al .tmp) = 1#W

/-! Sizes (l.374-386): `"b"`, `"h"` use the sub-word code (`SubSize`), `"w"` and on riscv64 `"d"` the word code
(`WordSize`). -/

/-- `atomic_load` -/
inductive Load : Ordering → (w a : Nat) → Block W w → Prop
  | mk (al) {o f w} (p : BitVec W) (hw : SubSize w ∨ WordSize W w) (hf : loadFences o = some f) :
      Load o w p.toNat (loadBlock al w f p)
/-- `atomic_store` -/
inductive Store : Ordering → (w a : Nat) → BitVec w → Block W w → Prop
  | mk (al) {o f w} (p : BitVec W) (val : BitVec w) (hw : SubSize w ∨ WordSize W w)
      (hf : storeFences o = some f) : Store o w p.toNat val (storeBlock al w f p val)
/-- `atomic_swap`; sub-word sizes use AMOs with the zabha extension and LR/SC without. -/
inductive Swap (e : Endian) (zabha : Bool) : Ordering → (w a : Nat) → BitVec w → Block W w → Prop
  | amo (al o) {w} (p : BitVec W) (val : BitVec w) (hw : WordSize W w ∨ (zabha = true ∧ SubSize w)) :
      Swap e zabha o w p.toNat val (swapBlock al w (amoOrder o) p val)
  | lrsc (al o) {w P} (p : BitVec P) (val : BitVec w) (hz : zabha = false) (hw : SubSize w)
      (hal : SubPtr W w p) :
      Swap e zabha o w p.toNat val (subSwapBlock e al w (lrscOrder o) p val)
/-- `atomic_compare_exchange`, called with orderings that passed `assert_compare_exchange_ordering`
(src/lib.rs l.537-557); the weak form defaults to it (src/raw.rs). -/
inductive Cas (e : Endian) : Ordering → Ordering → (w a : Nat) → BitVec w → BitVec w → Block W w → Prop
  | word (al s f) {w} (p : BitVec W) (old new : BitVec w) (hw : WordSize W w)
      (hv : assertCompareExchangeOrdering s f = .ok ()) :
      Cas e s f w p.toNat old new (casBlock al w (lrscOrder (upgradeSuccessOrdering s f)) p old new)
  | sub (al s f) {w P} (p : BitVec P) (old new : BitVec w) (hw : SubSize w)
      (hv : assertCompareExchangeOrdering s f = .ok ()) (hal : SubPtr W w p) :
      Cas e s f w p.toNat old new
        (subCasBlock e al w (lrscOrder (upgradeSuccessOrdering s f)) p old new)

/-- The RISC-V back end: endianness, XLEN, zabha. RVWMO orders nothing without barriers that the
crate could rely on (`imp = none`). -/
def backend (e : Endian) (W : Nat) (zabha : Bool) : Backend W where
  e := e
  imp := Pairs.none
  Load := Load
  Store := Store
  Swap := Swap e zabha
  Cas := Cas e
  CasWeak := Cas e
end

end Verif.RiscV
