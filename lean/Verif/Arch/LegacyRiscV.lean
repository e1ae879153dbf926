/-
src/arch_legacy/riscv.rs (riscv32 and riscv64; compilers without `MaybeUninit` asm operands).

Values are passed through private buffers (Core/Private.lean): `.x0` is the content of `out`, `.x1` of `val` / `old`,
`.x2` of `new`. Mnemonics and ordering tables are those of src/arch/riscv.rs.
-/
import Verif.Arch.RiscV
import Verif.Core.Private

namespace Verif.LegacyRiscV
open RiscV
variable {W : Nat}

/-- `l{b,h,w,d} rd, 0(ra)` from a private buffer. -/
@[asm] def lp (cs : List (Cell W)) (w rd ra : Nat) : Instr W := ldPriv cs w (·.signExtend W) rd ra
/-- `l{b,h}u rd, 0(ra)` from a private buffer. -/
@[asm] def lup (cs : List (Cell W)) (w rd ra : Nat) : Instr W := ldPriv cs w (·.setWidth W) rd ra
/-- `mv rd, rs` -/
@[asm] def mv (rd rs : Nat) : Instr W := .op fun _ s => s.set rd (s.r rs)

/-! ### Ordering tables (`none` = `unreachable!()`) -/

/-- l.101-106: (acquire, release) fences of a load. -/
def loadFences : Ordering → Option (Pairs × Pairs)
  | .relaxed => some (noFence, noFence)
  | .acquire => some (fenceR_RW, noFence)
  | .seqCst => some (fenceR_RW, fenceRW_RW)
  | _ => none
/-- l.139-145: (acquire, release) fences of a store. -/
def storeFences : Ordering → Option (Pairs × Pairs)
  | .relaxed => some (noFence, noFence)
  | .release => some (noFence, fenceRW_W)
  | .seqCst => some (fenceRW_RW, fenceRW_W)
  | _ => none
/-- l.49-60 `atomic_rmw_amo!`. -/
def amoOrder : Ordering → Acc
  | .relaxed => sfx
  | .acquire => sfxAq
  | .release => sfxRl
  | .acqRel | .seqCst => sfxAqRl
/-- l.62-73 `atomic_rmw_lr_sc!`: suffixes of `lr` and `sc`. -/
def lrscOrder : Ordering → Acc × Acc
  | .relaxed => (sfx, sfx)
  | .acquire => (sfxAq, sfx)
  | .release => (sfx, sfxRl)
  | .acqRel => (sfxAq, sfxRl)
  | .seqCst => (sfxAqRl, sfxRl)

/-! ### asm! blocks -/

/-- operands of l.99-101 -/
@[asm] def loadKind : Op → Kind
  | .src => .inp | .out => .inout | .tmp => .lateout | .x0 => .inout | _ => .unused
/-- l.76-110 `atomic_load`. -/
@[asm] def loadAsm (al : Op → Nat) (w : Nat) (f : Pairs × Pairs) (po : BitVec W) : List (Instr W) :=
  [ .fence f.2, l w (al .tmp) (al .src), .fence f.1,
    stPriv ⟨po, al .x0⟩ w (al .tmp) (al .out) ]

/-- operands of l.137-139 -/
@[asm] def storeKind : Op → Kind
  | .dst => .inout | .val => .inp | .tmp => .lateout | .x1 => .inout | _ => .unused
/-- l.112-149 `atomic_store`. -/
@[asm] def storeAsm (al : Op → Nat) (w : Nat) (f : Pairs × Pairs) (pv : BitVec W) : List (Instr W) :=
  [ lp [⟨pv, al .x1⟩] w (al .tmp) (al .val), .fence f.2, s w (al .tmp) (al .dst), .fence f.1 ]

/-- operands of l.186-189 -/
@[asm] def swapKind : Op → Kind
  | .dst => .inp | .val => .inout | .out => .inout | .tmp => .lateout | .x0 => .inout | .x1 => .inout
  | _ => .unused
/-- l.156-193 `atomic_swap` (AMO). -/
@[asm] def swapAsm (al : Op → Nat) (w : Nat) (a : Acc) (po pv : BitVec W) : List (Instr W) :=
  [ lp [⟨po, al .x0⟩, ⟨pv, al .x1⟩] w (al .val) (al .val),
    amoswap a w (al .tmp) (al .val) (al .dst),
    stPriv ⟨po, al .x0⟩ w (al .tmp) (al .out) ]

/-- operands of l.236-241 -/
@[asm] def casKind : Op → Kind
  | .dst => .inp | .old => .inout | .new => .inout | .out => .inp | .tmp => .out | .r => .out
  | .x0 => .inout | .x1 => .inout | .x2 => .inout | _ => .unused
/-- l.195-248 word/doubleword `atomic_compare_exchange`. Labels: `2:` = 2, `3:` = 6. -/
@[asm] def casAsm (al : Op → Nat) (w : Nat) (o : Acc × Acc) (po pold pnew : BitVec W) : List (Instr W) :=
  [ lp [⟨po, al .x0⟩, ⟨pold, al .x1⟩, ⟨pnew, al .x2⟩] w (al .old) (al .old),
    lp [⟨po, al .x0⟩, ⟨pold, al .x1⟩, ⟨pnew, al .x2⟩] w (al .new) (al .new),
    lr o.1 w (al .tmp) (al .dst),
    bne (al .tmp) (al .old) 6,
    sc o.2 w (al .r) (al .new) (al .dst),
    bnez (al .r) 2,
    xor (al .r) (al .tmp) (al .old),
    seqz (al .r) (al .r),
    stPriv ⟨po, al .x0⟩ w (al .tmp) (al .out) ]

/-- operands of l.295-301 (`tmp` is `tmp1`) -/
@[asm] def subSwapKind : Op → Kind
  | .dst => .inp | .val => .inout | .out => .inp | .shift => .inp | .mask => .inout | .tmp => .out | .tmp2 => .out
  | .x0 => .inout | .x1 => .inout | _ => .unused
/-- l.257-307 sub-word `atomic_swap` (LR/SC). Label `2:` = 3. -/
@[asm] def subSwapAsm (al : Op → Nat) (w : Nat) (o : Acc × Acc) (po pv : BitVec W) : List (Instr W) :=
  [ lup [⟨po, al .x0⟩, ⟨pv, al .x1⟩] w (al .val) (al .val),
    sllw (al .mask) (al .mask) (al .shift),
    sllw (al .val) (al .val) (al .shift),
    lr o.1 32 (al .tmp) (al .dst),
    mv (al .tmp2) (al .val),
    xor (al .tmp2) (al .tmp2) (al .tmp),
    and (al .tmp2) (al .tmp2) (al .mask),
    xor (al .tmp2) (al .tmp2) (al .tmp),
    sc o.2 32 (al .tmp2) (al .tmp2) (al .dst),
    bnez (al .tmp2) 3,
    srlw (al .tmp) (al .tmp) (al .shift),
    stPriv ⟨po, al .x0⟩ w (al .tmp) (al .out) ]

/-- operands of l.359-367 (`tmp` is `tmp1`) -/
@[asm] def subCasKind : Op → Kind
  | .dst => .inp | .old => .inout | .new => .inout | .out => .inout | .shift => .inp | .mask => .inout
  | .r => .lateout | .tmp => .out | .tmp2 => .out
  | .x0 => .inout | .x1 => .inout | .x2 => .inout | _ => .unused
/-- l.309-373 sub-word `atomic_compare_exchange`. Labels: `2:` = 5, `3:` = 13. -/
@[asm] def subCasAsm (al : Op → Nat) (w : Nat) (o : Acc × Acc) (po pold pnew : BitVec W) : List (Instr W) :=
  [ lup [⟨po, al .x0⟩, ⟨pold, al .x1⟩, ⟨pnew, al .x2⟩] w (al .old) (al .old),
    lup [⟨po, al .x0⟩, ⟨pold, al .x1⟩, ⟨pnew, al .x2⟩] w (al .new) (al .new),
    sllw (al .mask) (al .mask) (al .shift),
    sllw (al .old) (al .old) (al .shift),
    sllw (al .new) (al .new) (al .shift),
    lr o.1 32 (al .tmp) (al .dst),
    and (al .tmp2) (al .tmp) (al .mask),
    bne (al .tmp2) (al .old) 13,
    xor (al .tmp2) (al .tmp) (al .new),
    and (al .tmp2) (al .tmp2) (al .mask),
    xor (al .tmp2) (al .tmp2) (al .tmp),
    sc o.2 32 (al .tmp2) (al .tmp2) (al .dst),
    bnez (al .tmp2) 5,
    srlw (al .tmp2) (al .tmp) (al .shift),
    and (al .tmp) (al .tmp) (al .mask),
    xor (al .r) (al .old) (al .tmp),
    seqz (al .r) (al .r),
    stPriv ⟨po, al .x0⟩ w (al .tmp2) (al .out) ]

/-! ### Blocks and back end -/

/-- l.76-110 -/
@[asm] def loadBlock (al : Alloc loadKind) (w : Nat) (f : Pairs × Pairs) (po p : BitVec W) : Block W w where
  code := loadAsm al w f po
  args := [⟨al .src, W, p⟩, ⟨al .out, W, po⟩]
  outs := al.Outs
  out rs := (rs.r (al .x0)).setWidth w

/-- l.112-149 -/
@[asm] def storeBlock (al : Alloc storeKind) (w : Nat) (f : Pairs × Pairs) (pv p : BitVec W) (val : BitVec w) :
    Block W w where
  code := storeAsm al w f pv
  args := [⟨al .dst, W, p⟩, ⟨al .val, W, pv⟩, ⟨al .x1, w, val⟩]
  outs := al.Outs

/-- l.156-193 -/
@[asm] def swapBlock (al : Alloc swapKind) (w : Nat) (o : Acc) (po pv p : BitVec W) (val : BitVec w) :
    Block W w where
  code := swapAsm al w o po pv
  args := [⟨al .dst, W, p⟩, ⟨al .val, W, pv⟩, ⟨al .out, W, po⟩, ⟨al .x1, w, val⟩]
  outs := al.Outs
  out rs := (rs.r (al .x0)).setWidth w

/-- l.195-248 -/
@[asm] def casBlock (al : Alloc casKind) (w : Nat) (o : Acc × Acc) (po pold pnew p : BitVec W)
    (old new : BitVec w) : Block W w where
  code := casAsm al w o po pold pnew
  args := [⟨al .dst, W, p⟩, ⟨al .old, W, pold⟩, ⟨al .new, W, pnew⟩, ⟨al .out, W, po⟩, ⟨al .x1, w, old⟩,
    ⟨al .x2, w, new⟩]
  outs := al.Outs
  out rs := (rs.r (al .x0)).setWidth w
  ok rs := rs.r (al .r) != 0#W
  assumes rs := rs.r (al .r) = 0#W ∨ rs.r (al .r) = 1#W

/-- l.257-307 -/
@[asm] def subSwapBlock (e : Endian) (al : Alloc subSwapKind) (w : Nat) (o : Acc × Acc) (po pv : BitVec W) {P : Nat} (p : BitVec P)
    (val : BitVec w) : Block W w where
  code := subSwapAsm al w o po pv
  args := [⟨al .dst, W, (sub W e w p).1⟩, ⟨al .shift, W, (sub W e w p).2.1⟩, ⟨al .mask, W, (sub W e w p).2.2⟩,
    ⟨al .val, W, pv⟩, ⟨al .out, W, po⟩, ⟨al .x1, w, val⟩]
  outs := al.Outs
  out rs := (rs.r (al .x0)).setWidth w

/-- l.309-373 -/
@[asm] def subCasBlock (e : Endian) (al : Alloc subCasKind) (w : Nat) (o : Acc × Acc) (po pold pnew : BitVec W) {P : Nat} (p : BitVec P)
    (old new : BitVec w) : Block W w where
  code := subCasAsm al w o po pold pnew
  args := [⟨al .dst, W, (sub W e w p).1⟩, ⟨al .shift, W, (sub W e w p).2.1⟩, ⟨al .mask, W, (sub W e w p).2.2⟩,
    ⟨al .old, W, pold⟩, ⟨al .new, W, pnew⟩, ⟨al .out, W, po⟩, ⟨al .x1, w, old⟩, ⟨al .x2, w, new⟩]
  outs := al.Outs
  out rs := (rs.r (al .x0)).setWidth w
  ok rs := rs.r (al .r) != 0#W
  assumes rs := rs.r (al .r) = 0#W ∨ rs.r (al .r) = 1#W

/-! Sizes (l.377-398): `"b"`, `"h"` use the sub-word code (`SubSize`), `"w"` and on riscv64 `"d"` the word code
(`WordSize`). The private buffers `out`, `val`, `old`, `new` are different objects: their addresses differ. -/

/-- `atomic_load` -/
inductive Load : Ordering → (w a : Nat) → Block W w → Prop
  | mk (al) {o f w} (po p : BitVec W) (hw : SubSize w ∨ WordSize W w) (hf : loadFences o = some f) :
      Load o w p.toNat (loadBlock al w f po p)
/-- `atomic_store` -/
inductive Store : Ordering → (w a : Nat) → BitVec w → Block W w → Prop
  | mk (al) {o f w} (pv p : BitVec W) (val : BitVec w) (hw : SubSize w ∨ WordSize W w)
      (hf : storeFences o = some f) : Store o w p.toNat val (storeBlock al w f pv p val)
/-- `atomic_swap` -/
inductive Swap (e : Endian) : Ordering → (w a : Nat) → BitVec w → Block W w → Prop
  | amo (al o) {w} (po pv p : BitVec W) (val : BitVec w) (hw : WordSize W w) (hb : pv ≠ po) :
      Swap e o w p.toNat val (swapBlock al w (amoOrder o) po pv p val)
  | lrsc (al o) {w P} (po pv : BitVec W) (p : BitVec P) (val : BitVec w) (hw : SubSize w)
      (hal : SubPtr W w p) (hb : pv ≠ po) :
      Swap e o w p.toNat val (subSwapBlock e al w (lrscOrder o) po pv p val)
/-- `atomic_compare_exchange`, called with orderings that passed `assert_compare_exchange_ordering`
(src/lib.rs l.537-557); the weak form defaults to it (src/raw.rs). -/
inductive Cas (e : Endian) : Ordering → Ordering → (w a : Nat) → BitVec w → BitVec w → Block W w → Prop
  | word (al s f) {w} (po pold pnew p : BitVec W) (old new : BitVec w) (hw : WordSize W w)
      (hv : assertCompareExchangeOrdering s f = .ok ()) (hb : pold ≠ po ∧ pnew ≠ po ∧ pnew ≠ pold) :
      Cas e s f w p.toNat old new
        (casBlock al w (lrscOrder (upgradeSuccessOrdering s f)) po pold pnew p old new)
  | sub (al s f) {w P} (po pold pnew : BitVec W) (p : BitVec P) (old new : BitVec w) (hw : SubSize w)
      (hv : assertCompareExchangeOrdering s f = .ok ()) (hal : SubPtr W w p)
      (hb : pold ≠ po ∧ pnew ≠ po ∧ pnew ≠ pold) :
      Cas e s f w p.toNat old new
        (subCasBlock e al w (lrscOrder (upgradeSuccessOrdering s f)) po pold pnew p old new)

/-- The RISC-V back end for old compilers: endianness, XLEN. -/
def backend (e : Endian) (W : Nat) : Backend W where
  e := e
  imp := Pairs.none
  Load := Load
  Store := Store
  Swap := Swap e
  Cas := Cas e
  CasWeak := Cas e

end Verif.LegacyRiscV
