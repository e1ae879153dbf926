/-
src/arch_legacy/loongarch.rs (loongarch64; compilers without `MaybeUninit` asm operands).

Values are passed through private buffers (Core/Private.lean): `.x0` is the content of `out`, `.x1` of `val` / `old`,
`.x2` of `new`. Mnemonics and barriers are those of src/arch/loongarch.rs.
-/
import Verif.Arch.LoongArch
import Verif.Core.Private

namespace Verif.LegacyLoongArch
open LoongArch
variable {W : Nat}

/-- `ld.{b,h,w,d} rd, ra, 0` from a private buffer. -/
@[asm] def ldp (cs : List (Cell W)) (w rd ra : Nat) : Instr W := ldPriv cs w (·.signExtend W) rd ra
/-- `ld.{b,h}u rd, ra, 0` from a private buffer. -/
@[asm] def ldup (cs : List (Cell W)) (w rd ra : Nat) : Instr W := ldPriv cs w (·.setWidth W) rd ra
/-- `addi.w rd, rj, 0`: sign-extend the low 32 bits. -/
@[asm] def addiw0 (rd rs : Nat) : Instr W := .op fun _ s => s.set rd (((s.r rs).setWidth 32).signExtend W)
/-- `xor rd, rj, rk`. -/
@[asm] def xor (rd a b : Nat) : Instr W := .op fun _ s => s.set rd (s.r a ^^^ s.r b)
/-- `sltui rd, rj, 1`: rd = (rj == 0). -/
@[asm] def sltui1 (rd a : Nat) : Instr W := .op fun _ s => s.set rd (if s.r a = 0#W then 1#W else 0#W)

/-! ### Ordering tables (`none` = `unreachable!()`) -/

/-- l.51-56: fence after a load. -/
def loadFence : Ordering → Option Pairs
  | .relaxed => some noFence
  | .acquire => some dbar20
  | .seqCst => some dbar16
  | _ => none
/-- l.79-105: code of a word store: plain, or `amswap_db`. -/
def storeAmo : Ordering → Option Bool
  | .relaxed => some false
  | .release | .seqCst => some true
  | _ => none
/-- l.239-244: (acquire, release) fences of a sub-word store. -/
def subStoreFences : Ordering → Option (Pairs × Pairs)
  | .relaxed => some (noFence, noFence)
  | .release => some (noFence, dbar18)
  | .seqCst => some (dbar16, dbar16)
  | _ => none
/-- l.193-199, l.364-370: fence on the failure path of compare_exchange, from the failure ordering. -/
def failFence : Ordering → Option Pairs
  | .relaxed => some dbar1792
  | .acquire => some dbar20
  | .seqCst => some dbar16
  | _ => none

/-! ### asm! blocks -/

/-- operands of l.44-46 -/
@[asm] def loadKind : Op → Kind
  | .src => .inp | .out => .inout | .tmp => .lateout | .x0 => .inout | _ => .unused
/-- l.36-50 `atomic_load`. -/
@[asm] def loadAsm (al : Op → Nat) (w : Nat) (f : Pairs) (po : BitVec W) : List (Instr W) :=
  [ ld w (al .tmp) (al .src), .fence f, stPriv ⟨po, al .x0⟩ w (al .tmp) (al .out) ]

/-- operands of l.86-88, l.98-100, l.232-234 -/
@[asm] def storeKind : Op → Kind
  | .dst => .inout | .val => .inp | .tmp => .lateout | .x1 => .inout | _ => .unused
/-- l.79-105 word `atomic_store`. -/
@[asm] def storeAsm (al : Op → Nat) (w : Nat) (amo : Bool) (pv : BitVec W) : List (Instr W) :=
  if amo then [ ldp [⟨pv, al .x1⟩] w (al .tmp) (al .val), amswap_db_zero w (al .tmp) (al .dst) ]
  else [ ldp [⟨pv, al .x1⟩] w (al .tmp) (al .val), st w (al .tmp) (al .dst) ]
/-- l.223-238 sub-word `atomic_store`. -/
@[asm] def subStoreAsm (al : Op → Nat) (w : Nat) (f : Pairs × Pairs) (pv : BitVec W) : List (Instr W) :=
  [ ldp [⟨pv, al .x1⟩] w (al .tmp) (al .val), .fence f.2, st w (al .tmp) (al .dst), .fence f.1 ]

/-- operands of l.133-136 -/
@[asm] def swapKind : Op → Kind
  | .dst => .inp | .val => .inout | .out => .inout | .tmp => .out | .x0 => .inout | .x1 => .inout
  | _ => .unused
/-- l.124-138 word `atomic_swap`. -/
@[asm] def swapAsm (al : Op → Nat) (w : Nat) (po pv : BitVec W) : List (Instr W) :=
  [ ldp [⟨po, al .x0⟩, ⟨pv, al .x1⟩] w (al .val) (al .val),
    amswap_db w (al .tmp) (al .val) (al .dst),
    stPriv ⟨po, al .x0⟩ w (al .tmp) (al .out) ]

/-- operands of l.182-187 -/
@[asm] def casKind : Op → Kind
  | .dst => .inp | .old => .inout | .new => .inout | .out => .inp | .tmp => .out | .r => .out
  | .x0 => .inout | .x1 => .inout | .x2 => .inout | _ => .unused
/-- l.161-191 word `atomic_compare_exchange`. Labels `2:` = 2, `3:` = 9, `4:` = 10. -/
@[asm] def casAsm (al : Op → Nat) (w : Nat) (f : Pairs) (po pold pnew : BitVec W) : List (Instr W) :=
  [ ldp [⟨po, al .x0⟩, ⟨pold, al .x1⟩, ⟨pnew, al .x2⟩] w (al .old) (al .old),
    ldp [⟨po, al .x0⟩, ⟨pold, al .x1⟩, ⟨pnew, al .x2⟩] w (al .new) (al .new),
    ll w (al .tmp) (al .dst),
    bne (al .tmp) (al .old) 9,
    move (al .r) (al .new),
    sc w (al .r) (al .dst),
    beqz (al .r) 2,
    scBarrier,
    b 10,
    .fence f,
    stPriv ⟨po, al .x0⟩ w (al .tmp) (al .out),
    xor (al .r) (al .tmp) (al .old),
    sltui1 (al .r) (al .r) ]

/-- operands of l.283-289 (`tmp` is `tmp1`) -/
@[asm] def subSwapKind : Op → Kind
  | .dst => .inp | .val => .inout | .out => .inp | .shift => .inp | .mask => .inout | .tmp => .out | .tmp2 => .out
  | .x0 => .inout | .x1 => .inout | _ => .unused
/-- l.266-292 sub-word `atomic_swap`. Label `2:` = 5. -/
@[asm] def subSwapAsm (al : Op → Nat) (w : Nat) (po pv : BitVec W) : List (Instr W) :=
  [ sllw (al .mask) (al .mask) (al .shift),
    addiw0 (al .mask) (al .mask),
    ldup [⟨po, al .x0⟩, ⟨pv, al .x1⟩] w (al .val) (al .val),
    sllw (al .val) (al .val) (al .shift),
    addiw0 (al .val) (al .val),
    ll 32 (al .tmp) (al .dst),
    addiw0 (al .tmp2) (al .val),
    xor (al .tmp2) (al .tmp) (al .tmp2),
    and (al .tmp2) (al .tmp2) (al .mask),
    xor (al .tmp2) (al .tmp) (al .tmp2),
    sc 32 (al .tmp2) (al .dst),
    beqz (al .tmp2) 5,
    scBarrier,
    srlw (al .tmp) (al .tmp) (al .shift),
    stPriv ⟨po, al .x0⟩ w (al .tmp) (al .out) ]

/-- operands of l.348-358: `tmp` = `$a6`, `tmp2` = `$a7`, `x3` = `$t0`, `x4` = `$t1` -/
@[asm] def subCasKind : Op → Kind
  | .dst => .inp | .old => .inout | .new => .inout | .out => .inout | .shift => .inp | .mask => .inout
  | .r => .lateout | .tmp => .out | .tmp2 => .out | .x3 => .out | .x4 => .out
  | .x0 => .inout | .x1 => .inout | .x2 => .inout | _ => .unused
/-- l.318-362 sub-word `atomic_compare_exchange`. Labels `2:` = 8, `3:` = 17, `4:` = 18. -/
@[asm] def subCasAsm (al : Op → Nat) (w : Nat) (f : Pairs) (po pold pnew : BitVec W) : List (Instr W) :=
  [ ldup [⟨po, al .x0⟩, ⟨pold, al .x1⟩, ⟨pnew, al .x2⟩] w (al .new) (al .new),
    ldup [⟨po, al .x0⟩, ⟨pold, al .x1⟩, ⟨pnew, al .x2⟩] w (al .old) (al .old),
    sllw (al .new) (al .new) (al .shift),
    addiw0 (al .new) (al .new),
    sllw (al .old) (al .old) (al .shift),
    addiw0 (al .tmp2) (al .old),
    sllw (al .mask) (al .mask) (al .shift),
    addiw0 (al .tmp) (al .mask),
    ll 32 (al .x3) (al .dst),
    and (al .x4) (al .x3) (al .tmp),
    bne (al .x4) (al .tmp2) 17,
    andn (al .x4) (al .x3) (al .tmp),
    or (al .x4) (al .x4) (al .new),
    sc 32 (al .x4) (al .dst),
    beqz (al .x4) 8,
    scBarrier,
    b 18,
    .fence f,
    srlw (al .tmp) (al .x3) (al .shift),
    stPriv ⟨po, al .x0⟩ w (al .tmp) (al .out),
    and (al .r) (al .x3) (al .mask),
    addiw0 (al .r) (al .r),
    xor (al .r) (al .old) (al .r),
    sltui1 (al .r) (al .r) ]

/-! ### Blocks and back end -/

/-- l.22-62 -/
@[asm] def loadBlock (al : Alloc loadKind) (w : Nat) (f : Pairs) (po p : BitVec W) : Block W w where
  code := loadAsm al w f po
  args := [⟨al .src, W, p⟩, ⟨al .out, W, po⟩]
  outs := al.Outs
  out rs := (rs.r (al .x0)).setWidth w

/-- l.67-108 -/
@[asm] def storeBlock (al : Alloc storeKind) (w : Nat) (amo : Bool) (pv p : BitVec W) (val : BitVec w) :
    Block W w where
  code := storeAsm al w amo pv
  args := [⟨al .dst, W, p⟩, ⟨al .val, W, pv⟩, ⟨al .x1, w, val⟩]
  outs := al.Outs

/-- l.211-247 -/
@[asm] def subStoreBlock (al : Alloc storeKind) (w : Nat) (f : Pairs × Pairs) (pv p : BitVec W)
    (val : BitVec w) : Block W w where
  code := subStoreAsm al w f pv
  args := [⟨al .dst, W, p⟩, ⟨al .val, W, pv⟩, ⟨al .x1, w, val⟩]
  outs := al.Outs

/-- l.109-142 -/
@[asm] def swapBlock (al : Alloc swapKind) (w : Nat) (po pv p : BitVec W) (val : BitVec w) :
    Block W w where
  code := swapAsm al w po pv
  args := [⟨al .dst, W, p⟩, ⟨al .val, W, pv⟩, ⟨al .out, W, po⟩, ⟨al .x1, w, val⟩]
  outs := al.Outs
  out rs := (rs.r (al .x0)).setWidth w

/-- l.143-205 -/
@[asm] def casBlock (al : Alloc casKind) (w : Nat) (f : Pairs) (po pold pnew p : BitVec W) (old new : BitVec w) :
    Block W w where
  code := casAsm al w f po pold pnew
  args := [⟨al .dst, W, p⟩, ⟨al .old, W, pold⟩, ⟨al .new, W, pnew⟩, ⟨al .out, W, po⟩, ⟨al .x1, w, old⟩,
    ⟨al .x2, w, new⟩]
  outs := al.Outs
  out rs := (rs.r (al .x0)).setWidth w
  ok rs := rs.r (al .r) != 0#W
  assumes rs := rs.r (al .r) = 0#W ∨ rs.r (al .r) = 1#W

/-- l.248-295 -/
@[asm] def subSwapBlock (e : Endian) (al : Alloc subSwapKind) (w : Nat) (po pv : BitVec W) {P : Nat} (p : BitVec P)
    (val : BitVec w) : Block W w where
  code := subSwapAsm al w po pv
  args := [⟨al .dst, W, (sub W e w p).1⟩, ⟨al .shift, W, (sub W e w p).2.1⟩, ⟨al .mask, W, (sub W e w p).2.2⟩,
    ⟨al .val, W, pv⟩, ⟨al .out, W, po⟩, ⟨al .x1, w, val⟩]
  outs := al.Outs
  out rs := (rs.r (al .x0)).setWidth w

/-- l.296-376 -/
@[asm] def subCasBlock (e : Endian) (al : Alloc subCasKind) (w : Nat) (f : Pairs) (po pold pnew : BitVec W) {P : Nat} (p : BitVec P)
    (old new : BitVec w) : Block W w where
  code := subCasAsm al w f po pold pnew
  args := [⟨al .dst, W, (sub W e w p).1⟩, ⟨al .shift, W, (sub W e w p).2.1⟩, ⟨al .mask, W, (sub W e w p).2.2⟩,
    ⟨al .old, W, pold⟩, ⟨al .new, W, pnew⟩, ⟨al .out, W, po⟩, ⟨al .x1, w, old⟩, ⟨al .x2, w, new⟩]
  outs := al.Outs
  out rs := (rs.r (al .x0)).setWidth w
  ok rs := rs.r (al .r) != 0#W
  assumes rs := rs.r (al .r) = 0#W ∨ rs.r (al .r) = 1#W

/-! Sizes (l.379-396): `"b"`, `"h"` sub-word, `"w"` and `"d"` word code. The private buffers `out`, `val`, `old`,
`new` are different objects: their addresses differ. -/

/-- `atomic_load` -/
inductive Load : Ordering → (w a : Nat) → Block W w → Prop
  | mk (al) {o f w} (po p : BitVec W) (hw : SubSize w ∨ WordSize W w) (hf : loadFence o = some f) :
      Load o w p.toNat (loadBlock al w f po p)
/-- `atomic_store` -/
inductive Store : Ordering → (w a : Nat) → BitVec w → Block W w → Prop
  | word (al) {o b w} (pv p : BitVec W) (val : BitVec w) (hw : WordSize W w)
      (hf : storeAmo o = some b) : Store o w p.toNat val (storeBlock al w b pv p val)
  | sub (al) {o f w} (pv p : BitVec W) (val : BitVec w) (hw : SubSize w)
      (hf : subStoreFences o = some f) : Store o w p.toNat val (subStoreBlock al w f pv p val)
/-- `atomic_swap` (the ordering is ignored: AMO and LL/SC are always SeqCst) -/
inductive Swap (e : Endian) : Ordering → (w a : Nat) → BitVec w → Block W w → Prop
  | word (al o) {w} (po pv p : BitVec W) (val : BitVec w) (hw : WordSize W w) (hb : pv ≠ po) :
      Swap e o w p.toNat val (swapBlock al w po pv p val)
  | sub (al o) {w P} (po pv : BitVec W) (p : BitVec P) (val : BitVec w) (hw : SubSize w) (hal : SubPtr W w p)
      (hb : pv ≠ po) : Swap e o w p.toNat val (subSwapBlock e al w po pv p val)
/-- `atomic_compare_exchange` (the success ordering is ignored); the weak form defaults to it
(src/raw.rs). -/
inductive Cas (e : Endian) : Ordering → Ordering → (w a : Nat) → BitVec w → BitVec w → Block W w → Prop
  | word (al s) {f w} (po pold pnew p : BitVec W) (old new : BitVec w) (hw : WordSize W w) {ff}
      (hf : failFence f = some ff) (hb : pold ≠ po ∧ pnew ≠ po ∧ pnew ≠ pold) :
      Cas e s f w p.toNat old new (casBlock al w ff po pold pnew p old new)
  | sub (al s) {f w P} (po pold pnew : BitVec W) (p : BitVec P) (old new : BitVec w) (hw : SubSize w) {ff}
      (hf : failFence f = some ff) (hal : SubPtr W w p) (hb : pold ≠ po ∧ pnew ≠ po ∧ pnew ≠ pold) :
      Cas e s f w p.toNat old new (subCasBlock e al w ff po pold pnew p old new)

/-- The LoongArch back end for old compilers. -/
def backend (e : Endian) (W : Nat) : Backend W where
  e := e
  imp := Pairs.none
  Load := Load
  Store := Store
  Swap := Swap e
  Cas := Cas e
  CasWeak := Cas e

end Verif.LegacyLoongArch
