/-
src/arch/loongarch.rs (loongarch64).

`W` is the register size (64), `w` the object size in bits. The architecture is little-endian; the
theorems do not need that.
-/
import Verif.Core.Alloc
import Verif.Contract
import Verif.Core.Ordering
import Verif.Core.Sizes
import Verif.Core.SubPtr

namespace Verif.LoongArch

/-! ### Mnemonics -/
section
variable {W : Nat}

/-- Base-register address `reg, 0`. -/
@[asm] def ea (b : Nat) : RS W → Nat := fun s => (s.r b).toNat
/-- `ld.{b,h,w,d} rd, rj, 0`: sign-extending load. -/
@[asm] def ld (w rd rs : Nat) : Instr W := .ld .plain (ea rs) w (fun x s => s.set rd (x.signExtend W))
/-- `st.{b,h,w,d} rd, rj, 0`. -/
@[asm] def st (w rv rs : Nat) : Instr W := .st .plain (ea rs) w (fun s => (s.r rv).setWidth w)
/-- `amswap_db.{w,d} rd, rk, rj`: AMO with full barrier semantics (`_db`). -/
@[asm] def amswap_db (w rd rv rs : Nat) : Instr W :=
  .rmw { full := true } (ea rs) w (fun s _ => some ((s.r rv).setWidth w)) (fun x s => s.set rd (x.signExtend W))
/-- `amswap_db.{w,d} $zero, rk, rj`: the loaded value is discarded. -/
@[asm] def amswap_db_zero (w rv rs : Nat) : Instr W :=
  .rmw { full := true } (ea rs) w (fun s _ => some ((s.r rv).setWidth w)) (fun _ s => s)
/-- `ll.{w,d} rd, rj, 0`. -/
@[asm] def ll (w rd rs : Nat) : Instr W := .ll .plain false (ea rs) w (fun x s => s.set rd (x.signExtend W))
/-- `sc.{w,d} rd, rj, 0`: stores rd, then rd = 1 on success, 0 on failure. -/
@[asm] def sc (w rt rs : Nat) : Instr W :=
  .sc { full := true } (ea rs) w (fun s => (s.r rt).setWidth w) (fun ok _ s => s.set rt (if ok then 1#W else 0#W))
/-- "LL/SC is always SeqCst, and fence is needed for branch that doesn't call sc" (l.155, l.297): the
barrier implied by a completed `ll`/`sc` pair, made explicit on the path that only a
successful `sc` takes. -/
@[asm] def scBarrier : Instr W := .fence Pairs.full
/-- `bne a, b, target`. -/
@[asm] def bne (a b t : Nat) : Instr W := .br (fun s => s.r a != s.r b) t
/-- `beqz a, target`. -/
@[asm] def beqz (a t : Nat) : Instr W := .br (fun s => s.r a == 0#W) t
/-- `b target`. -/
@[asm] def b (t : Nat) : Instr W := .br (fun _ => true) t
/-- `move rd, rj`. -/
@[asm] def move (rd rs : Nat) : Instr W := .op fun _ s => s.set rd (s.r rs)
/-- `move rd, $zero`. -/
@[asm] def moveZero (rd : Nat) : Instr W := .op fun _ s => s.set rd 0#W
/-- `and rd, rj, rk`. -/
@[asm] def and (rd a b : Nat) : Instr W := .op fun _ s => s.set rd (s.r a &&& s.r b)
/-- `andn rd, rj, rk` = rj & ~rk. -/
@[asm] def andn (rd a b : Nat) : Instr W := .op fun _ s => s.set rd (s.r a &&& ~~~(s.r b))
/-- `or rd, rj, rk`. -/
@[asm] def or (rd a b : Nat) : Instr W := .op fun _ s => s.set rd (s.r a ||| s.r b)
/-- `sll.w rd, rj, rk`: 32-bit shift, amount modulo 32, result sign-extended. -/
@[asm] def sllw (rd a b : Nat) : Instr W :=
  .op fun _ s => s.set rd (((s.r a).setWidth 32 <<< ((s.r b).toNat % 32)).signExtend W)
/-- `srl.w rd, rj, rk`: logical 32-bit shift, result sign-extended. -/
@[asm] def srlw (rd a b : Nat) : Instr W :=
  .op fun _ s => s.set rd (((s.r a).setWidth 32 >>> ((s.r b).toNat % 32)).signExtend W)
end

/-- `dbar 20` (0b10100): loads before, loads and stores after -/
def dbar20 : Pairs := ⟨true, true, false, false, false⟩
/-- `dbar 18` (0b10010): loads and stores before, stores after -/
def dbar18 : Pairs := ⟨false, true, false, true, false⟩
/-- `dbar 16` (0b10000): full -/
def dbar16 : Pairs := Pairs.full
/-- `dbar 1792` (0x700): only orders loads of the same address; no ordering that the crate relies on -/
def dbar1792 : Pairs := Pairs.none
/-- `""` -/
def noFence : Pairs := Pairs.none

/-! ### Ordering tables (`none` = `unreachable!()`) -/

/-- l.49-54: fence after a load. -/
def loadFence : Ordering → Option Pairs
  | .relaxed => some noFence
  | .acquire => some dbar20
  | .seqCst => some dbar16
  | _ => none
/-- l.75-94: code of a word store: plain, or `amswap_db`. -/
def storeAmo : Ordering → Option Bool
  | .relaxed => some false
  | .release | .seqCst => some true
  | _ => none
/-- l.205-210: (acquire, release) fences of a sub-word store. -/
def subStoreFences : Ordering → Option (Pairs × Pairs)
  | .relaxed => some (noFence, noFence)
  | .release => some (noFence, dbar18)
  | .seqCst => some (dbar16, dbar16)
  | _ => none
/-- l.156-162, l.298-304: fence on the failure path of compare_exchange, from the failure ordering. -/
def failFence : Ordering → Option Pairs
  | .relaxed => some dbar1792
  | .acquire => some dbar20
  | .seqCst => some dbar16
  | _ => none

/-! ### asm! blocks -/
section
variable {W : Nat}

/-- operands of l.43-44 -/
@[asm] def loadKind : Op → Kind
  | .src => .inp | .out => .lateout | _ => .unused
/-- l.39-48 `atomic_load`. -/
@[asm] def loadAsm (al : Op → Nat) (w : Nat) (f : Pairs) : List (Instr W) :=
  [ ld w (al .out) (al .src), .fence f ]

/-- operands of l.80-81, l.88-89, l.201-202 -/
@[asm] def storeKind : Op → Kind
  | .dst => .inp | .val => .inp | _ => .unused
/-- l.75-94 word `atomic_store`. -/
@[asm] def storeAsm (al : Op → Nat) (w : Nat) (amo : Bool) : List (Instr W) :=
  if amo then [ amswap_db_zero w (al .val) (al .dst) ] else [ st w (al .val) (al .dst) ]
/-- l.192-199 sub-word `atomic_store`. -/
@[asm] def subStoreAsm (al : Op → Nat) (w : Nat) (f : Pairs × Pairs) : List (Instr W) :=
  [ .fence f.2, st w (al .val) (al .dst), .fence f.1 ]

/-- operands of l.113-115 -/
@[asm] def swapKind : Op → Kind
  | .dst => .inp | .val => .inp | .out => .out | _ => .unused
/-- l.110-116 word `atomic_swap`. -/
@[asm] def swapAsm (al : Op → Nat) (w : Nat) : List (Instr W) :=
  [ amswap_db w (al .out) (al .val) (al .dst) ]

/-- operands of l.151-155 -/
@[asm] def casKind : Op → Kind
  | .dst => .inp | .old => .inp | .new => .inp | .out => .out | .tmp => .out | _ => .unused
/-- l.139-157 word `atomic_compare_exchange`. Labels `2:` = 0, `3:` = 7, `4:` = 9 (the end). -/
@[asm] def casAsm (al : Op → Nat) (w : Nat) (f : Pairs) : List (Instr W) :=
  [ ll w (al .out) (al .dst),
    bne (al .out) (al .old) 7,
    move (al .tmp) (al .new),
    sc w (al .tmp) (al .dst),
    beqz (al .tmp) 0,
    scBarrier,
    b 9,
    .fence f,
    moveZero (al .tmp) ]

/-- operands of l.236-241 -/
@[asm] def subSwapKind : Op → Kind
  | .dst => .inp | .val => .inout | .out => .out | .shift => .inp | .mask => .inout | .tmp => .out
  | _ => .unused
/-- l.226-243 sub-word `atomic_swap`. Label `2:` = 2. -/
@[asm] def subSwapAsm (al : Op → Nat) : List (Instr W) :=
  [ sllw (al .mask) (al .mask) (al .shift),
    sllw (al .val) (al .val) (al .shift),
    ll 32 (al .out) (al .dst),
    andn (al .tmp) (al .out) (al .mask),
    or (al .tmp) (al .tmp) (al .val),
    sc 32 (al .tmp) (al .dst),
    beqz (al .tmp) 2,
    scBarrier,
    srlw (al .out) (al .out) (al .shift) ]

/-- operands of l.286-292 -/
@[asm] def subCasKind : Op → Kind
  | .dst => .inp | .old => .inout | .new => .inout | .out => .out | .shift => .inp | .mask => .inout
  | .tmp => .out | _ => .unused
/-- l.268-296 sub-word `atomic_compare_exchange`. Labels `2:` = 3, `3:` = 12, `4:` = 14. -/
@[asm] def subCasAsm (al : Op → Nat) (f : Pairs) : List (Instr W) :=
  [ sllw (al .mask) (al .mask) (al .shift),
    sllw (al .old) (al .old) (al .shift),
    sllw (al .new) (al .new) (al .shift),
    ll 32 (al .out) (al .dst),
    and (al .tmp) (al .out) (al .mask),
    bne (al .tmp) (al .old) 12,
    andn (al .tmp) (al .out) (al .mask),
    or (al .tmp) (al .tmp) (al .new),
    sc 32 (al .tmp) (al .dst),
    beqz (al .tmp) 3,
    scBarrier,
    b 14,
    .fence f,
    moveZero (al .tmp),
    srlw (al .out) (al .out) (al .shift) ]
end

/-! ### Blocks and back end -/
section
variable {W : Nat}

/-- Parameters of `create_sub_word_mask_values` on LoongArch (src/utils.rs l.261-273, l.282). -/
def subCfg (e : Endian) : SubWordCfg := { shiftMask := false, leLike := e == .little }

/-- (aligned_ptr, shift, mask) for an object of `w` bits at `p`. The aligned pointer is passed with `ptr_reg!` (src/gen/utils.rs
l.30-100), which zero-extends it if pointers (of `P` bits) are narrower than registers (`C28_zero_extend64_ptr`). -/
def sub (W : Nat) (e : Endian) (w : Nat) {P : Nat} (p : BitVec P) : BitVec W × BitVec W × BitVec W :=
  let v := createSubWordMaskValues (subCfg e) P W (w / 8) p
  (v.1.setWidth W, v.2.1, v.2.2)

/-- l.25-60 -/
@[asm] def loadBlock (al : Alloc loadKind) (w : Nat) (f : Pairs) (p : BitVec W) : Block W w where
  code := loadAsm al w f
  args := [⟨al .src, W, p⟩]
  outs := al.Outs
  out rs := (rs.r (al .out)).setWidth w

/-- l.65-97 -/
@[asm] def storeBlock (al : Alloc storeKind) (w : Nat) (amo : Bool) (p : BitVec W) (val : BitVec w) :
    Block W w where
  code := storeAsm al w amo
  args := [⟨al .dst, W, p⟩, ⟨al .val, w, val⟩]
  outs := al.Outs

/-- l.182-214 -/
@[asm] def subStoreBlock (al : Alloc storeKind) (w : Nat) (f : Pairs × Pairs) (p : BitVec W)
    (val : BitVec w) : Block W w where
  code := subStoreAsm al w f
  args := [⟨al .dst, W, p⟩, ⟨al .val, w, val⟩]
  outs := al.Outs

/-- l.98-120 -/
@[asm] def swapBlock (al : Alloc swapKind) (w : Nat) (p : BitVec W) (val : BitVec w) :
    Block W w where
  code := swapAsm al w
  args := [⟨al .dst, W, p⟩, ⟨al .val, w, val⟩]
  outs := al.Outs
  out rs := (rs.r (al .out)).setWidth w

/-- l.121-168 -/
@[asm] def casBlock (al : Alloc casKind) (w : Nat) (f : Pairs) (p : BitVec W) (old new : BitVec w) :
    Block W w where
  code := casAsm al w f
  args := [⟨al .dst, W, p⟩, ⟨al .old, w, old⟩, ⟨al .new, w, new⟩]
  outs := al.Outs
  out rs := (rs.r (al .out)).setWidth w
  ok rs := rs.r (al .tmp) != 0#W
  assumes rs := rs.r (al .tmp) = 0#W ∨ rs.r (al .tmp) = 1#W

/-- l.215-249 -/
@[asm] def subSwapBlock (e : Endian) (al : Alloc subSwapKind) (w : Nat) {P : Nat} (p : BitVec P)
    (val : BitVec w) : Block W w where
  code := subSwapAsm al
  args := [⟨al .dst, W, (sub W e w p).1⟩, ⟨al .shift, W, (sub W e w p).2.1⟩, ⟨al .mask, W, (sub W e w p).2.2⟩,
    ⟨al .val, 32, zeroExtend e val⟩]
  outs := al.Outs
  out rs := (rs.r (al .out)).setWidth w

/-- l.250-310 -/
@[asm] def subCasBlock (e : Endian) (al : Alloc subCasKind) (w : Nat) (f : Pairs) {P : Nat} (p : BitVec P)
    (old new : BitVec w) : Block W w where
  code := subCasAsm al f
  args := [⟨al .dst, W, (sub W e w p).1⟩, ⟨al .shift, W, (sub W e w p).2.1⟩, ⟨al .mask, W, (sub W e w p).2.2⟩,
    ⟨al .old, 32, zeroExtend e old⟩, ⟨al .new, 32, zeroExtend e new⟩]
  outs := al.Outs
  out rs := (rs.r (al .out)).setWidth w
  ok rs := rs.r (al .tmp) != 0#W
  assumes rs := rs.r (al .tmp) = 0#W ∨ rs.r (al .tmp) = 1#W

/-! Sizes (l.313-330): `"b"`, `"h"` sub-word, `"w"` and `"d"` word code. -/

/-- `atomic_load` -/
inductive Load : Ordering → (w a : Nat) → Block W w → Prop
  | mk (al) {o f w} (p : BitVec W) (hw : SubSize w ∨ WordSize W w) (hf : loadFence o = some f) :
      Load o w p.toNat (loadBlock al w f p)
/-- `atomic_store` -/
inductive Store : Ordering → (w a : Nat) → BitVec w → Block W w → Prop
  | word (al) {o b w} (p : BitVec W) (val : BitVec w) (hw : WordSize W w)
      (hf : storeAmo o = some b) : Store o w p.toNat val (storeBlock al w b p val)
  | sub (al) {o f w} (p : BitVec W) (val : BitVec w) (hw : SubSize w)
      (hf : subStoreFences o = some f) : Store o w p.toNat val (subStoreBlock al w f p val)
/-- `atomic_swap` (the ordering is ignored: AMO and LL/SC are always SeqCst) -/
inductive Swap (e : Endian) : Ordering → (w a : Nat) → BitVec w → Block W w → Prop
  | word (al o) {w} (p : BitVec W) (val : BitVec w) (hw : WordSize W w) :
      Swap e o w p.toNat val (swapBlock al w p val)
  | sub (al o) {w P} (p : BitVec P) (val : BitVec w) (hw : SubSize w) (hal : SubPtr W w p) :
      Swap e o w p.toNat val (subSwapBlock e al w p val)
/-- `atomic_compare_exchange` (the success ordering is ignored); the weak form defaults to it
(src/raw.rs). -/
inductive Cas (e : Endian) : Ordering → Ordering → (w a : Nat) → BitVec w → BitVec w → Block W w → Prop
  | word (al s) {f w} (p : BitVec W) (old new : BitVec w) (hw : WordSize W w) {ff}
      (hf : failFence f = some ff) :
      Cas e s f w p.toNat old new (casBlock al w ff p old new)
  | sub (al s) {f w P} (p : BitVec P) (old new : BitVec w) (hw : SubSize w) {ff}
      (hf : failFence f = some ff) (hal : SubPtr W w p) :
      Cas e s f w p.toNat old new (subCasBlock e al w ff p old new)

/-- The LoongArch back end. -/
def backend (e : Endian) (W : Nat) : Backend W where
  e := e
  imp := Pairs.none
  Load := Load
  Store := Store
  Swap := Swap e
  Cas := Cas e
  CasWeak := Cas e
end

end Verif.LoongArch
