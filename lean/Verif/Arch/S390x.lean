/-
src/arch/s390x.rs (64-bit, big endian).

Architecture facts used (z/Architecture Principles of Operation): 32-bit instructions change only the low 32
bits of a register; `lpq`/`stpq` are single-copy atomic; CS/CSG/CDSG serialize before and after; `bcr 14,0` and
`bcr 15,0` serialize; apart from that a CPU may delay stores past later loads and nothing else (`imp`).
-/
import Verif.Core.Alloc
import Verif.Contract
import Verif.Core.Ordering
import Verif.Core.Sizes
import Verif.Core.Pair

namespace Verif.S390x

/-! ### Mnemonics -/

/-- replace the low 32 bits of a register -/
def low32 (r : BitVec 64) (x : BitVec 32) : BitVec 64 := r.extractLsb' 32 32 ++ x
/-- Register content after a load of `w` bits: `lb`/`lh` sign-extend to 32 bits, `l` loads 32 bits (upper half
unchanged), `lg` loads 64 bits. -/
def ldVal (w : Nat) (r : BitVec 64) (x : BitVec w) : BitVec 64 :=
  if w = 64 then x.setWidth 64 else low32 r (x.signExtend 32)
/-- `d(reg)`. -/
@[asm] def ea (b d : Nat) : RS 64 → Nat := fun s => (s.r b).toNat + d
/-- `l{b,h,,g} t, d(s)`. -/
@[asm] def l (w t d s : Nat) : Instr 64 := .ld .plain (ea s d) w (fun x q => q.set t (ldVal w (q.r t) x))
/-- `st{c,h,,g} v, 0(s)`. -/
@[asm] def st (w v s : Nat) : Instr 64 := .st .plain (ea s 0) w (fun q => (q.r v).setWidth w)
/-- CS/CSG/CDSG serialize -/
def ser : Acc := { full := true }
/-- `cs{,g} o, n, 0(d)`: if *d == o { cc = 0; *d = n } else { cc = 1; o = *d }. -/
@[asm] def cs (w o n d : Nat) : Instr 64 :=
  .rmw ser (ea d 0) w
    (fun q x => if x = (q.r o).setWidth w then some ((q.r n).setWidth w) else none)
    (fun x q => (q.setIf (x != (q.r o).setWidth w) o (ldVal w (q.r o) x)).setCC
      (if x = (q.r o).setWidth w then 0 else 1))
/-- `lpq thi, 0(s)`. -/
@[asm] def lpq (thi tlo s : Nat) : Instr 64 :=
  .ld .plain (ea s 0) 128 (fun x q => (q.set thi (highHalf 64 x)).set tlo (lowHalf 64 x))
/-- `stpq vhi, 0(s)`. -/
@[asm] def stpq (vhi vlo s : Nat) : Instr 64 :=
  .st .plain (ea s 0) 128 (fun q => joinHL 128 (q.r vhi) (q.r vlo))
/-- `cdsg ohi, nhi, 0(d)`. -/
@[asm] def cdsg (ohi olo nhi nlo d : Nat) : Instr 64 :=
  .rmw ser (ea d 0) 128
    (fun q x => if x = joinHL 128 (q.r ohi) (q.r olo) then some (joinHL 128 (q.r nhi) (q.r nlo)) else none)
    (fun x q => ((q.setIf (x != joinHL 128 (q.r ohi) (q.r olo)) ohi (highHalf 64 x)).setIf
        (x != joinHL 128 (q.r ohi) (q.r olo)) olo (lowHalf 64 x)).setCC
      (if x = joinHL 128 (q.r ohi) (q.r olo) then 0 else 1))
/-- `jl target`: jump if cc == 1. -/
@[asm] def jl (t : Nat) : Instr 64 := .br (fun s => s.cc == 1#2) t
/-- `jlh target`: jump if cc == 1 or cc == 2. -/
@[asm] def jlh (t : Nat) : Instr 64 := .br (fun s => s.cc == 1#2 || s.cc == 2#2) t
/-- rotation amount `d(b)`: the low six bits of the address -/
def amount (x : BitVec 64) (d : Int) : Nat := (x + BitVec.ofInt 64 d).toNat % 64
/-- `rll t, a, d(b)`. -/
@[asm] def rll (t a : Nat) (d : Int) (b : Nat) : Instr 64 :=
  .op fun _ s => s.set t (low32 (s.r t) (((s.r a).setWidth 32).rotateLeft (amount (s.r b) d)))
/-- bits `i3`..`i4` in the architecture's numbering (0 = most significant) -/
def maskBE (i3 i4 : Nat) : BitVec 64 := (BitVec.allOnes 64 >>> i3) &&& (BitVec.allOnes 64 <<< (63 - i4))
/-- result of `risbg`: the selected bits of the rotated second operand inserted into the first -/
def risbgVal (t a : BitVec 64) (i3 i4 i5 : Nat) : BitVec 64 :=
  (t &&& ~~~(maskBE i3 i4)) ||| (a.rotateLeft i5 &&& maskBE i3 i4)
/-- condition code of a signed comparison of `a` with `b`: 0 equal, 1 low, 2 high -/
def cmpCC {n : Nat} (a b : BitVec n) : BitVec 2 := if a = b then 0 else if a.slt b then 1 else 2
/-- `risbg t, a, i3, i4, i5`; the condition code compares the result with zero. -/
@[asm] def risbg (t a i3 i4 i5 : Nat) : Instr 64 :=
  .op fun _ s => (s.set t (risbgVal (s.r t) (s.r a) i3 i4 i5)).setCC
    (cmpCC (risbgVal (s.r t) (s.r a) i3 i4 i5) 0)
/-- `ll{c,h}r t, a`: zero-extend the low `w` bits to 32 bits. -/
@[asm] def llr (w t a : Nat) : Instr 64 :=
  .op fun _ s => s.set t (low32 (s.r t) (((s.r a).setWidth w).setWidth 32))
/-- `cr a, b`: signed 32-bit comparison. -/
@[asm] def cr (a b : Nat) : Instr 64 :=
  .op fun _ s => s.setCC
    (cmpCC ((s.r a).setWidth 32) ((s.r b).setWidth 32))
/-- result of `ipm` on a register containing `r`: bits 30-31 (from the right) zero, bits 28-29 the condition
code, bits 24-27 the program mask `pm`, all other bits unchanged -/
def ipmVal (r : BitVec 64) (pm : BitVec 4) (cc : BitVec 2) : BitVec 64 :=
  low32 r (0#2 ++ cc ++ pm ++ r.setWidth 24)
/-- `ipm t`; the program mask is arbitrary. -/
@[asm] def ipm (t : Nat) : Instr 64 :=
  .op fun o s => s.set t (ipmVal (s.r t) (BitVec.ofNat 4 o.junk) s.cc)

/-- l.54-58 `extract_cc` -/
def extractCC (r : BitVec 64) : Bool := ((r + BitVec.ofInt 64 (-268435456)) &&& (1#64 <<< 31)) != 0#64

/-- l.106-111, l.336-341: the fence after a store (l.34-52 `serialization!`: `bcr 14, 0` or `bcr 15, 0`);
`none` = `unreachable!()` -/
def storeOrd : Ordering → Option Pairs
  | .relaxed | .release => some Pairs.none
  | .seqCst => some Pairs.full
  | _ => none

/-! ### asm! blocks -/

/-- operands of l.76-77 -/
@[asm] def loadKind : Op → Kind
  | .src => .inp | .out => .lateout
  | _ => .unused
/-- l.74-79 `atomic_load`. -/
@[asm] def loadAsm (al : Op → Nat) (w : Nat) : List (Instr 64) := [
    l w (al .out) 0 (al .src) ]
/-- operands of l.100-101 -/
@[asm] def storeKind : Op → Kind
  | .dst => .inp | .val => .inp
  | _ => .unused
/-- l.95-104 `atomic_store!`. -/
@[asm] def storeAsm (al : Op → Nat) (w : Nat) (f : Pairs) : List (Instr 64) := [
    st w (al .val) (al .dst),
    .fence f ]
/-- operands of l.139-141 -/
@[asm] def swapKind : Op → Kind
  | .dst => .inp | .val => .inp | .out => .out
  | _ => .unused
/-- l.134-144 `atomic_swap`. -/
@[asm] def swapAsm (al : Op → Nat) (w : Nat) : List (Instr 64) := [
    l w (al .out) 0 (al .dst),
    /- 2: -/ cs w (al .out) (al .val) (al .dst),
    jl 1 ]
/-- operands of l.168-171 -/
@[asm] def casKind : Op → Kind
  | .dst => .inp | .new => .inp | .r => .lateout | .old => .inout
  | _ => .unused
/-- l.165-174 `atomic_compare_exchange`. -/
@[asm] def casAsm (al : Op → Nat) (w : Nat) : List (Instr 64) := [
    cs w (al .old) (al .new) (al .dst),
    ipm (al .r) ]
/-- operands of l.210-215 -/
@[asm] def subSwapKind : Op → Kind
  | .dst => .inp | .val => .inp | .out => .out | .shift => .inp | .shift_c => .inp | .prev => .out
  | _ => .unused
/-- l.201-218 sub-word `atomic_swap`; `i4, i5` = `$risbg_swap`, `w` = `$bits`. -/
@[asm] def subSwapAsm (al : Op → Nat) (w i4 i5 : Nat) : List (Instr 64) := [
    l 32 (al .prev) 0 (al .dst),
    /- 2: -/ rll (al .out) (al .prev) 0 (al .shift),
    risbg (al .out) (al .val) 32 i4 i5,
    rll (al .out) (al .out) 0 (al .shift_c),
    cs 32 (al .prev) (al .out) (al .dst),
    jl 1,
    rll (al .out) (al .prev) w (al .shift) ]
/-- operands of l.255-263 -/
@[asm] def subCasKind : Op → Kind
  | .dst => .inp | .prev => .out | .old => .inp | .new => .inout | .shift => .inp | .shift_c => .inp | .tmp => .out | .r => .lateout | .out => .out
  | _ => .unused
/-- l.242-266 sub-word `atomic_compare_exchange`; `i4` = `$risbg_cas`. -/
@[asm] def subCasAsm (al : Op → Nat) (w i4 : Nat) : List (Instr 64) := [
    l 32 (al .prev) 0 (al .dst),
    /- 2: -/ rll (al .out) (al .prev) w (al .shift),
    risbg (al .new) (al .out) 32 i4 0,
    llr w (al .out) (al .out),
    cr (al .out) (al .old),
    jlh 9,
    rll (al .tmp) (al .new) (-w) (al .shift_c),
    cs 32 (al .prev) (al .tmp) (al .dst),
    jl 1,
    /- 3: -/ ipm (al .r) ]
/-- operands of l.301-304 (r0/r1 = out_hi/out_lo) -/
@[asm] def lqKind : Op → Kind
  | .src => .inp | .out_hi => .out | .out_lo => .out
  | _ => .unused
/-- l.299-306 128-bit `atomic_load`. -/
@[asm] def lqAsm (al : Op → Nat) : List (Instr 64) := [
    lpq (al .out_hi) (al .out_lo) (al .src) ]
/-- operands of l.328-331 (r0/r1 = val_hi/val_lo) -/
@[asm] def stqKind : Op → Kind
  | .dst => .inp | .val_hi => .inp | .val_lo => .inp
  | _ => .unused
/-- l.323-334 128-bit `atomic_store!`. -/
@[asm] def stqAsm (al : Op → Nat) (f : Pairs) : List (Instr 64) := [
    stpq (al .val_hi) (al .val_lo) (al .dst),
    .fence f ]
/-- operands of l.365-370 (r0/r1 = prev_hi/prev_lo, r12/r13 = val_hi/val_lo) -/
@[asm] def swapqKind : Op → Kind
  | .dst => .inp | .prev_hi => .out | .prev_lo => .out | .val_hi => .inp | .val_lo => .inp
  | _ => .unused
/-- l.359-373 128-bit `atomic_swap`. -/
@[asm] def swapqAsm (al : Op → Nat) : List (Instr 64) := [
    l 64 (al .prev_hi) 8 (al .dst),
    l 64 (al .prev_lo) 0 (al .dst),
    /- 2: -/ cdsg (al .prev_hi) (al .prev_lo) (al .val_hi) (al .val_lo) (al .dst),
    jl 2 ]
/-- operands of l.399-405 (r0/r1 = old/prev, r12/r13 = new) -/
@[asm] def casqKind : Op → Kind
  | .dst => .inp | .r => .lateout | .old_hi => .inout | .old_lo => .inout | .new_hi => .inp | .new_lo => .inp
  | _ => .unused
/-- l.396-408 128-bit `atomic_compare_exchange`. -/
@[asm] def casqAsm (al : Op → Nat) : List (Instr 64) := [
    cdsg (al .old_hi) (al .old_lo) (al .new_hi) (al .new_lo) (al .dst),
    ipm (al .r) ]

/-! ### Blocks and back end -/

/-- `create_sub_word_mask_values` on s390x (src/utils.rs l.255-292): `SHIFT_MASK = false`, little-endian
formula although the machine is big endian (l.282), `RetInt = u32`. -/
def subCfg : SubWordCfg := { shiftMask := false, leLike := true }
/-- (aligned_ptr, shift, mask) for an object of `w` bits at `p`. -/
abbrev sub (w : Nat) (p : BitVec 64) : BitVec 64 × BitVec 32 × BitVec 32 :=
  createSubWordMaskValues subCfg 64 32 (w / 8) p
/-- `$risbg_swap` (l.274-277): end bit and rotation -/
def risbgSwap (w : Nat) : Nat × Nat := if w = 8 then (39, 24) else (47, 16)
/-- `$risbg_cas` (l.274-277): end bit -/
def risbgCas (w : Nat) : Nat := if w = 8 then 55 else 47
/-- `MaybeUninit128 { $ty: v }.pair` as (lo, hi) (src/utils.rs l.221-241): `hi` first on s390x -/
abbrev pr (v : BitVec 128) : BitVec 64 × BitVec 64 := pairOf false .big 64 v

/-- l.62-83 -/
@[asm] def loadBlock (al : Alloc loadKind) (w : Nat) (p : BitVec 64) : Block 64 w where
  code := loadAsm al w
  args := [⟨al .src, 64, p⟩]
  outs := al.Outs
  out rs := (rs.r (al .out)).setWidth w
/-- l.84-114 -/
@[asm] def storeBlock (al : Alloc storeKind) (w : Nat) (f : Pairs) (p : BitVec 64) (val : BitVec w) :
    Block 64 w where
  code := storeAsm al w f
  args := [⟨al .dst, 64, p⟩, ⟨al .val, w, val⟩]
  outs := al.Outs
/-- l.121-148 -/
@[asm] def swapBlock (al : Alloc swapKind) (w : Nat) (p : BitVec 64) (val : BitVec w) : Block 64 w where
  code := swapAsm al w
  args := [⟨al .dst, 64, p⟩, ⟨al .val, w, val⟩]
  outs := al.Outs
  keepsFlags := false
  out rs := (rs.r (al .out)).setWidth w
/-- l.149-178 -/
@[asm] def casBlock (al : Alloc casKind) (w : Nat) (p : BitVec 64) (old new : BitVec w) : Block 64 w where
  code := casAsm al w
  args := [⟨al .dst, 64, p⟩, ⟨al .new, w, new⟩, ⟨al .old, w, old⟩]
  outs := al.Outs
  keepsFlags := false
  out rs := (rs.r (al .old)).setWidth w
  ok rs := extractCC (rs.r (al .r))
/-- l.185-222; `shift` and `shift_c` are `u32` operands -/
@[asm] def subSwapBlock (al : Alloc subSwapKind) (w : Nat) (p : BitVec 64) (val : BitVec w) : Block 64 w where
  code := subSwapAsm al w (risbgSwap w).1 (risbgSwap w).2
  args := [⟨al .dst, 64, (sub w p).1⟩, ⟨al .val, w, val⟩, ⟨al .shift, 32, (sub w p).2.1⟩,
    ⟨al .shift_c, 32, -(sub w p).2.1⟩]
  outs := al.Outs
  keepsFlags := false
  out rs := (rs.r (al .out)).setWidth w
/-- l.223-270 -/
@[asm] def subCasBlock (al : Alloc subCasKind) (w : Nat) (p : BitVec 64) (old new : BitVec w) : Block 64 w where
  code := subCasAsm al w (risbgCas w)
  args := [⟨al .dst, 64, (sub w p).1⟩, ⟨al .old, 32, zeroExtend .big old⟩, ⟨al .new, w, new⟩,
    ⟨al .shift, 32, (sub w p).2.1⟩, ⟨al .shift_c, 32, -(sub w p).2.1⟩]
  outs := al.Outs
  keepsFlags := false
  out rs := (rs.r (al .out)).setWidth w
  ok rs := extractCC (rs.r (al .r))
/-- l.287-310 -/
@[asm] def lqBlock (al : Alloc lqKind) (p : BitVec 64) : Block 64 128 where
  code := lqAsm al
  args := [⟨al .src, 64, p⟩]
  outs := al.Outs
  out rs := ofPair false .big 128 (rs.r (al .out_lo)) (rs.r (al .out_hi))
/-- l.311-344 -/
@[asm] def stqBlock (al : Alloc stqKind) (f : Pairs) (p : BitVec 64) (val : BitVec 128) : Block 64 128 where
  code := stqAsm al f
  args := [⟨al .dst, 64, p⟩, ⟨al .val_hi, 64, (pr val).2⟩, ⟨al .val_lo, 64, (pr val).1⟩]
  outs := al.Outs
/-- l.345-377 -/
@[asm] def swapqBlock (al : Alloc swapqKind) (p : BitVec 64) (val : BitVec 128) : Block 64 128 where
  code := swapqAsm al
  args := [⟨al .dst, 64, p⟩, ⟨al .val_hi, 64, (pr val).2⟩, ⟨al .val_lo, 64, (pr val).1⟩]
  outs := al.Outs
  keepsFlags := false
  out rs := ofPair false .big 128 (rs.r (al .prev_lo)) (rs.r (al .prev_hi))
/-- l.378-416 -/
@[asm] def casqBlock (al : Alloc casqKind) (p : BitVec 64) (old new : BitVec 128) : Block 64 128 where
  code := casqAsm al
  args := [⟨al .dst, 64, p⟩, ⟨al .old_hi, 64, (pr old).2⟩, ⟨al .old_lo, 64, (pr old).1⟩,
    ⟨al .new_hi, 64, (pr new).2⟩, ⟨al .new_lo, 64, (pr new).1⟩]
  outs := al.Outs
  keepsFlags := false
  out rs := ofPair false .big 128 (rs.r (al .old_lo)) (rs.r (al .old_hi))
  ok rs := extractCC (rs.r (al .r))

/-- `atomic_load` (any ordering: the argument is ignored) -/
inductive Load : Ordering → (w a : Nat) → Block 64 w → Prop
  | word (al o) {w} (p : BitVec 64) (hw : SubSize w ∨ WordSize 64 w) : Load o w p.toNat (loadBlock al w p)
  | quad (al o) (p : BitVec 64) : Load o 128 p.toNat (lqBlock al p)
/-- `atomic_store` -/
inductive Store : Ordering → (w a : Nat) → BitVec w → Block 64 w → Prop
  | word (al) {o f w} (p : BitVec 64) (val : BitVec w) (hw : SubSize w ∨ WordSize 64 w)
      (hf : storeOrd o = some f) : Store o w p.toNat val (storeBlock al w f p val)
  | quad (al) {o f} (p : BitVec 64) (val : BitVec 128) (hf : storeOrd o = some f) :
      Store o 128 p.toNat val (stqBlock al f p val)
/-- `atomic_swap` -/
inductive Swap : Ordering → (w a : Nat) → BitVec w → Block 64 w → Prop
  | word (al o) {w} (p : BitVec 64) (val : BitVec w) (hw : WordSize 64 w) :
      Swap o w p.toNat val (swapBlock al w p val)
  | sub (al o) {w} (p : BitVec 64) (val : BitVec w) (hw : SubSize w) (hal : p.toNat % (w / 8) = 0) :
      Swap o w p.toNat val (subSwapBlock al w p val)
  | quad (al o) (p : BitVec 64) (val : BitVec 128) : Swap o 128 p.toNat val (swapqBlock al p val)
/-- `atomic_compare_exchange`, also `atomic_compare_exchange_weak` (src/raw.rs default method) -/
inductive Cas : Ordering → Ordering → (w a : Nat) → BitVec w → BitVec w → Block 64 w → Prop
  | word (al s f) {w} (p : BitVec 64) (old new : BitVec w) (hw : WordSize 64 w) :
      Cas s f w p.toNat old new (casBlock al w p old new)
  | sub (al s f) {w} (p : BitVec 64) (old new : BitVec w) (hw : SubSize w) (hal : p.toNat % (w / 8) = 0) :
      Cas s f w p.toNat old new (subCasBlock al w p old new)
  | quad (al s f) (p : BitVec 64) (old new : BitVec 128) :
      Cas s f 128 p.toNat old new (casqBlock al p old new)

/-- What z/Architecture orders without serialization: everything but write-read. -/
def imp : Pairs := ⟨true, true, false, true, false⟩

/-- The s390x back end. -/
def backend : Backend 64 where
  e := .big
  imp := imp
  Load := Load
  Store := Store
  Swap := Swap
  Cas := Cas
  CasWeak := Cas

end Verif.S390x
