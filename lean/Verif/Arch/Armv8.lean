/-
src/arch/armv8.rs: Armv8 AArch32 (A, R and M profile).

Registers are 32 bits. 8-, 16- and 32-bit objects use lda*/stl* and ld?ex*/st?ex*; 64-bit objects (not on
M-profile) use ld?exd/st?exd on a register pair.
-/
import Verif.Core.Alloc
import Verif.Contract
import Verif.Core.Ordering
import Verif.Core.Sizes
import Verif.Core.Pair

namespace Verif.Armv8

/-- Build configuration: `mclass` (l.58-69, and the `cfg` attributes of the 64-bit implementations). -/
structure Conf where
  mclass : Bool

/-! ### Mnemonics -/

/-- Base-register address `[reg]`. -/
@[asm] def ea (b : Nat) : RS 32 → Nat := fun s => (s.r b).toNat
/-- The read annotation: `"a"` (lda, ldaex: acquire, RCsc) or `"r"`. -/
def rd (a : Bool) : Acc := { aq := a, sc := a }
/-- The write annotation: `"l"` (stl, stlex: release, RCsc) or `"r"`. -/
def wr (l : Bool) : Acc := { rl := l, sc := l }
/-- `ld{r,a}{b,h,} rd, [rs]`: zero-extending load. -/
@[asm] def ldr (w t s : Nat) (a : Bool) : Instr 32 := .ld (rd a) (ea s) w (fun x q => q.set t (x.setWidth 32))
/-- `st{r,l}{b,h,} rv, [rs]`. -/
@[asm] def str (w v s : Nat) (l : Bool) : Instr 32 := .st (wr l) (ea s) w (fun q => (q.r v).setWidth w)
/-- `ld{r,a}ex{b,h,} rd, [rs]`. -/
@[asm] def ldex (w t s : Nat) (a : Bool) : Instr 32 :=
  .ll (rd a) false (ea s) w (fun x q => q.set t (x.setWidth 32))
/-- `st{r,l}ex{b,h,} rd, rv, [rs]`: rd = 0 on success, 1 on failure. -/
@[asm] def stex (w t v s : Nat) (l : Bool) : Instr 32 :=
  .sc (wr l) (ea s) w (fun q => (q.r v).setWidth w) (fun b _ q => q.set t (if b then 0#32 else 1#32))
/-- `ld{r,a}exd ra, rb, [rs]`: ra = word at rs, rb = word at rs+4 (64-bit single-copy atomic). -/
@[asm] def ldexd (e : Endian) (ta tb s : Nat) (a : Bool) : Instr 32 :=
  .ll (rd a) false (ea s) 64 (fun x q => (q.set ta (word0 e 32 x)).set tb (word1 e 32 x))
/-- `st{r,l}exd rd, ra, rb, [rs]`. -/
@[asm] def stexd (e : Endian) (t va vb s : Nat) (l : Bool) : Instr 32 :=
  .sc (wr l) (ea s) 64 (fun q => join01 e 64 (q.r va) (q.r vb))
    (fun b _ q => q.set t (if b then 0#32 else 1#32))
/-- `cmp a, b`: Z = (a == b). -/
@[asm] def cmp (a b : Nat) : Instr 32 := .op fun _ s => s.setZ (s.r a == s.r b)
/-- `cmp a, #0`: Z = (a == 0). -/
@[asm] def cmp0 (a : Nat) : Instr 32 := .op fun _ s => s.setZ (s.r a == 0#32)
/-- `eor t, a, b`. -/
@[asm] def eor (t a b : Nat) : Instr 32 := .op fun _ s => s.set t (s.r a ^^^ s.r b)
/-- `orrs t, a, b`: Z = (result == 0). -/
@[asm] def orrs (t a b : Nat) : Instr 32 :=
  .op fun _ s => (s.set t (s.r a ||| s.r b)).setZ ((s.r a ||| s.r b) == 0#32)
/-- `s!("mov", "t, #1")` (l.58-69): `mov`, or `movs` (which also clears Z) on M-profile. -/
@[asm] def mov1 (c : Conf) (t : Nat) : Instr 32 :=
  match c.mclass with
  | true => .op fun _ s => (s.set t 1#32).setZ false
  | false => .op fun _ s => s.set t 1#32
/-- `bne target`. -/
@[asm] def bne (t : Nat) : Instr 32 := .br (fun s => !s.z) t
/-- `b target`. -/
@[asm] def b (t : Nat) : Instr 32 := .br (fun _ => true) t

/-! ### Ordering tables (`none` = `unreachable!()`; `true` = `"a"` resp. `"l"`) -/

/-- l.95-100, l.300-305. -/
def loadOrd : Ordering → Option Bool
  | .relaxed => some false
  | .acquire | .seqCst => some true
  | _ => none
/-- l.126-131. -/
def storeOrd : Ordering → Option Bool
  | .relaxed => some false
  | .release | .seqCst => some true
  | _ => none
/-- l.43-54 `atomic_rmw!`: (acquire, release). -/
def rmwOrd : Ordering → Bool × Bool
  | .relaxed => (false, false)
  | .acquire => (true, false)
  | .release => (false, true)
  | .acqRel | .seqCst => (true, true)

/-! ### asm! blocks for 8, 16 and 32 bits -/

/-- operands of l.89-90 -/
@[asm] def loadKind : Op → Kind
  | .src => .inp | .out => .lateout | _ => .unused
/-- l.87-92 `atomic_load!`. -/
@[asm] def loadAsm (al : Op → Nat) (w : Nat) (o : Bool) : List (Instr 32) := [ ldr w (al .out) (al .src) o ]
/-- operands of l.120-121 -/
@[asm] def storeKind : Op → Kind
  | .dst => .inp | .val => .inp | _ => .unused
/-- l.118-123 `atomic_store!`. -/
@[asm] def storeAsm (al : Op → Nat) (w : Nat) (o : Bool) : List (Instr 32) := [ str w (al .val) (al .dst) o ]
/-- operands of l.155-158 -/
@[asm] def swapKind : Op → Kind
  | .dst => .inp | .val => .inout | .out => .out | .r => .out | _ => .unused
/-- l.149-161 `swap!`. -/
@[asm] def swapAsm (al : Op → Nat) (w : Nat) (o : Bool × Bool) : List (Instr 32) := [
    /- 2: -/ ldex w (al .out) (al .dst) o.1,
    stex w (al .r) (al .val) (al .dst) o.2,
    cmp0 (al .r),
    bne 0 ]
/-- operands of l.200-204, l.243-247 -/
@[asm] def casKind : Op → Kind
  | .dst => .inp | .old => .inp | .new => .inout | .out => .out | .r => .out | _ => .unused
/-- l.187-206 `cmpxchg!`. -/
@[asm] def casAsm (c : Conf) (al : Op → Nat) (w : Nat) (o : Bool × Bool) : List (Instr 32) := [
    /- 2: -/ ldex w (al .out) (al .dst) o.1,
    cmp (al .out) (al .old),
    bne 7,
    stex w (al .r) (al .new) (al .dst) o.2,
    cmp0 (al .r),
    bne 0,
    b 9,
    /- 3: -/ .clrex,
    mov1 c (al .r) ]
/-- l.233-250 `cmpxchg_weak!`. -/
@[asm] def weakAsm (c : Conf) (al : Op → Nat) (w : Nat) (o : Bool × Bool) : List (Instr 32) := [
    ldex w (al .out) (al .dst) o.1,
    cmp (al .out) (al .old),
    bne 5,
    stex w (al .r) (al .new) (al .dst) o.2,
    b 7,
    /- 3: -/ .clrex,
    mov1 c (al .r) ]

/-! ### asm! blocks for 64 bits -/

/-- operands of l.292-295 -/
@[asm] def loaddKind : Op → Kind
  | .src => .inp | .prev_lo => .lateout | .prev_hi => .lateout | _ => .unused
/-- l.289-297 `atomic_load!`. -/
@[asm] def loaddAsm (e : Endian) (al : Op → Nat) (o : Bool) : List (Instr 32) :=
  [ ldexd e (al .prev_lo) (al .prev_hi) (al .src) o, .clrex ]
/-- operands of l.331-337 -/
@[asm] def storedKind : Op → Kind
  | .dst => .inp | .val_lo => .inout | .val_hi => .inout | .tmp_lo => .out | .tmp_hi => .out | _ => .unused
/-- l.325-340 `store!`. -/
@[asm] def storedAsm (e : Endian) (al : Op → Nat) (o : Bool × Bool) : List (Instr 32) := [
    /- 2: -/ ldexd e (al .tmp_lo) (al .tmp_hi) (al .dst) o.1,
    stexd e (al .tmp_lo) (al .val_lo) (al .val_hi) (al .dst) o.2,
    cmp0 (al .tmp_lo),
    bne 0 ]
/-- operands of l.369-376 -/
@[asm] def swapdKind : Op → Kind
  | .dst => .inp | .r => .out | .val_lo => .inout | .val_hi => .inout | .prev_lo => .out | .prev_hi => .out
  | _ => .unused
/-- l.363-379 `swap!`. -/
@[asm] def swapdAsm (e : Endian) (al : Op → Nat) (o : Bool × Bool) : List (Instr 32) := [
    /- 2: -/ ldexd e (al .prev_lo) (al .prev_hi) (al .dst) o.1,
    stexd e (al .r) (al .val_lo) (al .val_hi) (al .dst) o.2,
    cmp0 (al .r),
    bne 0 ]
/-- operands of l.423-433, l.476-486 -/
@[asm] def casdKind : Op → Kind
  | .dst => .inp | .old_lo => .inp | .old_hi => .inp | .r => .out | .tmp => .out | .prev_lo => .out
  | .prev_hi => .out | .new_lo => .inout | .new_hi => .inout | _ => .unused
/-- l.408-435 `cmpxchg!`. -/
@[asm] def casdAsm (e : Endian) (c : Conf) (al : Op → Nat) (o : Bool × Bool) : List (Instr 32) := [
    /- 2: -/ ldexd e (al .prev_lo) (al .prev_hi) (al .dst) o.1,
    eor (al .tmp) (al .prev_hi) (al .old_hi),
    eor (al .r) (al .prev_lo) (al .old_lo),
    orrs (al .r) (al .r) (al .tmp),
    bne 9,
    stexd e (al .r) (al .new_lo) (al .new_hi) (al .dst) o.2,
    cmp0 (al .r),
    bne 0,
    b 11,
    /- 3: -/ .clrex,
    mov1 c (al .r) ]
/-- l.464-489 `cmpxchg_weak!`. -/
@[asm] def weakdAsm (e : Endian) (c : Conf) (al : Op → Nat) (o : Bool × Bool) : List (Instr 32) := [
    ldexd e (al .prev_lo) (al .prev_hi) (al .dst) o.1,
    eor (al .tmp) (al .prev_hi) (al .old_hi),
    eor (al .r) (al .prev_lo) (al .old_lo),
    orrs (al .r) (al .r) (al .tmp),
    bne 7,
    stexd e (al .r) (al .new_lo) (al .new_hi) (al .dst) o.2,
    b 9,
    /- 3: -/ .clrex,
    mov1 c (al .r) ]

/-! ### Blocks and back end -/

/-- l.74-104 -/
@[asm] def loadBlock (al : Alloc loadKind) (w : Nat) (o : Bool) (p : BitVec 32) : Block 32 w where
  code := loadAsm al w o
  args := [⟨al .src, 32, p⟩]
  outs := al.Outs
  out rs := (rs.r (al .out)).setWidth w

/-- l.105-134 -/
@[asm] def storeBlock (al : Alloc storeKind) (w : Nat) (o : Bool) (p : BitVec 32) (val : BitVec w) :
    Block 32 w where
  code := storeAsm al w o
  args := [⟨al .dst, 32, p⟩, ⟨al .val, w, val⟩]
  outs := al.Outs

/-- l.135-168 -/
@[asm] def swapBlock (al : Alloc swapKind) (w : Nat) (o : Bool × Bool) (p : BitVec 32) (val : BitVec w) :
    Block 32 w where
  code := swapAsm al w o
  args := [⟨al .dst, 32, p⟩, ⟨al .val, w, val⟩]
  outs := al.Outs
  keepsFlags := false
  out rs := (rs.r (al .out)).setWidth w

/-- operands and results of the compare_exchange blocks (l.169-215, l.216-260); `zero_extend` of a 32-bit
value is the value itself. -/
@[asm] def casFrame (e : Endian) (al : Alloc casKind) (w : Nat) (code : List (Instr 32))
    (p : BitVec 32) (old new : BitVec w) : Block 32 w where
  code := code
  args := [⟨al .dst, 32, p⟩, ⟨al .old, 32, zeroExtend e old⟩, ⟨al .new, w, new⟩]
  outs := al.Outs
  keepsFlags := false
  out rs := (rs.r (al .out)).setWidth w
  ok rs := rs.r (al .r) == 0#32
  assumes rs := rs.r (al .r) = 0#32 ∨ rs.r (al .r) = 1#32

/-- l.276-309 -/
@[asm] def loaddBlock (e : Endian) (al : Alloc loaddKind) (o : Bool) (p : BitVec 32) : Block 32 64 where
  code := loaddAsm e al o
  args := [⟨al .src, 32, p⟩]
  outs := al.Outs
  out rs := ofPair true e 64 (rs.r (al .prev_lo)) (rs.r (al .prev_hi))

/-- l.311-346 -/
@[asm] def storedBlock (e : Endian) (al : Alloc storedKind) (o : Bool × Bool) (p : BitVec 32)
    (val : BitVec 64) : Block 32 64 where
  code := storedAsm e al o
  args := [⟨al .dst, 32, p⟩, ⟨al .val_lo, 32, (pairOf true e 32 val).1⟩,
    ⟨al .val_hi, 32, (pairOf true e 32 val).2⟩]
  outs := al.Outs
  keepsFlags := false

/-- l.348-386 -/
@[asm] def swapdBlock (e : Endian) (al : Alloc swapdKind) (o : Bool × Bool) (p : BitVec 32)
    (val : BitVec 64) : Block 32 64 where
  code := swapdAsm e al o
  args := [⟨al .dst, 32, p⟩, ⟨al .val_lo, 32, (pairOf true e 32 val).1⟩,
    ⟨al .val_hi, 32, (pairOf true e 32 val).2⟩]
  outs := al.Outs
  keepsFlags := false
  out rs := ofPair true e 64 (rs.r (al .prev_lo)) (rs.r (al .prev_hi))

/-- operands and results of the 64-bit compare_exchange blocks (l.388-444, l.445-498) -/
@[asm] def casdFrame (e : Endian) (al : Alloc casdKind) (code : List (Instr 32))
    (p : BitVec 32) (old new : BitVec 64) : Block 32 64 where
  code := code
  args := [⟨al .dst, 32, p⟩, ⟨al .old_lo, 32, (pairOf true e 32 old).1⟩,
    ⟨al .old_hi, 32, (pairOf true e 32 old).2⟩, ⟨al .new_lo, 32, (pairOf true e 32 new).1⟩,
    ⟨al .new_hi, 32, (pairOf true e 32 new).2⟩]
  outs := al.Outs
  keepsFlags := false
  out rs := ofPair true e 64 (rs.r (al .prev_lo)) (rs.r (al .prev_hi))
  ok rs := rs.r (al .r) == 0#32
  assumes rs := rs.r (al .r) = 0#32 ∨ rs.r (al .r) = 1#32

/-- `atomic_load` -/
inductive Load (e : Endian) (c : Conf) : Ordering → (w a : Nat) → Block 32 w → Prop
  | word (al) {o f w} (p : BitVec 32) (hw : SubSize w ∨ w = 32) (hf : loadOrd o = some f) :
      Load e c o w p.toNat (loadBlock al w f p)
  | dword (al) {o f} (hc : c.mclass = false) (p : BitVec 32) (hf : loadOrd o = some f) :
      Load e c o 64 p.toNat (loaddBlock e al f p)
/-- `atomic_store`; the 64-bit store uses `atomic_rmw!` with an ordering that passed
`assert_store_ordering` (src/lib.rs l.330-339). -/
inductive Store (e : Endian) (c : Conf) : Ordering → (w a : Nat) → BitVec w → Block 32 w → Prop
  | word (al) {o f w} (p : BitVec 32) (val : BitVec w) (hw : SubSize w ∨ w = 32)
      (hf : storeOrd o = some f) : Store e c o w p.toNat val (storeBlock al w f p val)
  | dword (al) {o} (hc : c.mclass = false) (p : BitVec 32) (val : BitVec 64)
      (hv : assertStoreOrdering o = .ok ()) :
      Store e c o 64 p.toNat val (storedBlock e al (rmwOrd o) p val)
/-- `atomic_swap` -/
inductive Swap (e : Endian) (c : Conf) : Ordering → (w a : Nat) → BitVec w → Block 32 w → Prop
  | word (al o) {w} (p : BitVec 32) (val : BitVec w) (hw : SubSize w ∨ w = 32) :
      Swap e c o w p.toNat val (swapBlock al w (rmwOrd o) p val)
  | dword (al o) (hc : c.mclass = false) (p : BitVec 32) (val : BitVec 64) :
      Swap e c o 64 p.toNat val (swapdBlock e al (rmwOrd o) p val)
/-- `atomic_compare_exchange`; the orderings passed `assert_compare_exchange_ordering` (src/lib.rs
l.537-557) and are combined by `upgrade_success_ordering` (l.179, l.399) -/
inductive Cas (e : Endian) (c : Conf) :
    Ordering → Ordering → (w a : Nat) → BitVec w → BitVec w → Block 32 w → Prop
  | word (al) {s f w} (p : BitVec 32) (old new : BitVec w) (hw : SubSize w ∨ w = 32)
      (hv : assertCompareExchangeOrdering s f = .ok ()) :
      Cas e c s f w p.toNat old new
        (casFrame e al w (casAsm c al w (rmwOrd (upgradeSuccessOrdering s f))) p old new)
  | dword (al) {s f} (hc : c.mclass = false) (p : BitVec 32) (old new : BitVec 64)
      (hv : assertCompareExchangeOrdering s f = .ok ()) :
      Cas e c s f 64 p.toNat old new
        (casdFrame e al (casdAsm e c al (rmwOrd (upgradeSuccessOrdering s f))) p old new)
/-- `atomic_compare_exchange_weak` (l.225, l.455) -/
inductive CasWeak (e : Endian) (c : Conf) :
    Ordering → Ordering → (w a : Nat) → BitVec w → BitVec w → Block 32 w → Prop
  | word (al) {s f w} (p : BitVec 32) (old new : BitVec w) (hw : SubSize w ∨ w = 32)
      (hv : assertCompareExchangeOrdering s f = .ok ()) :
      CasWeak e c s f w p.toNat old new
        (casFrame e al w (weakAsm c al w (rmwOrd (upgradeSuccessOrdering s f))) p old new)
  | dword (al) {s f} (hc : c.mclass = false) (p : BitVec 32) (old new : BitVec 64)
      (hv : assertCompareExchangeOrdering s f = .ok ()) :
      CasWeak e c s f 64 p.toNat old new
        (casdFrame e al (weakdAsm e c al (rmwOrd (upgradeSuccessOrdering s f))) p old new)

/-- The Armv8 AArch32 back end. -/
def backend (e : Endian) (c : Conf) : Backend 32 where
  e := e
  imp := Pairs.none
  Load := Load e c
  Store := Store e c
  Swap := Swap e c
  Cas := Cas e c
  CasWeak := CasWeak e c

end Verif.Armv8
