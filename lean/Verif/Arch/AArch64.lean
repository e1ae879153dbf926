/-
src/arch/aarch64.rs: AArch64.

Registers are 64 bits. 8- to 64-bit objects: ld*/st*, ldxr/stxr loops or FEAT_LSE swp/cas. 128-bit objects:
ldp/stp (FEAT_LSE2, FEAT_LRCPC3), swpp (FEAT_LSE128), casp (FEAT_LSE), ldxp/stxp loops.

Architecture facts used (Arm ARM): register pairs hold the two doublewords in address order at both
endiannesses; ldp/stp/ldiapp/stilp of an aligned 128-bit object are single-copy atomic with FEAT_LSE2; ldxp
is single-copy atomic only if the paired stxp succeeds (`tear` in `Instr.ll`).
Simplification: pointers are 64 bits (ILP32: `ptr_reg!` zero-extends, see C28).
-/
import Verif.Core.Alloc
import Verif.Contract
import Verif.Core.Ordering
import Verif.Core.Sizes
import Verif.Core.Pair

namespace Verif.AArch64

/-- Build configuration: target features and `target_env = "msvc"`. -/
structure Conf where
  lse : Bool
  lse2 : Bool
  lse128 : Bool
  rcpc : Bool
  rcpc3 : Bool
  msvc : Bool

/-! ### Mnemonics -/

/-- Base-register address `[reg]`. -/
@[asm] def ea (b : Nat) : RS 64 → Nat := fun s => (s.r b).toNat
/-- Annotations of loads: `""`, `"ap"`/`"iap"` (RCpc acquire), `"a"` (RCsc acquire). -/
inductive Acq where
  | no | pc | sc
deriving DecidableEq
/-- annotation of a read -/
def rd : Acq → Acc
  | .no => {}
  | .pc => { aq := true }
  | .sc => { aq := true, sc := true }
/-- annotation of `ld{a,}x*` -/
def rdx (a : Bool) : Acc := { aq := a, sc := a }
/-- annotation of `st{l,}r*`, `st{l,}x*` -/
def wr (l : Bool) : Acc := { rl := l, sc := l }
/-- annotation of `st{il,}p`: stilp is an RCpc release -/
def wrp (l : Bool) : Acc := { rl := l }
/-- annotation of `swp{a,}{l,}`, `cas{a,}{l,}` -/
def rmwAcc (a l : Bool) : Acc := { aq := a, rl := l, sc := a && l }
/-- the `:w`/`:x` operand width of a `w`-bit access (`$val_modifier`, l.316-331) -/
def ow (w : Nat) : Nat := if w = 64 then 64 else 32
/-- low `w`-register view of a register, zero-extended -/
def lo (w : Nat) (x : BitVec 64) : BitVec 64 := (x.setWidth w).setWidth 64

/-- `ld{,ap,a}r{b,h,} t, [s]`: zero-extending load. -/
@[asm] def ldr (w t s : Nat) (a : Acq) : Instr 64 := .ld (rd a) (ea s) w (fun x q => q.set t (x.setWidth 64))
/-- `st{,l}r{b,h,} v, [s]`. -/
@[asm] def str (w v s : Nat) (l : Bool) : Instr 64 := .st (wr l) (ea s) w (fun q => (q.r v).setWidth w)
/-- `ld{,a}xr{b,h,} t, [s]`. -/
@[asm] def ldx (w t s : Nat) (a : Bool) : Instr 64 :=
  .ll (rdx a) false (ea s) w (fun x q => q.set t (x.setWidth 64))
/-- `st{,l}xr{b,h,} t:w, v, [s]`: t = 0 on success, 1 on failure. -/
@[asm] def stx (w t v s : Nat) (l : Bool) : Instr 64 :=
  .sc (wr l) (ea s) w (fun q => (q.r v).setWidth w) (fun b _ q => q.set t (if b then 0#64 else 1#64))
/-- `swp{,a}{,l}{b,h,} v, t, [s]`. -/
@[asm] def swp (w v t s : Nat) (a l : Bool) : Instr 64 :=
  .rmw (rmwAcc a l) (ea s) w (fun q _ => some ((q.r v).setWidth w)) (fun x q => q.set t (x.setWidth 64))
/-- `cas{,a}{,l}{b,h,} t, v, [s]`: if the low bits of t equal memory, store v; t = old memory value. -/
@[asm] def cas (w t v s : Nat) (a l : Bool) : Instr 64 :=
  .rmw (rmwAcc a l) (ea s) w (fun q x => if x = (q.r t).setWidth w then some ((q.r v).setWidth w) else none)
    (fun x q => q.set t (x.setWidth 64))
/-- `mov t, v` with the operand width of a `w`-bit access. -/
@[asm] def mov (w t v : Nat) : Instr 64 := .op fun _ s => s.set t (lo (ow w) (s.r v))
/-- `mov t, v` (64-bit). -/
@[asm] def movx (t v : Nat) : Instr 64 := .op fun _ s => s.set t (s.r v)
/-- `cmp a, b{, uxtb; , uxth; }` with the operand width of a `w`-bit access (`$cmp_ext`, l.316-331). -/
@[asm] def cmp (w a b : Nat) : Instr 64 := .op fun _ s => s.setZ (lo (ow w) (s.r a) == lo w (s.r b))
/-- `cmp a, b` (64-bit). -/
@[asm] def cmpx (a b : Nat) : Instr 64 := .op fun _ s => s.setZ (s.r a == s.r b)
/-- `ccmp a, b, #0, eq`: if Z then compare, else clear Z. -/
@[asm] def ccmpEq (a b : Nat) : Instr 64 := .op fun _ s => s.setZ (s.z && s.r a == s.r b)
/-- `cset t:w, eq`. -/
@[asm] def csetEq (t : Nat) : Instr 64 := .op fun _ s => s.set t (if s.z then 1#64 else 0#64)
/-- `cset t:w, ne`. -/
@[asm] def csetNe (t : Nat) : Instr 64 := .op fun _ s => s.set t (if s.z then 0#64 else 1#64)
/-- `cinc t:w, v:w, ne`. -/
@[asm] def cincNe (t v : Nat) : Instr 64 :=
  .op fun _ s => s.set t (if s.z then lo 32 (s.r v) else ((s.r v).setWidth 32 + 1#32).setWidth 64)
/-- `mov t:w, #1`. -/
@[asm] def mov1 (t : Nat) : Instr 64 := .op fun _ s => s.set t 1#64
/-- `cbnz v:w, target`. -/
@[asm] def cbnz (v t : Nat) : Instr 64 := .br (fun s => !((s.r v).setWidth 32 == 0#32)) t
/-- `cbz v:w, target`. -/
@[asm] def cbz (v t : Nat) : Instr 64 := .br (fun s => (s.r v).setWidth 32 == 0#32) t
/-- `b.ne target`. -/
@[asm] def bne (t : Nat) : Instr 64 := .br (fun s => !s.z) t
/-- `b target`. -/
@[asm] def b (t : Nat) : Instr 64 := .br (fun _ => true) t
/-- `ld{,iap}p ta, tb, [s]` on an aligned 128-bit object with FEAT_LSE2. -/
@[asm] def ldp (e : Endian) (ta tb s : Nat) (a : Acq) : Instr 64 :=
  .ld (rd a) (ea s) 128 (fun x q => (q.set ta (word0 e 64 x)).set tb (word1 e 64 x))
/-- `st{,il}p va, vb, [s]` on an aligned 128-bit object with FEAT_LSE2. -/
@[asm] def stp (e : Endian) (va vb s : Nat) (l : Bool) : Instr 64 :=
  .st (wrp l) (ea s) 128 (fun q => join01 e 128 (q.r va) (q.r vb))
/-- `swpp{,a}{,l} va, vb, [s]` (FEAT_LSE128). -/
@[asm] def swpp (e : Endian) (va vb s : Nat) (a l : Bool) : Instr 64 :=
  .rmw (rmwAcc a l) (ea s) 128 (fun q _ => some (join01 e 128 (q.r va) (q.r vb)))
    (fun x q => (q.set va (word0 e 64 x)).set vb (word1 e 64 x))
/-- `casp{,a}{,l} ta, tb, va, vb, [s]` (FEAT_LSE). -/
@[asm] def casp (e : Endian) (ta tb va vb s : Nat) (a l : Bool) : Instr 64 :=
  .rmw (rmwAcc a l) (ea s) 128
    (fun q x => if x = join01 e 128 (q.r ta) (q.r tb) then some (join01 e 128 (q.r va) (q.r vb)) else none)
    (fun x q => (q.set ta (word0 e 64 x)).set tb (word1 e 64 x))
/-- `ld{,a}xp ta, tb, [s]`. -/
@[asm] def ldxp (e : Endian) (ta tb s : Nat) (a : Bool) : Instr 64 :=
  .ll (rdx a) true (ea s) 128 (fun x q => (q.set ta (word0 e 64 x)).set tb (word1 e 64 x))
/-- `ld{,a}xp xzr, tb, [s]`. -/
@[asm] def ldxpz (e : Endian) (tb s : Nat) (a : Bool) : Instr 64 :=
  .ll (rdx a) true (ea s) 128 (fun x q => q.set tb (word1 e 64 x))
/-- `st{,l}xp t:w, va, vb, [s]`. -/
@[asm] def stxp (e : Endian) (t va vb s : Nat) (l : Bool) : Instr 64 :=
  .sc (wr l) (ea s) 128 (fun q => join01 e 128 (q.r va) (q.r vb))
    (fun b _ q => q.set t (if b then 0#64 else 1#64))

/-- `dmb ish` -/
def dmbIsh : Pairs := Pairs.full
/-- `dmb ishld` -/
def dmbIshld : Pairs := ⟨true, true, false, false, false⟩
/-- what `ldar` executed at this point keeps in order: RCsc releases before it, reads after it -/
def ldarPairs : Pairs := ⟨false, false, false, false, true⟩
/-- `""` -/
def noFence : Pairs := Pairs.none

/-! ### Ordering tables (`none` = `unreachable!()`) -/

/-- Arguments of the macros called through `atomic_rmw!`: `true` = `"a"` resp. `"l"`. -/
structure RO where
  acq : Bool
  rel : Bool
  fence : Pairs
deriving DecidableEq
/-- l.43-62 `atomic_rmw!`. -/
def rmwOrd (c : Conf) (order write : Ordering) : RO :=
  match order with
  | .relaxed => ⟨false, false, noFence⟩
  | .acquire => ⟨true, false, noFence⟩
  | .release => ⟨false, true, noFence⟩
  | .acqRel => ⟨true, true, noFence⟩
  | .seqCst => if c.msvc = true ∧ write = .seqCst then ⟨true, true, dmbIsh⟩ else ⟨true, true, noFence⟩
/-- l.88-97. -/
def loadOrd (c : Conf) : Ordering → Option Acq
  | .relaxed => some .no
  | .acquire => some (if c.rcpc then .pc else .sc)
  | .seqCst => some .sc
  | _ => none
/-- l.124-135. -/
def storeOrd (c : Conf) : Ordering → Option (Bool × Pairs)
  | .relaxed => some (false, noFence)
  | .release => some (true, noFence)
  | .seqCst => some (true, if c.msvc then dmbIsh else noFence)
  | _ => none

/-- The 128-bit load sequences: `ld{,iap}p` + fence; `ldar` + `ld{,iap}p` + fence; `casp`; `ldxp`/`stxp`
with (acquire, release). -/
inductive LdProg where
  | ldp (a : Acq) (f : Pairs)
  | ldar (a : Acq) (f : Pairs)
  | casp (a l : Bool)
  | ldxp (a l : Bool)
/-- l.391-431 (LSE2), l.437-472. -/
def load128 (c : Conf) (o : Ordering) : Option LdProg :=
  if c.lse2 then
    match o with
    | .relaxed => some (.ldp .no noFence)
    | .acquire => some (if c.rcpc3 then .ldp .pc noFence else .ldp .no dmbIshld)
    | .seqCst => some (if c.rcpc3 then .ldar .pc noFence else .ldar .no dmbIshld)
    | _ => none
  else
    let k := if c.lse then LdProg.casp else LdProg.ldxp
    match o with
    | .relaxed => some (k false false)
    | .acquire => some (k true false)
    | .seqCst => some (k true true)
    | _ => none

/-- The 128-bit store sequences: `st{,il}p` between two fences; `swpp`; `ldxp`/`stxp`. -/
inductive StProg where
  | stp (il : Bool) (acq rel : Pairs)
  | swpp (o : RO)
  | stxp (o : RO)
/-- l.524-555 (LSE2), l.576. -/
def store128 (c : Conf) (o : Ordering) : Option StProg :=
  if c.lse2 then
    match o with
    | .relaxed => some (.stp false noFence noFence)
    | .release => some (if c.rcpc3 then .stp true noFence noFence
        else if c.lse128 then .swpp (rmwOrd c o o) else .stp false noFence dmbIsh)
    | .seqCst => some (if c.lse128 then .swpp (rmwOrd c o o)
        else if c.rcpc3 then .stp true dmbIsh noFence else .stp false dmbIsh dmbIsh)
    | _ => none
  else some (.stxp (rmwOrd c o o))

/-! ### asm! blocks for 8 to 64 bits -/

/-- operands of l.82-83 -/
@[asm] def loadKind : Op → Kind
  | .src => .inp | .out => .lateout | _ => .unused
/-- l.80-85 `atomic_load!`. -/
@[asm] def loadAsm (al : Op → Nat) (w : Nat) (o : Acq) : List (Instr 64) := [ ldr w (al .out) (al .src) o ]
/-- operands of l.118-119 -/
@[asm] def storeKind : Op → Kind
  | .dst => .inp | .val => .inp | _ => .unused
/-- l.115-121 `atomic_store!`. -/
@[asm] def storeAsm (al : Op → Nat) (w : Nat) (o : Bool × Pairs) : List (Instr 64) :=
  [ str w (al .val) (al .dst) o.1, .fence o.2 ]
/-- operands of l.161-163 -/
@[asm] def swpKind : Op → Kind
  | .dst => .inp | .val => .inp | .out => .lateout | _ => .unused
/-- l.158-165 `swap!` (LSE). -/
@[asm] def swpAsm (al : Op → Nat) (w : Nat) (o : RO) : List (Instr 64) :=
  [ swp w (al .val) (al .out) (al .dst) o.acq o.rel, .fence o.fence ]
/-- operands of l.177-180 -/
@[asm] def swapKind : Op → Kind
  | .dst => .inp | .val => .inp | .out => .out | .r => .out | _ => .unused
/-- l.171-182 `swap!`. -/
@[asm] def swapAsm (al : Op → Nat) (w : Nat) (o : RO) : List (Instr 64) := [
    /- 2: -/ ldx w (al .out) (al .dst) o.acq,
    stx w (al .r) (al .val) (al .dst) o.rel,
    cbnz (al .r) 0,
    .fence o.fence ]
/-- operands of l.221-225 -/
@[asm] def casLseKind : Op → Kind
  | .dst => .inp | .old => .inp | .new => .inp | .out => .out | .r => .lateout | _ => .unused
/-- l.213-228 `cmpxchg!` (LSE). -/
@[asm] def casLseAsm (al : Op → Nat) (w : Nat) (o : RO) : List (Instr 64) := [
    mov w (al .out) (al .old),
    cas w (al .out) (al .new) (al .dst) o.acq o.rel,
    .fence o.fence,
    cmp w (al .out) (al .old),
    csetEq (al .r) ]
/-- operands of l.249-253 -/
@[asm] def casKind : Op → Kind
  | .dst => .inp | .old => .inp | .new => .inp | .out => .out | .r => .out | _ => .unused
/-- l.236-256 `cmpxchg!`. -/
@[asm] def casAsm (al : Op → Nat) (w : Nat) (o : RO) : List (Instr 64) := [
    /- 2: -/ ldx w (al .out) (al .dst) o.acq,
    cmp w (al .out) (al .old),
    bne 7,
    stx w (al .r) (al .new) (al .dst) o.rel,
    cbnz (al .r) 0,
    .fence o.fence,
    b 9,
    /- 3: -/ mov1 (al .r),
    .clrex ]
/-- operands of l.296-300 -/
@[asm] def weakKind : Op → Kind
  | .dst => .inout | .old => .inp | .new => .inp | .out => .out | .r => .out | _ => .unused
/-- l.283-303 `cmpxchg_weak!`. -/
@[asm] def weakAsm (al : Op → Nat) (w : Nat) (o : RO) : List (Instr 64) := [
    ldx w (al .out) (al .dst) o.acq,
    cmp w (al .out) (al .old),
    bne 6,
    stx w (al .r) (al .new) (al .dst) o.rel,
    .fence o.fence,
    b 8,
    /- 3: -/ mov1 (al .r),
    .clrex ]

/-! ### asm! blocks for 128 bits -/

/-- operands of l.384-386 -/
@[asm] def ldpKind : Op → Kind
  | .src => .inp | .prev_lo => .lateout | .prev_hi => .lateout | _ => .unused
/-- l.381-388 `atomic_load_relaxed!`. -/
@[asm] def ldpAsm (e : Endian) (al : Op → Nat) (a : Acq) (f : Pairs) : List (Instr 64) :=
  [ ldp e (al .prev_lo) (al .prev_hi) (al .src) a, .fence f ]
/-- operands of l.403-406, l.423-426 -/
@[asm] def ldarKind : Op → Kind
  | .src => .inp | .prev_lo => .lateout | .prev_hi => .lateout | .tmp => .out | _ => .unused
/-- l.398-408, l.417-428. The second entry is the effect of `ldar` on the order of other accesses. -/
@[asm] def ldarAsm (e : Endian) (al : Op → Nat) (a : Acq) (f : Pairs) : List (Instr 64) :=
  [ ldr 64 (al .tmp) (al .src) .sc, .fence ldarPairs, ldp e (al .prev_lo) (al .prev_hi) (al .src) a, .fence f ]
/-- operands of l.443-446 -/
@[asm] def ldcaspKind : Op → Kind
  | .src => .inp | .prev_lo => .inout | .prev_hi => .inout | _ => .unused
/-- l.440-448 `atomic_load!` (LSE). -/
@[asm] def ldcaspAsm (e : Endian) (al : Op → Nat) (a l : Bool) : List (Instr 64) :=
  [ casp e (al .prev_lo) (al .prev_hi) (al .prev_lo) (al .prev_hi) (al .src) a l ]
/-- operands of l.459-462 -/
@[asm] def ldxpKind : Op → Kind
  | .src => .inp | .prev_lo => .out | .prev_hi => .out | .r => .out | _ => .unused
/-- l.454-464 `atomic_load!`. -/
@[asm] def ldxpAsm (e : Endian) (al : Op → Nat) (o : Bool × Bool) : List (Instr 64) := [
    /- 2: -/ ldxp e (al .prev_lo) (al .prev_hi) (al .src) o.1,
    stxp e (al .r) (al .prev_lo) (al .prev_hi) (al .src) o.2,
    cbnz (al .r) 0 ]
/-- operands of l.502-504 -/
@[asm] def stpKind : Op → Kind
  | .dst => .inp | .val_lo => .inp | .val_hi => .inp | _ => .unused
/-- l.498-506 `atomic_store!`. -/
@[asm] def stpAsm (e : Endian) (al : Op → Nat) (il : Bool) (acq rel : Pairs) : List (Instr 64) :=
  [ .fence rel, stp e (al .val_lo) (al .val_hi) (al .dst) il, .fence acq ]
/-- operands of l.517-519, l.599-601 -/
@[asm] def swppKind : Op → Kind
  | .dst => .inp | .val_lo => .inout | .val_hi => .inout | _ => .unused
/-- l.514-521 `atomic_store_swpp!`, l.596-603 `swap!` (LSE128). -/
@[asm] def swppAsm (e : Endian) (al : Op → Nat) (o : RO) : List (Instr 64) :=
  [ swpp e (al .val_lo) (al .val_hi) (al .dst) o.acq o.rel, .fence o.fence ]
/-- operands of l.568-571 -/
@[asm] def stxpKind : Op → Kind
  | .dst => .inp | .val_lo => .inp | .val_hi => .inp | .tmp => .out | _ => .unused
/-- l.562-573 `store!`. -/
@[asm] def stxpAsm (e : Endian) (al : Op → Nat) (o : RO) : List (Instr 64) := [
    /- 2: -/ ldxpz e (al .tmp) (al .dst) o.acq,
    stxp e (al .tmp) (al .val_lo) (al .val_hi) (al .dst) o.rel,
    cbnz (al .tmp) 0,
    .fence o.fence ]
/-- operands of l.615-620 -/
@[asm] def swapxKind : Op → Kind
  | .dst => .inp | .val_lo => .inp | .val_hi => .inp | .prev_lo => .out | .prev_hi => .out | .r => .out
  | _ => .unused
/-- l.609-622 `swap!`. -/
@[asm] def swapxAsm (e : Endian) (al : Op → Nat) (o : RO) : List (Instr 64) := [
    /- 2: -/ ldxp e (al .prev_lo) (al .prev_hi) (al .dst) o.acq,
    stxp e (al .r) (al .val_lo) (al .val_hi) (al .dst) o.rel,
    cbnz (al .r) 0,
    .fence o.fence ]
/-- operands of l.662-671 (x4/x5 = new, x8/x9 = prev) -/
@[asm] def caspKind : Op → Kind
  | .dst => .inp | .old_lo => .inp | .old_hi => .inp | .r => .lateout | .new_lo => .inp | .new_hi => .inp
  | .prev_lo => .out | .prev_hi => .out | _ => .unused
/-- l.652-674 `cmpxchg!` (LSE). -/
@[asm] def caspAsm (e : Endian) (al : Op → Nat) (o : RO) : List (Instr 64) := [
    movx (al .prev_lo) (al .old_lo),
    movx (al .prev_hi) (al .old_hi),
    casp e (al .prev_lo) (al .prev_hi) (al .new_lo) (al .new_hi) (al .dst) o.acq o.rel,
    .fence o.fence,
    cmpx (al .prev_lo) (al .old_lo),
    ccmpEq (al .prev_hi) (al .old_hi),
    csetEq (al .r) ]
/-- operands of l.705-712 -/
@[asm] def casxKind : Op → Kind
  | .dst => .inp | .old_lo => .inp | .old_hi => .inp | .new_lo => .inp | .new_hi => .inp
  | .prev_lo => .out | .prev_hi => .out | .r => .out | _ => .unused
/-- l.687-715 `cmpxchg!`. -/
@[asm] def casxAsm (e : Endian) (al : Op → Nat) (o : RO) : List (Instr 64) := [
    /- 2: -/ ldxp e (al .prev_lo) (al .prev_hi) (al .dst) o.acq,
    cmpx (al .prev_lo) (al .old_lo),
    csetNe (al .r),
    cmpx (al .prev_hi) (al .old_hi),
    cincNe (al .r) (al .r),
    cbz (al .r) 10,
    stxp e (al .r) (al .prev_lo) (al .prev_hi) (al .dst) o.rel,
    cbnz (al .r) 0,
    mov1 (al .r),
    b 12,
    /- 3: -/ stxp e (al .r) (al .new_lo) (al .new_hi) (al .dst) o.rel,
    cbnz (al .r) 0,
    /- 4: -/ .fence o.fence ]

/-! ### Blocks and back end -/

/-- l.67-101 -/
@[asm] def loadBlock (al : Alloc loadKind) (w : Nat) (o : Acq) (p : BitVec 64) : Block 64 w where
  code := loadAsm al w o
  args := [⟨al .src, 64, p⟩]
  outs := al.Outs
  out rs := (rs.r (al .out)).setWidth w
/-- l.102-138 -/
@[asm] def storeBlock (al : Alloc storeKind) (w : Nat) (o : Bool × Pairs) (p : BitVec 64) (val : BitVec w) :
    Block 64 w where
  code := storeAsm al w o
  args := [⟨al .dst, 64, p⟩, ⟨al .val, w, val⟩]
  outs := al.Outs
/-- l.139-189 (LSE) -/
@[asm] def swpBlock (al : Alloc swpKind) (w : Nat) (o : RO) (p : BitVec 64) (val : BitVec w) :
    Block 64 w where
  code := swpAsm al w o
  args := [⟨al .dst, 64, p⟩, ⟨al .val, w, val⟩]
  outs := al.Outs
  out rs := (rs.r (al .out)).setWidth w
/-- l.139-189 -/
@[asm] def swapBlock (al : Alloc swapKind) (w : Nat) (o : RO) (p : BitVec 64) (val : BitVec w) :
    Block 64 w where
  code := swapAsm al w o
  args := [⟨al .dst, 64, p⟩, ⟨al .val, w, val⟩]
  outs := al.Outs
  out rs := (rs.r (al .out)).setWidth w
/-- l.213-230 -/
@[asm] def casLseBlock (al : Alloc casLseKind) (w : Nat) (o : RO) (p : BitVec 64) (old new : BitVec w) :
    Block 64 w where
  code := casLseAsm al w o
  args := [⟨al .dst, 64, p⟩, ⟨al .old, w, old⟩, ⟨al .new, w, new⟩]
  outs := al.Outs
  keepsFlags := false
  out rs := (rs.r (al .out)).setWidth w
  ok rs := !((rs.r (al .r)).setWidth 32 == 0#32)
  assumes rs := (rs.r (al .r)).setWidth 32 = 0#32 ∨ (rs.r (al .r)).setWidth 32 = 1#32
/-- l.236-259 -/
@[asm] def casBlock (al : Alloc casKind) (w : Nat) (o : RO) (p : BitVec 64) (old new : BitVec w) :
    Block 64 w where
  code := casAsm al w o
  args := [⟨al .dst, 64, p⟩, ⟨al .old, w, old⟩, ⟨al .new, w, new⟩]
  outs := al.Outs
  keepsFlags := false
  out rs := (rs.r (al .out)).setWidth w
  ok rs := (rs.r (al .r)).setWidth 32 == 0#32
  assumes rs := (rs.r (al .r)).setWidth 32 = 0#32 ∨ (rs.r (al .r)).setWidth 32 = 1#32
/-- l.265-311 -/
@[asm] def weakBlock (al : Alloc weakKind) (w : Nat) (o : RO) (p : BitVec 64) (old new : BitVec w) :
    Block 64 w where
  code := weakAsm al w o
  args := [⟨al .dst, 64, p⟩, ⟨al .old, w, old⟩, ⟨al .new, w, new⟩]
  outs := al.Outs
  keepsFlags := false
  out rs := (rs.r (al .out)).setWidth w
  ok rs := (rs.r (al .r)).setWidth 32 == 0#32
  assumes rs := (rs.r (al .r)).setWidth 32 = 0#32 ∨ (rs.r (al .r)).setWidth 32 = 1#32

/-- l.370-433 -/
@[asm] def ldpBlock (e : Endian) (al : Alloc ldpKind) (a : Acq) (f : Pairs) (p : BitVec 64) : Block 64 128 where
  code := ldpAsm e al a f
  args := [⟨al .src, 64, p⟩]
  outs := al.Outs
  out rs := ofPair true e 128 (rs.r (al .prev_lo)) (rs.r (al .prev_hi))
/-- l.370-433 -/
@[asm] def ldarBlock (e : Endian) (al : Alloc ldarKind) (a : Acq) (f : Pairs) (p : BitVec 64) :
    Block 64 128 where
  code := ldarAsm e al a f
  args := [⟨al .src, 64, p⟩]
  outs := al.Outs
  out rs := ofPair true e 128 (rs.r (al .prev_lo)) (rs.r (al .prev_hi))
/-- l.434-474 (LSE) -/
@[asm] def ldcaspBlock (e : Endian) (al : Alloc ldcaspKind) (a l : Bool) (p : BitVec 64) : Block 64 128 where
  code := ldcaspAsm e al a l
  args := [⟨al .src, 64, p⟩, ⟨al .prev_lo, 64, 0#64⟩, ⟨al .prev_hi, 64, 0#64⟩]
  outs := al.Outs
  out rs := ofPair true e 128 (rs.r (al .prev_lo)) (rs.r (al .prev_hi))
/-- l.434-474 -/
@[asm] def ldxpBlock (e : Endian) (al : Alloc ldxpKind) (a l : Bool) (p : BitVec 64) : Block 64 128 where
  code := ldxpAsm e al (a, l)
  args := [⟨al .src, 64, p⟩]
  outs := al.Outs
  out rs := ofPair true e 128 (rs.r (al .prev_lo)) (rs.r (al .prev_hi))
/-- l.487-556 -/
@[asm] def stpBlock (e : Endian) (al : Alloc stpKind) (il : Bool) (acq rel : Pairs) (p : BitVec 64)
    (val : BitVec 128) : Block 64 128 where
  code := stpAsm e al il acq rel
  args := [⟨al .dst, 64, p⟩, ⟨al .val_lo, 64, (pairOf true e 64 val).1⟩,
    ⟨al .val_hi, 64, (pairOf true e 64 val).2⟩]
  outs := al.Outs
/-- l.512-523, and l.593-627 for `swap` -/
@[asm] def swppBlock (e : Endian) (al : Alloc swppKind) (o : RO) (p : BitVec 64)
    (val : BitVec 128) : Block 64 128 where
  code := swppAsm e al o
  args := [⟨al .dst, 64, p⟩, ⟨al .val_lo, 64, (pairOf true e 64 val).1⟩,
    ⟨al .val_hi, 64, (pairOf true e 64 val).2⟩]
  outs := al.Outs
  out rs := ofPair true e 128 (rs.r (al .val_lo)) (rs.r (al .val_hi))
/-- l.557-577 -/
@[asm] def stxpBlock (e : Endian) (al : Alloc stxpKind) (o : RO) (p : BitVec 64)
    (val : BitVec 128) : Block 64 128 where
  code := stxpAsm e al o
  args := [⟨al .dst, 64, p⟩, ⟨al .val_lo, 64, (pairOf true e 64 val).1⟩,
    ⟨al .val_hi, 64, (pairOf true e 64 val).2⟩]
  outs := al.Outs
/-- l.606-627 -/
@[asm] def swapxBlock (e : Endian) (al : Alloc swapxKind) (o : RO) (p : BitVec 64)
    (val : BitVec 128) : Block 64 128 where
  code := swapxAsm e al o
  args := [⟨al .dst, 64, p⟩, ⟨al .val_lo, 64, (pairOf true e 64 val).1⟩,
    ⟨al .val_hi, 64, (pairOf true e 64 val).2⟩]
  outs := al.Outs
  out rs := ofPair true e 128 (rs.r (al .prev_lo)) (rs.r (al .prev_hi))
/-- l.648-683 -/
@[asm] def caspBlock (e : Endian) (al : Alloc caspKind) (o : RO) (p : BitVec 64) (old new : BitVec 128) :
    Block 64 128 where
  code := caspAsm e al o
  args := [⟨al .dst, 64, p⟩, ⟨al .old_lo, 64, (pairOf true e 64 old).1⟩,
    ⟨al .old_hi, 64, (pairOf true e 64 old).2⟩, ⟨al .new_lo, 64, (pairOf true e 64 new).1⟩,
    ⟨al .new_hi, 64, (pairOf true e 64 new).2⟩]
  outs := al.Outs
  keepsFlags := false
  out rs := ofPair true e 128 (rs.r (al .prev_lo)) (rs.r (al .prev_hi))
  ok rs := !((rs.r (al .r)).setWidth 32 == 0#32)
  assumes rs := (rs.r (al .r)).setWidth 32 = 0#32 ∨ (rs.r (al .r)).setWidth 32 = 1#32
/-- l.684-725 -/
@[asm] def casxBlock (e : Endian) (al : Alloc casxKind) (o : RO) (p : BitVec 64) (old new : BitVec 128) :
    Block 64 128 where
  code := casxAsm e al o
  args := [⟨al .dst, 64, p⟩, ⟨al .old_lo, 64, (pairOf true e 64 old).1⟩,
    ⟨al .old_hi, 64, (pairOf true e 64 old).2⟩, ⟨al .new_lo, 64, (pairOf true e 64 new).1⟩,
    ⟨al .new_hi, 64, (pairOf true e 64 new).2⟩]
  outs := al.Outs
  keepsFlags := false
  out rs := ofPair true e 128 (rs.r (al .prev_lo)) (rs.r (al .prev_hi))
  ok rs := (rs.r (al .r)).setWidth 32 == 0#32
  assumes rs := (rs.r (al .r)).setWidth 32 = 0#32 ∨ (rs.r (al .r)).setWidth 32 = 1#32

/-- `atomic!` sizes (l.316-331) -/
def WSize (w : Nat) : Prop := SubSize w ∨ w = 32 ∨ w = 64

/-- `atomic_load` -/
inductive Load (e : Endian) (c : Conf) : Ordering → (w a : Nat) → Block 64 w → Prop
  | word (al) {o f w} (p : BitVec 64) (hw : WSize w) (hf : loadOrd c o = some f) :
      Load e c o w p.toNat (loadBlock al w f p)
  | ldp (al) {o a f} (p : BitVec 64) (hf : load128 c o = some (.ldp a f)) :
      Load e c o 128 p.toNat (ldpBlock e al a f p)
  | ldar (al) {o a f} (p : BitVec 64) (hf : load128 c o = some (.ldar a f)) :
      Load e c o 128 p.toNat (ldarBlock e al a f p)
  | casp (al) {o a l} (p : BitVec 64) (hf : load128 c o = some (.casp a l)) :
      Load e c o 128 p.toNat (ldcaspBlock e al a l p)
  | ldxp (al) {o a l} (p : BitVec 64) (hf : load128 c o = some (.ldxp a l)) :
      Load e c o 128 p.toNat (ldxpBlock e al a l p)
/-- `atomic_store`; the ordering passed `assert_store_ordering` (src/lib.rs l.330-339). -/
inductive Store (e : Endian) (c : Conf) : Ordering → (w a : Nat) → BitVec w → Block 64 w → Prop
  | word (al) {o f w} (p : BitVec 64) (val : BitVec w) (hw : WSize w)
      (hf : storeOrd c o = some f) : Store e c o w p.toNat val (storeBlock al w f p val)
  | stp (al) {o il acq rel} (p : BitVec 64) (val : BitVec 128) (hv : assertStoreOrdering o = .ok ())
      (hf : store128 c o = some (.stp il acq rel)) :
      Store e c o 128 p.toNat val (stpBlock e al il acq rel p val)
  | swpp (al) {o r} (p : BitVec 64) (val : BitVec 128) (hv : assertStoreOrdering o = .ok ())
      (hf : store128 c o = some (.swpp r)) :
      Store e c o 128 p.toNat val (swppBlock e al r p val)
  | stxp (al) {o r} (p : BitVec 64) (val : BitVec 128) (hv : assertStoreOrdering o = .ok ())
      (hf : store128 c o = some (.stxp r)) :
      Store e c o 128 p.toNat val (stxpBlock e al r p val)
/-- `atomic_swap` -/
inductive Swap (e : Endian) (c : Conf) : Ordering → (w a : Nat) → BitVec w → Block 64 w → Prop
  | swp (al o) {w} (hc : c.lse = true) (p : BitVec 64) (val : BitVec w) (hw : WSize w) :
      Swap e c o w p.toNat val (swpBlock al w (rmwOrd c o o) p val)
  | word (al o) {w} (hc : c.lse = false) (p : BitVec 64) (val : BitVec w) (hw : WSize w) :
      Swap e c o w p.toNat val (swapBlock al w (rmwOrd c o o) p val)
  | swpp (al o) (hc : c.lse128 = true) (p : BitVec 64) (val : BitVec 128) :
      Swap e c o 128 p.toNat val (swppBlock e al (rmwOrd c o o) p val)
  | ldxp (al o) (hc : c.lse128 = false) (p : BitVec 64) (val : BitVec 128) :
      Swap e c o 128 p.toNat val (swapxBlock e al (rmwOrd c o o) p val)
/-- `atomic_compare_exchange`; the orderings passed `assert_compare_exchange_ordering` (src/lib.rs
l.537-557) and are combined by `upgrade_success_ordering` (l.200, l.640); `write = success` (l.262, l.726) -/
inductive Cas (e : Endian) (c : Conf) :
    Ordering → Ordering → (w a : Nat) → BitVec w → BitVec w → Block 64 w → Prop
  | lse (al) {s f w} (hc : c.lse = true) (p : BitVec 64) (old new : BitVec w) (hw : WSize w)
      (hv : assertCompareExchangeOrdering s f = .ok ()) :
      Cas e c s f w p.toNat old new (casLseBlock al w (rmwOrd c (upgradeSuccessOrdering s f) s) p old new)
  | word (al) {s f w} (hc : c.lse = false) (p : BitVec 64) (old new : BitVec w) (hw : WSize w)
      (hv : assertCompareExchangeOrdering s f = .ok ()) :
      Cas e c s f w p.toNat old new (casBlock al w (rmwOrd c (upgradeSuccessOrdering s f) s) p old new)
  | casp (al) {s f} (hc : c.lse = true) (p : BitVec 64) (old new : BitVec 128)
      (hv : assertCompareExchangeOrdering s f = .ok ()) :
      Cas e c s f 128 p.toNat old new (caspBlock e al (rmwOrd c (upgradeSuccessOrdering s f) s) p old new)
  | ldxp (al) {s f} (hc : c.lse = false) (p : BitVec 64) (old new : BitVec 128)
      (hv : assertCompareExchangeOrdering s f = .ok ()) :
      Cas e c s f 128 p.toNat old new (casxBlock e al (rmwOrd c (upgradeSuccessOrdering s f) s) p old new)
/-- `atomic_compare_exchange_weak` (l.265-311; otherwise the default of src/raw.rs, which calls the strong
one) -/
inductive CasWeak (e : Endian) (c : Conf) :
    Ordering → Ordering → (w a : Nat) → BitVec w → BitVec w → Block 64 w → Prop
  | word (al) {s f w} (hc : c.lse = false) (p : BitVec 64) (old new : BitVec w) (hw : WSize w)
      (hv : assertCompareExchangeOrdering s f = .ok ()) :
      CasWeak e c s f w p.toNat old new (weakBlock al w (rmwOrd c (upgradeSuccessOrdering s f) s) p old new)
  | strong {s f w a old new B} (hc : c.lse = true ∨ w = 128) (h : Cas e c s f w a old new B) :
      CasWeak e c s f w a old new B

/-- The AArch64 back end. -/
def backend (e : Endian) (c : Conf) : Backend 64 where
  e := e
  imp := Pairs.none
  Load := Load e c
  Store := Store e c
  Swap := Swap e c
  Cas := Cas e c
  CasWeak := CasWeak e c

end Verif.AArch64
