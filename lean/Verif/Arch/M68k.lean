/-
src/arch/m68k.rs: M68k (big endian, 32-bit registers). swap and compare_exchange need `isa-68020`.

The back end ignores the ordering arguments and emits no barrier: it relies on the processor keeping all
memory accesses in program order (`imp := full` below, an assumption about the hardware).
`move.b`, `move.w`, `cas.b`, `cas.w` and `seq` change only the low bits of a data register.
-/
import Verif.Core.Alloc
import Verif.Contract
import Verif.Core.Ordering
import Verif.Core.Sizes

namespace Verif.M68k

/-- Build configuration: is `isa-68020` available? (l.69, l.95) -/
structure Conf where
  isa68020 : Bool

/-! ### Mnemonics -/

/-- Base-register address `(reg)`. -/
@[asm] def ea (b : Nat) : RS 32 → Nat := fun s => (s.r b).toNat
/-- A register after its low `w` bits have been replaced. -/
def mergeLow {w : Nat} (x : BitVec w) (r : BitVec 32) : BitVec 32 :=
  ((r >>> w) <<< w) ||| x.setWidth 32
/-- `move.{b,w,l} (rs), rd`. Also sets Z. -/
@[asm] def move_ld (w rs rd : Nat) : Instr 32 :=
  .ld .plain (ea rs) w (fun x q => (q.set rd (mergeLow x (q.r rd))).setZ (x == 0#w))
/-- `move.{b,w,l} rv, (rd)`: the store; the flags are set by `move_st_flags`. -/
@[asm] def move_st (w rv rd : Nat) : Instr 32 := .st .plain (ea rd) w (fun q => (q.r rv).setWidth w)
/-- The flags set by `move.{b,w,l} rv, (rd)`. -/
@[asm] def move_st_flags (w rv : Nat) : Instr 32 := .op fun _ q => q.setZ ((q.r rv).setWidth w == 0#w)
/-- `cas.{b,w,l} dc, du, (rd)`: Z = (*rd == dc); if Z { *rd = du } else { dc = *rd }. -/
@[asm] def cas (w dc du rd : Nat) : Instr 32 :=
  .rmw .plain (ea rd) w (fun q x => if x = (q.r dc).setWidth w then some ((q.r du).setWidth w) else none)
    (fun x q => (q.setIf (x != (q.r dc).setWidth w) dc (mergeLow x (q.r dc))).setZ (x == (q.r dc).setWidth w))
/-- `bne target`. -/
@[asm] def bne (t : Nat) : Instr 32 := .br (fun s => !s.z) t
/-- `seq rd`: low byte of rd = Z ? 0xFF : 0x00. -/
@[asm] def seq (rd : Nat) : Instr 32 :=
  .op fun _ q => q.set rd (mergeLow (if q.z then 0xff#8 else 0#8) (q.r rd))

/-! ### asm! blocks -/

/-- operands of l.42-43 -/
@[asm] def loadKind : Op → Kind
  | .src => .inp | .out => .out | _ => .unused
/-- l.40-46 `atomic_load`. -/
@[asm] def loadAsm (al : Op → Nat) (w : Nat) : List (Instr 32) := [ move_ld w (al .src) (al .out) ]
/-- operands of l.62-63 -/
@[asm] def storeKind : Op → Kind
  | .dst => .inp | .val => .inp | _ => .unused
/-- l.60-66 `atomic_store`. -/
@[asm] def storeAsm (al : Op → Nat) (w : Nat) : List (Instr 32) :=
  [ move_st w (al .val) (al .dst), move_st_flags w (al .val) ]
/-- operands of l.86-88 -/
@[asm] def swapKind : Op → Kind
  | .dst => .inp | .val => .inp | .out => .out | _ => .unused
/-- l.80-90 `atomic_swap`. -/
@[asm] def swapAsm (al : Op → Nat) (w : Nat) : List (Instr 32) := [
    move_ld w (al .dst) (al .out),
    /- 2: -/ cas w (al .out) (al .val) (al .dst),
    bne 1 ]
/-- operands of l.113-116 (`out = inout(reg_data) old => out`) -/
@[asm] def casKind : Op → Kind
  | .dst => .inp | .new => .inp | .out => .inout | .r => .lateout | _ => .unused
/-- l.110-119 `atomic_compare_exchange`. -/
@[asm] def casAsm (al : Op → Nat) (w : Nat) : List (Instr 32) :=
  [ cas w (al .out) (al .new) (al .dst), seq (al .r) ]

/-! ### Blocks and back end -/

/-- l.30-49 -/
@[asm] def loadBlock (al : Alloc loadKind) (w : Nat) (p : BitVec 32) : Block 32 w where
  code := loadAsm al w
  args := [⟨al .src, 32, p⟩]
  outs := al.Outs
  keepsFlags := false
  out rs := (rs.r (al .out)).setWidth w
/-- l.51-68 -/
@[asm] def storeBlock (al : Alloc storeKind) (w : Nat) (p : BitVec 32) (val : BitVec w) : Block 32 w where
  code := storeAsm al w
  args := [⟨al .dst, 32, p⟩, ⟨al .val, w, val⟩]
  outs := al.Outs
  keepsFlags := false
/-- l.70-94 -/
@[asm] def swapBlock (al : Alloc swapKind) (w : Nat) (p : BitVec 32) (val : BitVec w) : Block 32 w where
  code := swapAsm al w
  args := [⟨al .dst, 32, p⟩, ⟨al .val, w, val⟩]
  outs := al.Outs
  keepsFlags := false
  out rs := (rs.r (al .out)).setWidth w
/-- l.96-124 (l.109: `let r: u8`) -/
@[asm] def casBlock (al : Alloc casKind) (w : Nat) (p : BitVec 32) (old new : BitVec w) : Block 32 w where
  code := casAsm al w
  args := [⟨al .dst, 32, p⟩, ⟨al .new, w, new⟩, ⟨al .out, w, old⟩]
  outs := al.Outs
  keepsFlags := false
  out rs := (rs.r (al .out)).setWidth w
  ok rs := (rs.r (al .r)).setWidth 8 != 0#8
  assumes rs := (rs.r (al .r)).setWidth 8 = 0#8 ∨ (rs.r (al .r)).setWidth 8 = 1#8

/-- Object sizes (l.128-135). -/
def Size (w : Nat) : Prop := SubSize w ∨ w = 32

/-- `atomic_load`; every ordering that passed `assert_load_ordering` (src/lib.rs l.295-309) -/
inductive Load : Ordering → (w a : Nat) → Block 32 w → Prop
  | mk (al) {o w} (p : BitVec 32) (hw : Size w) (hv : assertLoadOrdering o = .ok ()) :
      Load o w p.toNat (loadBlock al w p)
/-- `atomic_store`; every ordering that passed `assert_store_ordering` (src/lib.rs l.330-340) -/
inductive Store : Ordering → (w a : Nat) → BitVec w → Block 32 w → Prop
  | mk (al) {o w} (p : BitVec 32) (val : BitVec w) (hw : Size w)
      (hv : assertStoreOrdering o = .ok ()) : Store o w p.toNat val (storeBlock al w p val)
/-- `atomic_swap` -/
inductive Swap (c : Conf) : Ordering → (w a : Nat) → BitVec w → Block 32 w → Prop
  | mk (al o) {w} (p : BitVec 32) (val : BitVec w) (hw : Size w) (hc : c.isa68020 = true) :
      Swap c o w p.toNat val (swapBlock al w p val)
/-- `atomic_compare_exchange`, called with orderings that passed `assert_compare_exchange_ordering`
(src/lib.rs l.536-557); the weak form defaults to it (src/raw.rs) -/
inductive Cas (c : Conf) : Ordering → Ordering → (w a : Nat) → BitVec w → BitVec w → Block 32 w → Prop
  | mk (al s f) {w} (p : BitVec 32) (old new : BitVec w) (hw : Size w)
      (hv : assertCompareExchangeOrdering s f = .ok ()) (hc : c.isa68020 = true) :
      Cas c s f w p.toNat old new (casBlock al w p old new)

/-- The M68k back end. `imp`: the processor is assumed to keep all accesses in program order. -/
def backend (c : Conf) : Backend 32 where
  e := .big
  imp := Pairs.full
  Load := Load
  Store := Store
  Swap := Swap c
  Cas := Cas c
  CasWeak := Cas c

end Verif.M68k
