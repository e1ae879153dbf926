/-
The assembly machine.

One machine serves all architectures: an architecture file (Verif/Arch/*.lean) defines its mnemonics
as `Instr` values and its `asm!` blocks as lists of mnemonics.  What the machine fixes is how
instructions touch shared memory and how they interleave with everybody else.

* `Run` interleaves the thread's instructions with arbitrary environment steps: the environment
  (other threads, interrupt handlers, DMA, ...) may replace memory by any other memory at any moment.
* a load-linked sets a reservation on the bytes it read; an environment step that changes a reserved
  byte removes it, and it may be removed at any time (cache eviction, context switch, interrupts).
* a store-conditional succeeds only with a valid reservation and may fail spuriously.

Simplifications: each instruction accesses memory atomically (the alignment needed for that is a
layout property, C25); instruction fetch, faults and timing are not modelled.
-/
import Verif.Core.Mem

namespace Verif

/-- Registers and flags. `z` is the zero/equal flag (x86 ZF, Arm Z, PowerPC cr0.EQ, SPARC icc.Z,
Hexagon predicate); `cc` is the s390x condition code. -/
structure RS (W : Nat) where
  r : Nat → BitVec W
  z : Bool
  cc : BitVec 2

namespace RS
/-- Write one register. -/
def set {W : Nat} (s : RS W) (i : Nat) (v : BitVec W) : RS W :=
  { s with r := fun j => if j = i then v else s.r j }
/-- Write one register if the condition holds. -/
def setIf {W : Nat} (s : RS W) (b : Bool) (i : Nat) (v : BitVec W) : RS W :=
  { s with r := fun j => if b = true ∧ j = i then v else s.r j }
/-- Write the zero flag. -/
def setZ {W : Nat} (s : RS W) (b : Bool) : RS W := { s with z := b }
/-- Write the condition code. -/
def setCC {W : Nat} (s : RS W) (c : BitVec 2) : RS W := { s with cc := c }

@[simp] theorem set_r {W : Nat} (s : RS W) (i : Nat) (v : BitVec W) (j : Nat) :
    (s.set i v).r j = if j = i then v else s.r j := rfl
@[simp] theorem set_z {W : Nat} (s : RS W) (i : Nat) (v : BitVec W) : (s.set i v).z = s.z := rfl
@[simp] theorem set_cc {W : Nat} (s : RS W) (i : Nat) (v : BitVec W) : (s.set i v).cc = s.cc := rfl
@[simp] theorem setIf_r {W : Nat} (s : RS W) (b : Bool) (i : Nat) (v : BitVec W) (j : Nat) :
    (s.setIf b i v).r j = if b = true ∧ j = i then v else s.r j := rfl
@[simp] theorem setIf_z {W : Nat} (s : RS W) (b : Bool) (i : Nat) (v : BitVec W) :
    (s.setIf b i v).z = s.z := rfl
@[simp] theorem setIf_cc {W : Nat} (s : RS W) (b : Bool) (i : Nat) (v : BitVec W) :
    (s.setIf b i v).cc = s.cc := rfl
@[simp] theorem setZ_r {W : Nat} (s : RS W) (b : Bool) : (s.setZ b).r = s.r := rfl
@[simp] theorem setZ_z {W : Nat} (s : RS W) (b : Bool) : (s.setZ b).z = b := rfl
@[simp] theorem setZ_cc {W : Nat} (s : RS W) (b : Bool) : (s.setZ b).cc = s.cc := rfl
@[simp] theorem setCC_r {W : Nat} (s : RS W) (c : BitVec 2) : (s.setCC c).r = s.r := rfl
@[simp] theorem setCC_z {W : Nat} (s : RS W) (c : BitVec 2) : (s.setCC c).z = s.z := rfl
@[simp] theorem setCC_cc {W : Nat} (s : RS W) (c : BitVec 2) : (s.setCC c).cc = c := rfl
end RS

/-- Nondeterminism of one register instruction: content of bits the architecture leaves
unspecified. -/
structure Orc where
  junk : Nat
deriving Inhabited

/-- Which pairs of accesses (earlier kind, later kind) a barrier keeps in order:
`rr` read-read, `rw` read-write, `wr` write-read, `ww` write-write, `lr` RCsc release write - read
(implied by `wr`; what an RCsc acquire read executed at this point keeps in order). -/
structure Pairs where
  rr : Bool
  rw : Bool
  wr : Bool
  ww : Bool
  lr : Bool
deriving DecidableEq, Repr

namespace Pairs
def none : Pairs := ⟨false, false, false, false, false⟩
def full : Pairs := ⟨true, true, true, true, true⟩
def union (a b : Pairs) : Pairs := 
  ⟨a.rr || b.rr, a.rw || b.rw, a.wr || b.wr, a.ww || b.ww, a.lr || b.lr⟩
end Pairs

/-- Ordering annotation of a memory access: `aq` acquire, `rl` release, `sc` the annotation is RCsc
(a release write is also ordered before a later acquire read), `full` the access behaves as a full
barrier on both sides. -/
structure Acc where
  aq : Bool := false
  rl : Bool := false
  sc : Bool := false
  full : Bool := false
deriving DecidableEq, Repr

/-- A plain access. -/
def Acc.plain : Acc := {}

/-- Instructions. -/
inductive Instr (W : Nat) where
  /-- register/flag computation -/
  | op (f : Orc → RS W → RS W)
  /-- memory barrier -/
  | fence (p : Pairs)
  /-- jump to `t` if the condition holds -/
  | br (c : RS W → Bool) (t : Nat)
  /-- load -/
  | ld (acc : Acc) (addr : RS W → Nat) (w : Nat) (k : BitVec w → RS W → RS W)
  /-- store -/
  | st (acc : Acc) (addr : RS W → Nat) (w : Nat) (v : RS W → BitVec w)
  /-- load-linked; if `tear`, it may instead return an arbitrary value without a reservation
  (a double-width load-exclusive is single-copy atomic only if the store-exclusive succeeds) -/
  | ll (acc : Acc) (tear : Bool) (addr : RS W → Nat) (w : Nat) (k : BitVec w → RS W → RS W)
  /-- store-conditional; `k` receives the success bit and an arbitrary failure code -/
  | sc (acc : Acc) (addr : RS W → Nat) (w : Nat) (v : RS W → BitVec w)
      (k : Bool → Nat → RS W → RS W)
  /-- atomic read-modify-write; `f` gives the value to write, or nothing -/
  | rmw (acc : Acc) (addr : RS W → Nat) (w : Nat) (f : RS W → BitVec w → Option (BitVec w))
      (k : BitVec w → RS W → RS W)
  /-- drop the reservation -/
  | clrex

/-- Events visible in a trace. -/
inductive Ev where
  | tau
  | fence (p : Pairs)
  | rd (acc : Acc)
  | wr (acc : Acc)
  | rmw (acc : Acc)
deriving DecidableEq, Repr

/-- One trace entry: an own instruction or an environment step, with memory before and after. -/
inductive TEv where
  | own (ev : Ev) (m m' : Mem)
  | env (m m' : Mem)

/-- Thread state plus shared memory. -/
structure Cfg (W : Nat) where
  pc : Nat
  rs : RS W
  mem : Mem
  resv : Option (Nat × Nat)

/-- One instruction of the thread. -/
inductive Step (e : Endian) {W : Nat} : Instr W → Cfg W → Ev → Cfg W → Prop where
  | op (f) (c : Cfg W) (o : Orc) :
      Step e (.op f) c .tau { c with pc := c.pc + 1, rs := f o c.rs }
  | fence (p) (c : Cfg W) : Step e (.fence p) c (.fence p) { c with pc := c.pc + 1 }
  | br (cond t) (c : Cfg W) :
      Step e (.br cond t) c .tau { c with pc := if cond c.rs then t else c.pc + 1 }
  | ld (acc addr w k) (c : Cfg W) :
      Step e (.ld acc addr w k) c (.rd acc)
        { c with pc := c.pc + 1, rs := k (load e c.mem (addr c.rs) w) c.rs }
  | st (acc addr w v) (c : Cfg W) :
      Step e (.st acc addr w v) c (.wr acc)
        { c with pc := c.pc + 1, mem := store e c.mem (addr c.rs) w (v c.rs), resv := none }
  | ll (acc tear addr w k) (c : Cfg W) :
      Step e (.ll acc tear addr w k) c (.rd acc)
        { c with pc := c.pc + 1, rs := k (load e c.mem (addr c.rs) w) c.rs,
                 resv := some (addr c.rs, w / 8) }
  | llTear (acc addr w k) (c : Cfg W) (mt : Mem) :
      Step e (.ll acc true addr w k) c (.rd acc)
        { c with pc := c.pc + 1, rs := k (load e mt (addr c.rs) w) c.rs, resv := none }
  | scOk (acc addr w v k) (c : Cfg W) (j : Nat) (h : c.resv = some (addr c.rs, w / 8)) :
      Step e (.sc acc addr w v k) c (.wr acc)
        { pc := c.pc + 1, rs := k true j c.rs, mem := store e c.mem (addr c.rs) w (v c.rs),
          resv := none }
  | scFail (acc addr w v k) (c : Cfg W) (j : Nat) :
      Step e (.sc acc addr w v k) c .tau
        { c with pc := c.pc + 1, rs := k false j c.rs, resv := none }
  | rmwNo (acc addr w f k) (c : Cfg W) (h : f c.rs (load e c.mem (addr c.rs) w) = none) :
      Step e (.rmw acc addr w f k) c (.rd acc)
        { c with pc := c.pc + 1, rs := k (load e c.mem (addr c.rs) w) c.rs }
  | rmwYes (acc addr w f k) (c : Cfg W) (y)
      (h : f c.rs (load e c.mem (addr c.rs) w) = some y) :
      Step e (.rmw acc addr w f k) c (.rmw acc)
        { pc := c.pc + 1, rs := k (load e c.mem (addr c.rs) w) c.rs,
          mem := store e c.mem (addr c.rs) w y, resv := none }
  | clrex (c : Cfg W) : Step e .clrex c .tau { c with pc := c.pc + 1, resv := none }

/-- What an environment step from memory `m` to `m'` may do to a reservation. -/
def EnvResv (m m' : Mem) (r r' : Option (Nat × Nat)) : Prop :=
  r' = none ∨ (r' = r ∧ ∀ a n, r = some (a, n) → Agree m m' a n)

/-- Runs of program `P` from `c0`: own instructions interleaved with environment steps. -/
inductive Run (e : Endian) {W : Nat} (P : List (Instr W)) (c0 : Cfg W) :
    List TEv → Cfg W → Prop where
  | nil : Run e P c0 [] c0
  | own {tr c i ev c'} (h : Run e P c0 tr c) (hi : P[c.pc]? = some i) (hs : Step e i c ev c') :
      Run e P c0 (tr ++ [.own ev c.mem c'.mem]) c'
  | env {tr c} (h : Run e P c0 tr c) (m' : Mem) (r' : Option (Nat × Nat))
      (hr : EnvResv c.mem m' c.resv r') :
      Run e P c0 (tr ++ [.env c.mem m']) { c with mem := m', resv := r' }

end Verif
