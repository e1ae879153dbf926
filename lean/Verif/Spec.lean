/-
Specification: what the operations of the crate mean, independently of any implementation.
-/
import Verif.Core.Machine

namespace Verif

/-! ### One-step specifications on byte memory (memory before, memory after, returned bits) -/

/-- `load` returns the object's bits and changes nothing. -/
def LoadSpec (e : Endian) (a w : Nat) (m m' : Mem) (out : BitVec w) : Prop :=
  out = load e m a w ∧ m' = m

/-- `store` replaces the object's bytes and nothing else. -/
def StoreSpec (e : Endian) (a w : Nat) (val : BitVec w) (m m' : Mem) : Prop :=
  m' = store e m a w val

/-- `swap` replaces the object's bytes and returns the previous bits. -/
def SwapSpec (e : Endian) (a w : Nat) (val : BitVec w) (m m' : Mem) (out : BitVec w) : Prop :=
  out = load e m a w ∧ m' = store e m a w val

/-- `compare_exchange`: `ok` iff the bits matched. -/
def CasSpec (e : Endian) (a w : Nat) (old new : BitVec w) (m m' : Mem) (out : BitVec w) (ok : Bool) :
    Prop :=
  out = load e m a w ∧
    ((load e m a w = old ∧ ok = true ∧ m' = store e m a w new) ∨
     (load e m a w ≠ old ∧ ok = false ∧ m' = m))

/-- `compare_exchange_weak`: as `compare_exchange`, but may fail without a reason. -/
def WeakCasSpec (e : Endian) (a w : Nat) (old new : BitVec w) (m m' : Mem) (out : BitVec w)
    (ok : Bool) : Prop :=
  out = load e m a w ∧
    ((load e m a w = old ∧ ok = true ∧ m' = store e m a w new) ∨
     (ok = false ∧ m' = m))

/-! ### Atomicity of a run -/

/-- Among the thread's own trace entries exactly one (the linearization point) satisfies `spec`;
every other own entry leaves memory unchanged. (Environment entries are unconstrained.) -/
def AtomicTrace (tr : List TEv) (spec : Mem → Mem → Prop) : Prop :=
  ∃ pre ev m m' post, tr = pre ++ TEv.own ev m m' :: post ∧
    (∀ ev' m1 m2, TEv.own ev' m1 m2 ∈ pre ++ post → m1 = m2) ∧ spec m m'

/-! ### Ordering of a run

The monitor folds the thread's own events into the barriers executed before and after the last read
and the last write of the operation. -/

/-- Monitor state. -/
structure Mon where
  /-- barriers executed so far -/
  before : Pairs := Pairs.none
  /-- annotation of the last read; barriers executed before it, after it -/
  rd : Option Acc := none
  rdBefore : Pairs := Pairs.none
  rdAfter : Pairs := Pairs.none
  /-- annotation of the last write; barriers executed before it, after it -/
  wr : Option Acc := none
  wrBefore : Pairs := Pairs.none
  wrAfter : Pairs := Pairs.none
deriving DecidableEq, Repr

namespace Mon
/-- a barrier -/
def onFence (M : Mon) (p : Pairs) : Mon :=
  { M with before := M.before.union p, rdAfter := M.rdAfter.union p, wrAfter := M.wrAfter.union p }
/-- a read of the object -/
def onRd (M : Mon) (a : Acc) : Mon :=
  { M with rd := some a, rdBefore := M.before, rdAfter := Pairs.none }
/-- a write of the object -/
def onWr (M : Mon) (a : Acc) : Mon :=
  { M with wr := some a, wrBefore := M.before, wrAfter := Pairs.none }
/-- one own event -/
def onEv (M : Mon) : Ev → Mon
  | .tau => M
  | .fence p => M.onFence p
  | .rd a => M.onRd a
  | .wr a => M.onWr a
  | .rmw a => (M.onRd a).onWr a
@[simp] theorem onRd_onRd (M : Mon) (a b : Acc) : (M.onRd a).onRd b = M.onRd b := rfl
/-- one trace entry -/
def onTEv (M : Mon) : TEv → Mon
  | .own ev _ _ => M.onEv ev
  | .env _ _ => M
end Mon

/-- The monitor of a trace. -/
def monOf (tr : List TEv) : Mon := tr.foldl Mon.onTEv {}

/-- The last read is ordered before every access that follows the operation. `imp` are the pairs the
architecture orders without any barrier (e.g. TSO). -/
def Acquires (imp : Pairs) (M : Mon) : Bool :=
  match M.rd with
  | some a => a.aq || a.full || ((imp.rr || M.rdAfter.rr) && (imp.rw || M.rdAfter.rw))
  | none => false

/-- The write is ordered after every access that precedes the operation. -/
def Releases (imp : Pairs) (M : Mon) : Bool :=
  match M.wr with
  | some a => a.rl || a.full || ((imp.rw || M.wrBefore.rw) && (imp.ww || M.wrBefore.ww))
  | none => false

/-- Every access of operation `A` is ordered before every access of the later operation `B` of the same
thread: by the architecture (`imp`), by a barrier executed after A's or before B's access, or by the
annotations of the two accesses. -/
def Ordered (imp : Pairs) (A B : Mon) : Bool :=
  (match A.rd, B.rd with
    | some a, some b => imp.rr || A.rdAfter.rr || B.rdBefore.rr || a.aq || a.full || b.full
    | _, _ => true) &&
  (match A.rd, B.wr with
    | some a, some b => imp.rw || A.rdAfter.rw || B.wrBefore.rw || a.aq || a.full || b.rl || b.full
    | _, _ => true) &&
  (match A.wr, B.rd with
    | some a, some b => imp.wr || A.wrAfter.wr || B.rdBefore.wr || a.full || b.full ||
        (a.rl && a.sc && ((b.aq && b.sc) || B.rdBefore.lr))
    | _, _ => true) &&
  (match A.wr, B.wr with
    | some a, some b => imp.ww || A.wrAfter.ww || B.wrBefore.ww || a.full || b.rl || b.full
    | _, _ => true)

/-! ### Statements about all completed runs of a code sequence -/

/-- In every completed run, the final registers and the ordering monitor satisfy `post`. -/
def Ensures (e : Endian) {W : Nat} (P : List (Instr W)) (pre : RS W → Prop)
    (post : RS W → Mon → Prop) : Prop :=
  ∀ (c0 : Cfg W) (tr : List TEv) (c : Cfg W), c0.pc = 0 → pre c0.rs → Run e P c0 tr c →
    c.pc = P.length → post c.rs (monOf tr)

/-- Registers outside `S` are never changed, in any (also unfinished) run. -/
def Frame (e : Endian) {W : Nat} (P : List (Instr W)) (S : Nat → Prop) : Prop :=
  ∀ (c0 : Cfg W) (tr : List TEv) (c : Cfg W), Run e P c0 tr c → ∀ j, ¬ S j → c.rs.r j = c0.rs.r j

/-- The flags are never changed (`options(preserves_flags)`). -/
def KeepsFlags (e : Endian) {W : Nat} (P : List (Instr W)) : Prop :=
  ∀ (c0 : Cfg W) (tr : List TEv) (c : Cfg W), Run e P c0 tr c → c.rs.z = c0.rs.z ∧ c.rs.cc = c0.rs.cc

end Verif
