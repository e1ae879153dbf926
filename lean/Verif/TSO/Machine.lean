/-
Any number of threads on a machine with store buffers (x86-TSO: Owens, Sarkar, Sewell 2009; also SPARC TSO).

A store goes to the end of the thread's FIFO buffer and reaches memory at some later moment; a load sees the
thread's own buffered stores and otherwise memory; a locked instruction and a barrier that orders earlier writes
before later reads wait until the thread's buffer is empty.

The instructions are those of `Core/Machine.lean`, without load-linked/store-conditional (x86 has none).
-/
import Verif.Lin.Machine

namespace Verif

/-- A buffered store. -/
structure BStore where
  a : Nat
  w : Nat
  v : BitVec w

/-- Memory as seen by a thread with the given buffer (oldest store first). -/
def BStore.over (e : Endian) (m : Mem) : List BStore → Mem
  | [] => m
  | s :: b => BStore.over e (store e m s.a s.w s.v) b

/-- Threads, their buffers, memory. (The reservation component of a thread is not used.) -/
structure TState (W : Nat) where
  mem : Mem
  th : Nat → Thread W
  buf : Nat → List BStore

/-- One instruction on a TSO machine: program counter, registers, memory and buffer before and after. -/
inductive TInstr (e : Endian) {W : Nat} : Instr W → Nat × RS W × Mem × List BStore →
    Nat × RS W × Mem × List BStore → Prop where
  | op (f pc rs m b) (o : Orc) : TInstr e (.op f) (pc, rs, m, b) (pc + 1, f o rs, m, b)
  | br (cond t pc rs m b) : TInstr e (.br cond t) (pc, rs, m, b) (if cond rs then t else pc + 1, rs, m, b)
  | fence (p pc rs m b) (h : p.wr = true → b = []) : TInstr e (.fence p) (pc, rs, m, b) (pc + 1, rs, m, b)
  | ld (acc addr w k pc rs m b) :
      TInstr e (.ld acc addr w k) (pc, rs, m, b) (pc + 1, k (load e (BStore.over e m b) (addr rs) w) rs, m, b)
  | st (acc addr w v pc rs m b) :
      TInstr e (.st acc addr w v) (pc, rs, m, b) (pc + 1, rs, m, b ++ [⟨addr rs, w, v rs⟩])
  | rmwNo (acc addr w f k pc rs m) (h : f rs (load e m (addr rs) w) = none) :
      TInstr e (.rmw acc addr w f k) (pc, rs, m, []) (pc + 1, k (load e m (addr rs) w) rs, m, [])
  | rmwYes (acc addr w f k pc rs m y) (h : f rs (load e m (addr rs) w) = some y) :
      TInstr e (.rmw acc addr w f k) (pc, rs, m, [])
        (pc + 1, k (load e m (addr rs) w) rs, store e m (addr rs) w y, [])

/-- Events: calls and answers, an instruction of thread `i`, a buffered store of thread `i` reaching memory, memory
changed by somebody else. -/
inductive TGEv where
  | h (x : HEv)
  | own (i : Nat)
  | flush (i : Nat)
  | ext (m m' : Mem)

/-- Steps of the machine. -/
inductive TStep {W : Nat} (A : Backend W) (P : Call → Prop) : TState W → TGEv → TState W → Prop where
  | inv (t : TState W) (i c) (B : Block W c.width) (rs) (hidle : t.th i = .idle) (hp : P c) (hv : c.Valid)
      (hB : A.Runs c B) (hpre : B.pre rs) :
      TStep A P t (.h (.inv i c)) { t with th := upd t.th i (.run c B 0 rs none) }
  | own (t : TState W) (i c) (B : Block W c.width) (pc rs ins pc' rs' m' b')
      (hrun : t.th i = .run c B pc rs none) (hi : B.code[pc]? = some ins)
      (hs : TInstr A.e ins (pc, rs, t.mem, t.buf i) (pc', rs', m', b')) :
      TStep A P t (.own i) ⟨m', upd t.th i (.run c B pc' rs' none), upd t.buf i b'⟩
  | flush (t : TState W) (i s b) (h : t.buf i = s :: b) :
      TStep A P t (.flush i) ⟨store A.e t.mem s.a s.w s.v, t.th, upd t.buf i b⟩
  | ret (t : TState W) (i c) (B : Block W c.width) (rs) (hrun : t.th i = .run c B B.code.length rs none) :
      TStep A P t (.h (.ret i c (c.result B rs))) { t with th := upd t.th i .idle }
  | ext (t : TState W) (m') : TStep A P t (.ext t.mem m') { t with mem := m' }

/-- Runs of the machine, from memory `m0` with all threads idle and all buffers empty. -/
inductive TRun {W : Nat} (A : Backend W) (P : Call → Prop) (m0 : Mem) : List TGEv → TState W → Prop where
  | nil : TRun A P m0 [] ⟨m0, fun _ => .idle, fun _ => []⟩
  | snoc {tr t ev t'} (h : TRun A P m0 tr t) (hs : TStep A P t ev t') : TRun A P m0 (tr ++ [ev]) t'

/-- What is visible from outside. -/
def TGEv.vis : List TGEv → List VEv
  | [] => []
  | .h x :: t => .h x :: vis t
  | .ext m m' :: t => .ext m m' :: vis t
  | .own _ :: t => vis t
  | .flush _ :: t => vis t

/-- All stores are SeqCst (loads, swaps and compare-exchanges may use any ordering). -/
def Call.StoresSeqCst : Call → Prop
  | .store o _ _ _ => o = .seqCst
  | _ => True

/-- All orderings are SeqCst. -/
def Call.SeqCstOnly : Call → Prop
  | .load o _ _ | .store o _ _ _ | .swap o _ _ _ => o = .seqCst
  | .cas s f _ _ _ _ | .casWeak s f _ _ _ _ => s = .seqCst ∧ f = .seqCst

/-- C29. On a machine with store buffers, every run of any number of threads whose calls satisfy `P` looks like a
run of the canonical atomic object without any buffers: same calls, same answers and same outside memory changes
in the same order, same memory; and a thread that is between operations has nothing buffered. -/
def Backend.SCOnTSO {W : Nat} (A : Backend W) (P : Call → Prop) : Prop :=
  ∀ (m0 : Mem) (tr : List TGEv) (t : TState W), TRun A P m0 tr t →
    ∃ (str : List SEv) (s : SState), SRun A.e ⟨m0, fun _ => .idle⟩ str s ∧
      SEv.vis str = TGEv.vis tr ∧ s.mem = t.mem ∧ ∀ i, t.th i = .idle → s.th i = .idle ∧ t.buf i = []

end Verif
