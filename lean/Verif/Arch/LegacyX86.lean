/-
src/arch_legacy/x86.rs: x86 (32-bit) and x86_64 (compilers without `MaybeUninit` asm operands).

Values are passed through private buffers (Core/Private.lean): `.x0` (and `.x3`, the second word of a double-word value)
is the content of `out`, `.x1` (`.x4`) of `val` / `old`, `.x2` (`.x5`) of `new`. Mnemonics are those of Arch/X86.lean;
`W` is the register width, `P` the pointer width (`ptr_modifier!`, l.30-41).

As in Arch/X86.lean, an SSE register is represented by its low 64 bits, as two halves.
-/
import Verif.Arch.X86
import Verif.Core.Private

namespace Verif.LegacyX86
open X86 (locked ea part mov_ld mov_st mov xor_self xchg_reg xchg cmpxchg sete jne cmpxchg2 lock_or lock_or_flags Rbx
  imp Size storeArm)

section
variable {W P : Nat}

/-- `mov rd, size ptr [ra]` from a private buffer. -/
@[asm] def mov_ldp (cs : List (Cell P)) (w rd ra : Nat) : Instr W :=
  .op fun o s => s.set rd (part ((readCell ((s.r ra).setWidth P) (BitVec.ofNat W o.junk) s cs).setWidth w) (s.r rd))
/-- `mov size ptr [ra], rv` to a private buffer. -/
@[asm] def mov_stp (c : Cell P) (w ra rv : Nat) : Instr W :=
  .op fun _ s => s.setIf ((s.r ra).setWidth P == c.addr) c.reg (writeLow w (s.r rv) (s.r c.reg))
/-- `mov rd, [ra]` (register size) from a private buffer of two words. -/
@[asm] def mov_ldp0 (cs : List (Cell2 P)) (rd ra : Nat) : Instr W :=
  .op fun o s => s.set rd (readCell2 ((s.r ra).setWidth P) (BitVec.ofNat W o.junk) s cs).1
/-- `mov rd, [ra + W/8]` (register size) from a private buffer of two words. -/
@[asm] def mov_ldp1 (cs : List (Cell2 P)) (rd ra : Nat) : Instr W :=
  .op fun o s => s.set rd (readCell2 ((s.r ra).setWidth P) (BitVec.ofNat W o.junk) s cs).2
/-- `mov [ra], rv` (register size) to a private buffer of two words. -/
@[asm] def mov_stp0 (c : Cell2 P) (ra rv : Nat) : Instr W :=
  .op fun _ s => s.setIf ((s.r ra).setWidth P == c.addr) c.reg0 (s.r rv)
/-- `mov [ra + W/8], rv` (register size) to a private buffer of two words. -/
@[asm] def mov_stp1 (c : Cell2 P) (ra rv : Nat) : Instr W :=
  .op fun _ s => s.setIf ((s.r ra).setWidth P == c.addr) c.reg1 (s.r rv)

/-! ### asm! blocks: word sizes (l.62-219) -/

/-- operands of l.85-87 -/
@[asm] def loadKind : Op → Kind
  | .src => .inp | .out => .inout | .tmp => .lateout | .x0 => .inout | _ => .unused
/-- l.80-89 `atomic_load`. -/
@[asm] def loadAsm (al : Op → Nat) (w : Nat) (po : BitVec P) : List (Instr W) := [
    mov_ld P w (al .tmp) (al .src),
    mov_stp ⟨po, al .x0⟩ w (al .out) (al .tmp) ]
/-- operands of l.114-116 and l.126-128 -/
@[asm] def storeKind : Op → Kind
  | .dst => .inout | .val => .inp | .tmp => .lateout | .x1 => .inout | _ => .unused
/-- l.109-118 (Relaxed, Release: `mov`) and, if `sc`, l.121-130 (SeqCst: `xchg`) `atomic_store`. -/
@[asm] def storeAsm (al : Op → Nat) (w : Nat) (sc : Bool) (pv : BitVec P) : List (Instr W) := [
    mov_ldp [⟨pv, al .x1⟩] w (al .tmp) (al .val),
    match sc with
    | false => mov_st P w (al .dst) (al .tmp)
    | true => xchg P w (al .dst) (al .tmp) ]
/-- operands of l.159-162 -/
@[asm] def swapKind : Op → Kind
  | .dst => .inout | .val => .inp | .out => .inout | .tmp => .lateout | .x0 => .inout | .x1 => .inout | _ => .unused
/-- l.152-164 `atomic_swap`. -/
@[asm] def swapAsm (al : Op → Nat) (w : Nat) (po pv : BitVec P) : List (Instr W) := [
    mov_ldp [⟨po, al .x0⟩, ⟨pv, al .x1⟩] w (al .tmp) (al .val),
    xchg P w (al .dst) (al .tmp),
    mov_stp ⟨po, al .x0⟩ w (al .out) (al .tmp) ]
/-- operands of l.204-209: `r` is rcx (`out("cl") r`, also used as `$tmp_new_reg`), `tmp` is `$cmpxchg_cmp_reg` (rax).
The whole of rcx is counted as an output here; see `LegacyX86.C17_legacy_x86_cx_undeclared`. -/
@[asm] def casKind : Op → Kind
  | .dst => .inp | .old => .inp | .new => .inp | .out => .inp | .r => .out | .tmp => .out
  | .x0 => .inout | .x1 => .inout | .x2 => .inout | _ => .unused
/-- l.191-212 `atomic_compare_exchange`. -/
@[asm] def casAsm (al : Op → Nat) (w : Nat) (po pold pnew : BitVec P) : List (Instr W) := [
    mov_ldp [⟨po, al .x0⟩, ⟨pold, al .x1⟩, ⟨pnew, al .x2⟩] w (al .tmp) (al .old),
    mov_ldp [⟨po, al .x0⟩, ⟨pold, al .x1⟩, ⟨pnew, al .x2⟩] w (al .r) (al .new),
    cmpxchg P w (al .dst) (al .r) (al .tmp),
    sete (al .r),
    mov_stp ⟨po, al .x0⟩ w (al .out) (al .tmp) ]

/-- l.67-93 -/
@[asm] def loadBlock (al : Alloc loadKind) (w : Nat) (po p : BitVec P) : Block W w where
  code := loadAsm al w po
  args := [⟨al .src, P, p⟩, ⟨al .out, P, po⟩]
  outs := al.Outs
  keepsFlags := true
  out rs := (rs.r (al .x0)).setWidth w
/-- l.94-136 -/
@[asm] def storeBlock (al : Alloc storeKind) (w : Nat) (sc : Bool) (pv p : BitVec P) (val : BitVec w) :
    Block W w where
  code := storeAsm al w sc pv
  args := [⟨al .dst, P, p⟩, ⟨al .val, P, pv⟩, ⟨al .x1, w, val⟩]
  outs := al.Outs
  keepsFlags := true
/-- l.137-168 -/
@[asm] def swapBlock (al : Alloc swapKind) (w : Nat) (po pv p : BitVec P) (val : BitVec w) : Block W w where
  code := swapAsm al w po pv
  args := [⟨al .dst, P, p⟩, ⟨al .val, P, pv⟩, ⟨al .out, P, po⟩, ⟨al .x1, w, val⟩]
  outs := al.Outs
  keepsFlags := true
  out rs := (rs.r (al .x0)).setWidth w
/-- l.169-217 (l.189: `let mut r: u8`) -/
@[asm] def casBlock (al : Alloc casKind) (w : Nat) (po pold pnew p : BitVec P) (old new : BitVec w) : Block W w where
  code := casAsm al w po pold pnew
  args := [⟨al .dst, P, p⟩, ⟨al .old, P, pold⟩, ⟨al .new, P, pnew⟩, ⟨al .out, P, po⟩, ⟨al .x1, w, old⟩,
    ⟨al .x2, w, new⟩]
  outs := al.Outs
  keepsFlags := false
  out rs := (rs.r (al .x0)).setWidth w
  ok rs := (rs.r (al .r)).setWidth 8 != 0#8
  assumes rs := (rs.r (al .r)).setWidth 8 = 0#8 ∨ (rs.r (al .r)).setWidth 8 = 1#8
end

/-! ### asm! blocks: 64 bits on x86 (l.240-525) -/

/-- operands of l.275-278: tmp0 is `tmp_lo`/`tmp_hi` (its low 64 bits), tmp1 is `tmp2` (its low 32 bits) -/
@[asm] def sse2LoadKind : Op → Kind
  | .src => .inp | .out => .inp | .tmp_lo => .out | .tmp_hi => .out | .tmp2 => .out | .x0 => .inout | .x3 => .inout
  | _ => .unused
/-- `movq tmp, qword ptr [rs]` / `movlps tmp, qword ptr [rs]`: the low 64 bits of `tmp`. -/
@[asm] def movq (tlo thi rs : Nat) : Instr 32 :=
  .ld .plain (ea 32 rs 0) 64 (fun x q => (q.set tlo (lowHalf 32 x)).set thi (highHalf 32 x))
/-- `pshufd t, s, 85`: every word of `t` is word 1 of `s`. -/
@[asm] def pshufd85 (t shi : Nat) : Instr 32 := .op fun _ q => q.set t (q.r shi)
/-- `shufps t, t, 85`: every word of `t` becomes word 1 of `t`. -/
@[asm] def shufps85 (tlo thi : Nat) : Instr 32 := .op fun _ q => (q.set tlo (q.r thi)).set thi (q.r thi)
/-- `xorps t, t` (does not change the flags). -/
@[asm] def xorps (tlo thi : Nat) : Instr 32 := .op fun _ q => (q.set tlo 0).set thi 0
/-- `movsd t, qword ptr [ra]` / `movlps t, qword ptr [ra]` from a private buffer. -/
@[asm] def movsdp (cs : List (Cell2 32)) (tlo thi ra : Nat) : Instr 32 :=
  .op fun o s =>
    let x := readCell2 (s.r ra) (BitVec.ofNat 32 o.junk) s cs
    (s.set tlo x.1).set thi x.2
/-- `movlps qword ptr [rd], t`. -/
@[asm] def movlps_st (rd tlo thi : Nat) : Instr 32 :=
  .st .plain (ea 32 rd 0) 64 (fun q => joinHL 64 (q.r thi) (q.r tlo))

/-- l.263-280 SSE2 load. -/
@[asm] def sse2LoadAsm (al : Op → Nat) (po : BitVec 32) : List (Instr 32) := [
    movq (al .tmp_lo) (al .tmp_hi) (al .src),
    pshufd85 (al .tmp2) (al .tmp_hi),
    mov_stp0 ⟨po, al .x0, al .x3⟩ (al .out) (al .tmp_lo),
    mov_stp1 ⟨po, al .x0, al .x3⟩ (al .out) (al .tmp2) ]
/-- l.260-281 -/
@[asm] def sse2LoadBlock (al : Alloc sse2LoadKind) (po p : BitVec 32) : Block 32 64 where
  code := sse2LoadAsm al po
  args := [⟨al .src, 32, p⟩, ⟨al .out, 32, po⟩]
  outs := al.Outs
  keepsFlags := true
  out rs := join01 .little 64 (rs.r (al .x0)) (rs.r (al .x3))

/-- operands of l.298-300 -/
@[asm] def sseLoadKind : Op → Kind
  | .src => .inp | .out => .inp | .tmp_lo => .out | .tmp_hi => .out | .x0 => .inout | .x3 => .inout | _ => .unused
/-- l.285-302 SSE load. -/
@[asm] def sseLoadAsm (al : Op → Nat) (po : BitVec 32) : List (Instr 32) := [
    xorps (al .tmp_lo) (al .tmp_hi),
    movq (al .tmp_lo) (al .tmp_hi) (al .src),
    mov_stp0 ⟨po, al .x0, al .x3⟩ (al .out) (al .tmp_lo),
    shufps85 (al .tmp_lo) (al .tmp_hi),
    mov_stp1 ⟨po, al .x0, al .x3⟩ (al .out) (al .tmp_lo) ]
/-- l.282-303 -/
@[asm] def sseLoadBlock (al : Alloc sseLoadKind) (po p : BitVec 32) : Block 32 64 where
  code := sseLoadAsm al po
  args := [⟨al .src, 32, p⟩, ⟨al .out, 32, po⟩]
  outs := al.Outs
  keepsFlags := true
  out rs := join01 .little 64 (rs.r (al .x0)) (rs.r (al .x3))

/-- operands of l.319-325: ebx = val_lo, ecx = val_hi, eax = prev_lo, edx = prev_hi, edi = src; esi_tmp is `rbx_tmp`,
entering as the address of `out` -/
@[asm] def cx8LoadKind : Op → Kind
  | .src => .inp | .val_lo => .inp | .val_hi => .inp | .prev_lo => .inout | .prev_hi => .inout | .rbx_tmp => .inout
  | .x0 => .inout | .x3 => .inout | _ => .unused
/-- l.311-328 `lock cmpxchg8b` as a load; `b` is esi. -/
@[asm] def cx8LoadAsm (al : Op → Nat) (b : Nat) (po : BitVec 32) : List (Instr 32) := [
    xchg_reg (al .rbx_tmp) b,
    cmpxchg2 32 64 (al .src) (al .prev_hi) (al .prev_lo) (al .val_hi) (al .val_lo),
    mov_stp0 ⟨po, al .x0, al .x3⟩ b (al .prev_lo),
    mov_stp1 ⟨po, al .x0, al .x3⟩ b (al .prev_hi),
    mov b (al .rbx_tmp) ]
/-- l.305-329 -/
@[asm] def cx8LoadBlock (al : Alloc cx8LoadKind) (b : Nat) (po p : BitVec 32) : Block 32 64 where
  code := cx8LoadAsm al b po
  args := [⟨al .src, 32, p⟩, ⟨al .rbx_tmp, 32, po⟩, ⟨al .val_lo, 32, 0⟩, ⟨al .val_hi, 32, 0⟩, ⟨al .prev_lo, 32, 0⟩,
    ⟨al .prev_hi, 32, 0⟩]
  outs := al.Outs
  keepsFlags := false
  out rs := join01 .little 64 (rs.r (al .x0)) (rs.r (al .x3))

/-- operands of l.363-365 and l.377-379 -/
@[asm] def sseStoreKind : Op → Kind
  | .dst => .inp | .val => .inp | .tmp_lo => .out | .tmp_hi => .out | .x1 => .inout | .x4 => .inout | _ => .unused
/-- l.357-367 and, if `sc`, l.370-382; `xorps` only without SSE2 (l.42-60 `if_sse2!`). -/
@[asm] def sseStoreAsm (al : Op → Nat) (sse2 sc : Bool) (pv : BitVec 32) : List (Instr 32) :=
  (if sse2 then [] else [ xorps (al .tmp_lo) (al .tmp_hi) ]) ++
  [ movsdp [⟨pv, al .x1, al .x4⟩] (al .tmp_lo) (al .tmp_hi) (al .val),
    movlps_st (al .dst) (al .tmp_lo) (al .tmp_hi) ] ++
  (if sc then [ lock_or, lock_or_flags ] else [])
/-- l.343-386 -/
@[asm] def sseStoreBlock (al : Alloc sseStoreKind) (sse2 sc : Bool) (pv p : BitVec 32) (val : BitVec 64) :
    Block 32 64 where
  code := sseStoreAsm al sse2 sc pv
  args := [⟨al .dst, 32, p⟩, ⟨al .val, 32, pv⟩, ⟨al .x1, 32, word0 .little 32 val⟩, ⟨al .x4, 32, word1 .little 32 val⟩]
  outs := al.Outs
  keepsFlags := !sc

/-- operands of l.408-412: eax = val (the address, then the low half of the previous value), edx = prev_hi, ebx = val_lo,
ecx = val_hi, edi = dst -/
@[asm] def cx8StoreKind : Op → Kind
  | .dst => .inp | .val => .inout | .prev_hi => .out | .val_lo => .out | .val_hi => .out | .x1 => .inout | .x4 => .inout
  | _ => .unused
/-- l.394-415 -/
@[asm] def cx8StoreAsm (al : Op → Nat) (pv : BitVec 32) : List (Instr 32) := [
    mov_ldp0 [⟨pv, al .x1, al .x4⟩] (al .val_lo) (al .val),
    mov_ldp1 [⟨pv, al .x1, al .x4⟩] (al .val_hi) (al .val),
    mov_ld 32 32 (al .val) (al .dst),
    mov_ld 32 32 (al .prev_hi) (al .dst) 4,
    /- 2: -/ cmpxchg2 32 64 (al .dst) (al .prev_hi) (al .val) (al .val_hi) (al .val_lo),
    jne 4 ]
/-- l.387-416 -/
@[asm] def cx8StoreBlock (al : Alloc cx8StoreKind) (pv p : BitVec 32) (val : BitVec 64) : Block 32 64 where
  code := cx8StoreAsm al pv
  args := [⟨al .dst, 32, p⟩, ⟨al .val, 32, pv⟩, ⟨al .x1, 32, word0 .little 32 val⟩, ⟨al .x4, 32, word1 .little 32 val⟩]
  outs := al.Outs
  keepsFlags := false

/-- operands of l.455-460: as `cx8StoreKind`, and esi_tmp (`rbx_tmp`), entering as the address of `out` -/
@[asm] def cx8SwapKind : Op → Kind
  | .dst => .inp | .val => .inout | .prev_hi => .out | .val_lo => .out | .val_hi => .out | .rbx_tmp => .inout
  | .x0 => .inout | .x3 => .inout | .x1 => .inout | .x4 => .inout | _ => .unused
/-- l.436-463; `b` is esi. -/
@[asm] def cx8SwapAsm (al : Op → Nat) (b : Nat) (po pv : BitVec 32) : List (Instr 32) := [
    xchg_reg (al .rbx_tmp) b,
    mov_ldp0 [⟨po, al .x0, al .x3⟩, ⟨pv, al .x1, al .x4⟩] (al .val_lo) (al .val),
    mov_ldp1 [⟨po, al .x0, al .x3⟩, ⟨pv, al .x1, al .x4⟩] (al .val_hi) (al .val),
    mov_ld 32 32 (al .val) (al .dst),
    mov_ld 32 32 (al .prev_hi) (al .dst) 4,
    /- 2: -/ cmpxchg2 32 64 (al .dst) (al .prev_hi) (al .val) (al .val_hi) (al .val_lo),
    jne 5,
    mov_stp0 ⟨po, al .x0, al .x3⟩ b (al .val),
    mov_stp1 ⟨po, al .x0, al .x3⟩ b (al .prev_hi),
    mov b (al .rbx_tmp) ]
/-- l.419-467 -/
@[asm] def cx8SwapBlock (al : Alloc cx8SwapKind) (b : Nat) (po pv p : BitVec 32) (val : BitVec 64) : Block 32 64 where
  code := cx8SwapAsm al b po pv
  args := [⟨al .dst, 32, p⟩, ⟨al .rbx_tmp, 32, po⟩, ⟨al .val, 32, pv⟩, ⟨al .x1, 32, word0 .little 32 val⟩,
    ⟨al .x4, 32, word1 .little 32 val⟩]
  outs := al.Outs
  keepsFlags := false
  out rs := join01 .little 64 (rs.r (al .x0)) (rs.r (al .x3))

/-- operands of l.502-507: eax = old_lo, edx = old_hi (entering as the address of `old`), ebx = new_lo, ecx = new_hi
(entering as the address of `new`, leaving as `r`), edi = dst, esi_tmp is `rbx_tmp` (entering as the address of `out`) -/
@[asm] def cx8CasKind : Op → Kind
  | .dst => .inp | .old_lo => .out | .old_hi => .inout | .new_lo => .out | .new_hi => .inout | .rbx_tmp => .inout
  | .x0 => .inout | .x3 => .inout | .x1 => .inout | .x4 => .inout | .x2 => .inout | .x5 => .inout | _ => .unused
/-- The private buffers of a double-word compare_exchange. -/
@[asm] def casCells {P : Nat} (al : Op → Nat) (po pold pnew : BitVec P) : List (Cell2 P) :=
  [⟨po, al .x0, al .x3⟩, ⟨pold, al .x1, al .x4⟩, ⟨pnew, al .x2, al .x5⟩]
/-- l.489-510; `b` is esi. -/
@[asm] def cx8CasAsm (al : Op → Nat) (b : Nat) (po pold pnew : BitVec 32) : List (Instr 32) := [
    xchg_reg (al .rbx_tmp) b,
    mov_ldp0 (casCells al po pold pnew) (al .old_lo) (al .old_hi),
    mov_ldp1 (casCells al po pold pnew) (al .old_hi) (al .old_hi),
    mov_ldp0 (casCells al po pold pnew) (al .new_lo) (al .new_hi),
    mov_ldp1 (casCells al po pold pnew) (al .new_hi) (al .new_hi),
    cmpxchg2 32 64 (al .dst) (al .old_hi) (al .old_lo) (al .new_hi) (al .new_lo),
    sete (al .new_hi),
    mov_stp0 ⟨po, al .x0, al .x3⟩ b (al .old_lo),
    mov_stp1 ⟨po, al .x0, al .x3⟩ b (al .old_hi),
    mov b (al .rbx_tmp) ]
/-- l.468-516; l.511: `r.to_ne_bytes()[0]` -/
@[asm] def cx8CasBlock (al : Alloc cx8CasKind) (b : Nat) (po pold pnew p : BitVec 32) (old new : BitVec 64) :
    Block 32 64 where
  code := cx8CasAsm al b po pold pnew
  args := [⟨al .dst, 32, p⟩, ⟨al .rbx_tmp, 32, po⟩, ⟨al .old_hi, 32, pold⟩, ⟨al .new_hi, 32, pnew⟩,
    ⟨al .x1, 32, word0 .little 32 old⟩, ⟨al .x4, 32, word1 .little 32 old⟩, ⟨al .x2, 32, word0 .little 32 new⟩,
    ⟨al .x5, 32, word1 .little 32 new⟩]
  outs := al.Outs
  keepsFlags := false
  out rs := join01 .little 64 (rs.r (al .x0)) (rs.r (al .x3))
  ok rs := (rs.r (al .new_hi)).setWidth 8 != 0#8
  assumes rs := (rs.r (al .new_hi)).setWidth 8 = 0#8 ∨ (rs.r (al .new_hi)).setWidth 8 = 1#8

/-! ### asm! blocks: 128 bits on x86_64 (l.527-765); `b` is rbx -/

section
variable {P : Nat}

/-- operands of l.571-576: rcx = val_hi, rax = prev_lo, rdx = prev_hi, rdi = src, rsi = out -/
@[asm] def cx16LoadKind : Op → Kind
  | .src => .inp | .out => .inp | .val_hi => .inp | .prev_lo => .inout | .prev_hi => .inout | .rbx_tmp => .out
  | .x0 => .inout | .x3 => .inout | _ => .unused
/-- l.561-579 -/
@[asm] def cx16LoadAsm (al : Op → Nat) (b : Nat) (po : BitVec P) : List (Instr 64) := [
    mov (al .rbx_tmp) b,
    xor_self b,
    cmpxchg2 P 128 (al .src) (al .prev_hi) (al .prev_lo) (al .val_hi) b,
    mov_stp0 ⟨po, al .x0, al .x3⟩ (al .out) (al .prev_lo),
    mov_stp1 ⟨po, al .x0, al .x3⟩ (al .out) (al .prev_hi),
    mov b (al .rbx_tmp) ]
/-- l.537-583 -/
@[asm] def cx16LoadBlock (al : Alloc cx16LoadKind) (b : Nat) (po p : BitVec P) : Block 64 128 where
  code := cx16LoadAsm al b po
  args := [⟨al .src, P, p⟩, ⟨al .out, P, po⟩, ⟨al .val_hi, 64, 0⟩, ⟨al .prev_lo, 64, 0⟩, ⟨al .prev_hi, 64, 0⟩]
  outs := al.Outs
  keepsFlags := false
  out rs := join01 .little 128 (rs.r (al .x0)) (rs.r (al .x3))

/-- operands of l.624-629: rax = prev_lo, rcx = val_hi, rdx = prev_hi, rdi = dst, rsi = val -/
@[asm] def cx16StoreKind : Op → Kind
  | .dst => .inp | .val => .inp | .val_hi => .out | .prev_lo => .out | .prev_hi => .out | .rbx_tmp => .out
  | .x1 => .inout | .x4 => .inout | _ => .unused
/-- l.608-632 -/
@[asm] def cx16StoreAsm (al : Op → Nat) (b : Nat) (pv : BitVec P) : List (Instr 64) := [
    mov (al .rbx_tmp) b,
    mov_ldp0 [⟨pv, al .x1, al .x4⟩] b (al .val),
    mov_ldp1 [⟨pv, al .x1, al .x4⟩] (al .val_hi) (al .val),
    mov_ld P 64 (al .prev_lo) (al .dst),
    mov_ld P 64 (al .prev_hi) (al .dst) 8,
    /- 2: -/ cmpxchg2 P 128 (al .dst) (al .prev_hi) (al .prev_lo) (al .val_hi) b,
    jne 5,
    mov b (al .rbx_tmp) ]
/-- l.584-635 -/
@[asm] def cx16StoreBlock (al : Alloc cx16StoreKind) (b : Nat) (pv p : BitVec P) (val : BitVec 128) :
    Block 64 128 where
  code := cx16StoreAsm al b pv
  args := [⟨al .dst, P, p⟩, ⟨al .val, P, pv⟩, ⟨al .x1, 64, word0 .little 64 val⟩, ⟨al .x4, 64, word1 .little 64 val⟩]
  outs := al.Outs
  keepsFlags := false

/-- operands of l.681-687: rax = prev_lo, rcx = val_hi, rdx = prev_hi, rdi = dst, rsi = val, r8 = out -/
@[asm] def cx16SwapKind : Op → Kind
  | .dst => .inp | .val => .inp | .out => .inp | .val_hi => .out | .prev_lo => .out | .prev_hi => .out
  | .rbx_tmp => .out | .x0 => .inout | .x3 => .inout | .x1 => .inout | .x4 => .inout | _ => .unused
/-- l.662-690 -/
@[asm] def cx16SwapAsm (al : Op → Nat) (b : Nat) (po pv : BitVec P) : List (Instr 64) := [
    mov (al .rbx_tmp) b,
    mov_ldp0 [⟨po, al .x0, al .x3⟩, ⟨pv, al .x1, al .x4⟩] b (al .val),
    mov_ldp1 [⟨po, al .x0, al .x3⟩, ⟨pv, al .x1, al .x4⟩] (al .val_hi) (al .val),
    mov_ld P 64 (al .prev_lo) (al .dst),
    mov_ld P 64 (al .prev_hi) (al .dst) 8,
    /- 2: -/ cmpxchg2 P 128 (al .dst) (al .prev_hi) (al .prev_lo) (al .val_hi) b,
    jne 5,
    mov_stp0 ⟨po, al .x0, al .x3⟩ (al .out) (al .prev_lo),
    mov_stp1 ⟨po, al .x0, al .x3⟩ (al .out) (al .prev_hi),
    mov b (al .rbx_tmp) ]
/-- l.636-694 -/
@[asm] def cx16SwapBlock (al : Alloc cx16SwapKind) (b : Nat) (po pv p : BitVec P) (val : BitVec 128) :
    Block 64 128 where
  code := cx16SwapAsm al b po pv
  args := [⟨al .dst, P, p⟩, ⟨al .val, P, pv⟩, ⟨al .out, P, po⟩, ⟨al .x1, 64, word0 .little 64 val⟩,
    ⟨al .x4, 64, word1 .little 64 val⟩]
  outs := al.Outs
  keepsFlags := false
  out rs := join01 .little 128 (rs.r (al .x0)) (rs.r (al .x3))

/-- operands of l.739-747: rax = old_lo, rcx = new_hi (leaving as `r`), rdx = old_hi (entering as the address of `new`),
rsi = old, rdi = dst, r8 = out; `in(r)` with `lateout(r)` is written `.inout` here, as different explicit registers are
never shared -/
@[asm] def cx16CasKind : Op → Kind
  | .dst => .inp | .out => .inp | .old => .inout | .old_hi => .inout | .old_lo => .out | .new_hi => .out
  | .rbx_tmp => .out
  | .x0 => .inout | .x3 => .inout | .x1 => .inout | .x4 => .inout | .x2 => .inout | .x5 => .inout | _ => .unused
/-- l.725-750 -/
@[asm] def cx16CasAsm (al : Op → Nat) (b : Nat) (po pold pnew : BitVec P) : List (Instr 64) := [
    mov (al .rbx_tmp) b,
    mov_ldp0 (casCells al po pold pnew) (al .old_lo) (al .old),
    mov_ldp1 (casCells al po pold pnew) (al .old) (al .old),
    mov_ldp0 (casCells al po pold pnew) b (al .old_hi),
    mov_ldp1 (casCells al po pold pnew) (al .new_hi) (al .old_hi),
    mov (al .old_hi) (al .old),
    cmpxchg2 P 128 (al .dst) (al .old_hi) (al .old_lo) (al .new_hi) b,
    sete (al .new_hi),
    mov_stp0 ⟨po, al .x0, al .x3⟩ (al .out) (al .old_lo),
    mov_stp1 ⟨po, al .x0, al .x3⟩ (al .out) (al .old_hi),
    mov b (al .rbx_tmp) ]
/-- l.695-756; l.751: `r.to_ne_bytes()[0]` -/
@[asm] def cx16CasBlock (al : Alloc cx16CasKind) (b : Nat) (po pold pnew p : BitVec P) (old new : BitVec 128) :
    Block 64 128 where
  code := cx16CasAsm al b po pold pnew
  args := [⟨al .dst, P, p⟩, ⟨al .out, P, po⟩, ⟨al .old, P, pold⟩, ⟨al .old_hi, P, pnew⟩,
    ⟨al .x1, 64, word0 .little 64 old⟩, ⟨al .x4, 64, word1 .little 64 old⟩, ⟨al .x2, 64, word0 .little 64 new⟩,
    ⟨al .x5, 64, word1 .little 64 new⟩]
  outs := al.Outs
  keepsFlags := false
  out rs := join01 .little 128 (rs.r (al .x0)) (rs.r (al .x3))
  ok rs := (rs.r (al .new_hi)).setWidth 8 != 0#8
  assumes rs := (rs.r (al .new_hi)).setWidth 8 = 0#8 ∨ (rs.r (al .new_hi)).setWidth 8 = 1#8
end

/-! ### Back ends -/

/-- Build configuration of x86 (32-bit); `no_cmpxchg` and `no_cmpxchg8b` are set by build.rs for i386/i486. -/
structure Conf32 where
  sse : Bool
  sse2 : Bool
  noCmpxchg : Bool
  noCmpxchg8b : Bool

/-- 32-bit `atomic_load` -/
inductive Load32 (c : Conf32) : Ordering → (w a : Nat) → Block 32 w → Prop
  | word (al o) {w} (po p : BitVec 32) (hw : Size 32 w) : Load32 c o w p.toNat (loadBlock al w po p)
  | sse2 (al o) (po p : BitVec 32) (h : c.noCmpxchg8b = false) (hc : c.sse = true) (hc2 : c.sse2 = true) :
      Load32 c o 64 p.toNat (sse2LoadBlock al po p)
  | sse (al o) (po p : BitVec 32) (h : c.noCmpxchg8b = false) (hc : c.sse = true) (hc2 : c.sse2 = false) :
      Load32 c o 64 p.toNat (sseLoadBlock al po p)
  | cx8 (al o) {b} (hb : Rbx al b) (po p : BitVec 32) (h : c.noCmpxchg8b = false) (hc : c.sse = false) :
      Load32 c o 64 p.toNat (cx8LoadBlock al b po p)
/-- 32-bit `atomic_store` -/
inductive Store32 (c : Conf32) : Ordering → (w a : Nat) → BitVec w → Block 32 w → Prop
  | word (al) {o w sc} (pv p : BitVec 32) (val : BitVec w) (hw : Size 32 w) (ho : storeArm o = some sc) :
      Store32 c o w p.toNat val (storeBlock al w sc pv p val)
  | sse (al) {o sc} (pv p : BitVec 32) (val : BitVec 64) (h : c.noCmpxchg8b = false) (hc : c.sse = true)
      (ho : storeArm o = some sc) : Store32 c o 64 p.toNat val (sseStoreBlock al c.sse2 sc pv p val)
  | cx8 (al o) (pv p : BitVec 32) (val : BitVec 64) (h : c.noCmpxchg8b = false) (hc : c.sse = false) :
      Store32 c o 64 p.toNat val (cx8StoreBlock al pv p val)
/-- 32-bit `atomic_swap` -/
inductive Swap32 (c : Conf32) : Ordering → (w a : Nat) → BitVec w → Block 32 w → Prop
  | word (al o) {w} (po pv p : BitVec 32) (val : BitVec w) (hw : Size 32 w) (hd : pv ≠ po) :
      Swap32 c o w p.toNat val (swapBlock al w po pv p val)
  | cx8 (al o) {b} (hb : Rbx al b) (po pv p : BitVec 32) (val : BitVec 64) (h : c.noCmpxchg8b = false) (hd : pv ≠ po) :
      Swap32 c o 64 p.toNat val (cx8SwapBlock al b po pv p val)
/-- 32-bit `atomic_compare_exchange`; the weak form defaults to it (src/raw.rs) -/
inductive Cas32 (c : Conf32) : Ordering → Ordering → (w a : Nat) → BitVec w → BitVec w → Block 32 w → Prop
  | word (al s f) {w} (po pold pnew p : BitVec 32) (old new : BitVec w) (hw : Size 32 w) (h : c.noCmpxchg = false)
      (hd : Distinct po pold pnew) : Cas32 c s f w p.toNat old new (casBlock al w po pold pnew p old new)
  | cx8 (al s f) {b} (hb : Rbx al b) (po pold pnew p : BitVec 32) (old new : BitVec 64) (h : c.noCmpxchg8b = false)
      (hd : Distinct po pold pnew) : Cas32 c s f 64 p.toNat old new (cx8CasBlock al b po pold pnew p old new)

/-- The 32-bit back end for old compilers. -/
def backend32 (c : Conf32) : Backend 32 where
  e := .little
  imp := imp
  Load := Load32 c
  Store := Store32 c
  Swap := Swap32 c
  Cas := Cas32 c
  CasWeak := Cas32 c

open X86 (Conf64)

/-- 64-bit `atomic_load` -/
inductive Load64 (c : Conf64) : Ordering → (w a : Nat) → Block 64 w → Prop
  | word (al o) {w} (po p : BitVec c.P) (hw : Size 64 w) : Load64 c o w p.toNat (loadBlock al w po p)
  | cx16 (al o) {b} (hb : Rbx al b) (po p : BitVec c.P) (h : c.cmpxchg16b = true) :
      Load64 c o 128 p.toNat (cx16LoadBlock al b po p)
/-- 64-bit `atomic_store` -/
inductive Store64 (c : Conf64) : Ordering → (w a : Nat) → BitVec w → Block 64 w → Prop
  | word (al) {o w sc} (pv p : BitVec c.P) (val : BitVec w) (hw : Size 64 w) (ho : storeArm o = some sc) :
      Store64 c o w p.toNat val (storeBlock al w sc pv p val)
  | cx16 (al o) {b} (hb : Rbx al b) (pv p : BitVec c.P) (val : BitVec 128) (h : c.cmpxchg16b = true) :
      Store64 c o 128 p.toNat val (cx16StoreBlock al b pv p val)
/-- 64-bit `atomic_swap` -/
inductive Swap64 (c : Conf64) : Ordering → (w a : Nat) → BitVec w → Block 64 w → Prop
  | word (al o) {w} (po pv p : BitVec c.P) (val : BitVec w) (hw : Size 64 w) (hd : pv ≠ po) :
      Swap64 c o w p.toNat val (swapBlock al w po pv p val)
  | cx16 (al o) {b} (hb : Rbx al b) (po pv p : BitVec c.P) (val : BitVec 128) (h : c.cmpxchg16b = true) (hd : pv ≠ po) :
      Swap64 c o 128 p.toNat val (cx16SwapBlock al b po pv p val)
/-- 64-bit `atomic_compare_exchange`; the weak form defaults to it (src/raw.rs) -/
inductive Cas64 (c : Conf64) : Ordering → Ordering → (w a : Nat) → BitVec w → BitVec w → Block 64 w → Prop
  | word (al s f) {w} (po pold pnew p : BitVec c.P) (old new : BitVec w) (hw : Size 64 w) (hd : Distinct po pold pnew) :
      Cas64 c s f w p.toNat old new (casBlock al w po pold pnew p old new)
  | cx16 (al s f) {b} (hb : Rbx al b) (po pold pnew p : BitVec c.P) (old new : BitVec 128) (h : c.cmpxchg16b = true)
      (hd : Distinct po pold pnew) : Cas64 c s f 128 p.toNat old new (cx16CasBlock al b po pold pnew p old new)

/-- The 64-bit back end for old compilers. -/
def backend64 (c : Conf64) : Backend 64 where
  e := .little
  imp := imp
  Load := Load64 c
  Store := Store64 c
  Swap := Swap64 c
  Cas := Cas64 c
  CasWeak := Cas64 c

end Verif.LegacyX86
