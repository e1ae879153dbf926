/-
C29 for the other back ends whose machine has store buffers: the x86 back ends for old compilers, s390x
(z/Architecture orders everything but a write before a later read; `cs`, `csg`, `cdsg` and `bcr 14/15, 0` serialize)
and SPARC (TSO, the memory model of V8 and the default one of V9).
-/
import Verif.Props.TSO
import Verif.Props.LegacyMore

namespace Verif

theorem LegacyX86.drained32 (c : LegacyX86.Conf32) (k : Call) (B : Block 32 k.width) (hp : k.StoresSeqCst)
    (h : (LegacyX86.backend32 c).Runs k B) : Drained B.code := by
  cases k with
  | load o w a => cases h <;> drained
  | store o w a v =>
    have hp : o = .seqCst := hp
    subst hp
    cases h with
    | word al pv p _ hw ho => cases ho; drained
    | sse al pv p _ h hc ho =>
      cases ho
      generalize c.sse2 = b
      cases b <;> drained
    | cx8 al _ pv p _ h hc => drained
  | swap o w a v => cases h <;> drained
  | cas s f w a old new => cases h <;> drained
  | casWeak s f w a old new => cases h <;> drained

theorem LegacyX86.drained64 (c : X86.Conf64) (k : Call) (B : Block 64 k.width) (hp : k.StoresSeqCst)
    (h : (LegacyX86.backend64 c).Runs k B) : Drained B.code := by
  cases k with
  | load o w a => cases h <;> drained
  | store o w a v =>
    have hp : o = .seqCst := hp
    subst hp
    cases h with
    | word al pv p _ hw ho => cases ho; drained
    | cx16 al _ hb pv p _ h => drained
  | swap o w a v => cases h <;> drained
  | cas s f w a old new => cases h <;> drained
  | casWeak s f w a old new => cases h <;> drained

theorem S390x.drained (k : Call) (B : Block 64 k.width) (hp : k.StoresSeqCst)
    (h : S390x.backend.Runs k B) : Drained B.code := by
  cases k with
  | load o w a => cases h <;> drained
  | store o w a v =>
    have hp : o = .seqCst := hp
    subst hp
    cases h with
    | word al p _ hw ho => cases ho; drained
    | quad al p _ ho => cases ho; drained
  | swap o w a v => cases h <;> drained
  | cas s f w a old new => cases h <;> drained
  | casWeak s f w a old new => cases h <;> drained

theorem Sparc.drained {W : Nat} (v9 : Bool) (k : Call) (B : Block W k.width) (hp : k.StoresSeqCst)
    (h : (Sparc.backend W v9).Runs k B) : Drained B.code := by
  cases k with
  | load o w a => cases h <;> drained
  | store o w a v =>
    have hp : o = .seqCst := hp
    subst hp
    cases h with
    | mk al p _ hw hf => cases v9 <;> (cases hf; drained)
  | swap o w a v => cases h <;> drained
  | cas s f w a old new => cases v9 <;> cases h <;> drained
  | casWeak s f w a old new => cases v9 <;> cases h <;> drained

/-- C29 on x86 (32-bit), old compilers. -/
theorem C29_legacy_x86 (c : LegacyX86.Conf32) : (LegacyX86.backend32 c).SCOnTSO Call.StoresSeqCst :=
  Backend.scOnTSO (fun k B hp _ h => LegacyX86.drained32 c k B hp h) ((C21_legacy_x86 c).mono fun _ _ => trivial)
/-- C29 on x86_64, old compilers. -/
theorem C29_legacy_x86_64 (c : X86.Conf64) : (LegacyX86.backend64 c).SCOnTSO Call.StoresSeqCst :=
  Backend.scOnTSO (fun k B hp _ h => LegacyX86.drained64 c k B hp h) ((C21_legacy_x86_64 c).mono fun _ _ => trivial)
/-- C29 on s390x. -/
theorem C29_s390x : S390x.backend.SCOnTSO Call.StoresSeqCst :=
  Backend.scOnTSO (fun k B hp _ h => S390x.drained k B hp h) (C21_s390x.mono fun _ _ => trivial)
/-- C29 on SPARC under TSO. -/
theorem C29_sparc {W : Nat} (hW : W = 32 ∨ W = 64) (v9 : Bool) : (Sparc.backend W v9).SCOnTSO Call.StoresSeqCst :=
  Backend.scOnTSO (fun k B hp _ h => Sparc.drained v9 k B hp h) ((C21_sparc hW v9).mono fun _ _ => trivial)

theorem C29_lamport_legacy_x86 (c : LegacyX86.Conf32) : (LegacyX86.backend32 c).LamportOnTSO Call.StoresSeqCst :=
  (C29_legacy_x86 c).lamport
theorem C29_lamport_legacy_x86_64 (c : X86.Conf64) : (LegacyX86.backend64 c).LamportOnTSO Call.StoresSeqCst :=
  (C29_legacy_x86_64 c).lamport
theorem C29_lamport_s390x : S390x.backend.LamportOnTSO Call.StoresSeqCst := C29_s390x.lamport
theorem C29_lamport_sparc {W : Nat} (hW : W = 32 ∨ W = 64) (v9 : Bool) :
    (Sparc.backend W v9).LamportOnTSO Call.StoresSeqCst := (C29_sparc hW v9).lamport

end Verif
