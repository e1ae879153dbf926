#!/usr/bin/env python3
"""Writes lean/Verif/Props/SignExt.lean: the properties that riscv64, mips64 and loongarch64 lack, under the assumption that
the compiler sign-extends 32-bit operands."""
import os
HERE = os.path.dirname(os.path.abspath(__file__))
OUT = os.path.join(HERE, "..", "lean", "Verif", "Props", "SignExt.lean")

HEAD = '''/-
riscv64, mips64 and loongarch64, if the compiler sign-extends the `old` operand of 32-bit compare_exchanges.

On these targets `C04_*_word_fails` and what follows from it (`C18_*_violated`, `C45_*_violated`, `C52_*_violated`) come
from register states in which the upper half of the register with `old` is not the sign extension of the lower half; the Rust
reference leaves that half undefined, and the crate does not set it. Here: on back ends whose compare_exchange blocks are
only entered with `old` sign-extended, everything the `_partial` theorems exclude holds. So the missing sign extension is
the only reason for these violations. The theorems are called `_partial` since the assumption is not the crate's
to make. Generated by tools/signext.py.
-/
import Verif.Lin.Narrow
import Verif.Weak.MixedFence
import Verif.Weak.SeqlockProof
import Verif.Weak.DekkerProof
import Verif.Weak.Barriers
import Verif.Props.Access
import Verif.Props.Weak
import Verif.Props.Coherence
import Verif.Props.DRF
import Verif.Props.FenceSC
import Verif.Props.NonMCA
import Verif.Props.Alone
import Verif.Props.MethodsLockFree
import Verif.Props.Signal
import Verif.Props.Methods
import Verif.Props.Garbage
import Verif.Props.HW

'''

ARCH = [
 dict(gran="1 (if z then 1 else 4) 4", N="RiscV", k="riscv64", bi="(e : Endian) (z : Bool)", ar="e z", base="backend e 64 z", args="e 64 z", lines="l.206-253, l.310-371",
  ctor='''  | word (al s f) {w} (p : BitVec 64) (old new : BitVec w) (hw : WordSize 64 w)
      (hv : assertCompareExchangeOrdering s f = .ok ()) :
      CasSx e s f w p.toNat old new ((casBlock al w (lrscOrder (upgradeSuccessOrdering s f)) p old new).assuming
        ⟨al .old, 64, old.signExtend 64⟩)
  | sub (al s f) {w P} (p : BitVec P) (old new : BitVec w) (hw : SubSize w)
      (hv : assertCompareExchangeOrdering s f = .ok ()) (hal : SubPtr 64 w p) :
      CasSx e s f w p.toNat old new
        (subCasBlock e al w (lrscOrder (upgradeSuccessOrdering s f)) p old new)
''',
  pat="⟨al, _, _, p, _, _, hw, hv⟩ | ⟨al, _, _, p, _, _, hw, hv, hal⟩",
  w="⟨_, ⟨.word al _ _ p _ _ hw hv, .word al _ _ p _ _ hw hv⟩, Block.assuming_narrows _ _⟩",
  s="⟨_, ⟨.sub al _ _ p _ _ hw hv hal, .sub al _ _ p _ _ hw hv hal⟩, _, rfl, fun _ h => h⟩",
  good="good' e (.inr rfl) z", prog="C20_riscv e (.inr rfl) z", acc="C39_riscv e (.inr rfl) z", paired="RiscV.paired e 64 z",
  ex=".little false", nonmca=False),
 dict(gran="1 4 4", N="Mips", k="mips64", bi="(e : Endian)", ar="e", base="backend e 64", args="e 64", lines="l.147-197, l.251-313",
  ctor='''  | word (al s f) {w} (p : BitVec 64) (old new : BitVec w) (hw : WordSize 64 w)
      (hv : assertCompareExchangeOrdering s f = .ok ()) :
      CasSx e s f w p.toNat old new ((casBlock al w (rmwFences (upgradeSuccessOrdering s f)) p old new).assuming
        ⟨al .old, 64, old.signExtend 64⟩)
  | sub (al s f) {w P} (p : BitVec P) (old new : BitVec w) (hw : SubSize w)
      (hv : assertCompareExchangeOrdering s f = .ok ()) (hal : SubPtr 64 w p) :
      CasSx e s f w p.toNat old new
        (subCasBlock e al w (rmwFences (upgradeSuccessOrdering s f)) p old new)
''',
  pat="⟨al, _, _, p, _, _, hw, hv⟩ | ⟨al, _, _, p, _, _, hw, hv, hal⟩",
  w="⟨_, ⟨.word al _ _ p _ _ hw hv, .word al _ _ p _ _ hw hv⟩, Block.assuming_narrows _ _⟩",
  s="⟨_, ⟨.sub al _ _ p _ _ hw hv hal, .sub al _ _ p _ _ hw hv hal⟩, _, rfl, fun _ h => h⟩",
  good="good' e (.inr rfl)", prog="C20_mips e (.inr rfl)", acc="C39_mips e (.inr rfl)", paired="Mips.paired e 64",
  ex=".big", nonmca=True),
 dict(gran="1 4 4", N="LoongArch", k="loongarch64", bi="(e : Endian)", ar="e", base="backend e 64", args="e 64", lines="l.121-168, l.250-310",
  ctor='''  | word (al s) {f w} (p : BitVec 64) (old new : BitVec w) (hw : WordSize 64 w) {ff} (hf : failFence f = some ff) :
      CasSx e s f w p.toNat old new ((casBlock al w ff p old new).assuming ⟨al .old, 64, old.signExtend 64⟩)
  | sub (al s) {f w P} (p : BitVec P) (old new : BitVec w) (hw : SubSize w) {ff} (hf : failFence f = some ff)
      (hal : SubPtr 64 w p) : CasSx e s f w p.toNat old new (subCasBlock e al w ff p old new)
''',
  pat="⟨al, _, p, _, _, hw, hv⟩ | ⟨al, _, p, _, _, hw, hv, hal⟩",
  w="⟨_, ⟨.word al _ p _ _ hw hv, .word al _ p _ _ hw hv⟩, Block.assuming_narrows _ _⟩",
  s="⟨_, ⟨.sub al _ p _ _ hw hv hal, .sub al _ p _ _ hw hv hal⟩, _, rfl, fun _ h => h⟩",
  good="good' e", prog="C20_loongarch e", acc="C39_loongarch e", paired="LoongArch.paired e 64",
  ex=".little", nonmca=False),
]

def arch(a):
    N, k, bi, ar = a["N"], a["k"], a["bi"], a["ar"]
    S = f"({N}.backendSx {ar})"
    T = f"_{k}_signext_partial {bi} : {S}"
    g, c, n = f"({N}.goodSx {ar})", f"({N}.C04_sx_{k}_signext_partial {ar})", f"({N}.narrowedSx {ar})"
    loc = f"({g}.localOps fun s f w a old new B _ => {N}.C04_sx_{k}_signext_partial {ar} s f w a old new B)"
    acc = f"({N}.accessesSx {ar})"
    ordk = f"({N}.orderingsSx {ar})"
    pr, prog = f"({N}.pairedSx {ar})", f"({N}.progressSx {ar})"
    weak = f"{g}.weakCasAtomic"
    o = [f'''namespace {N}
/-- `atomic_compare_exchange` ({a["lines"]}) as `Cas`, entered with `old` sign-extended to the width of the register. -/
inductive CasSx (e : Endian) : Ordering → Ordering → (w a : Nat) → BitVec w → BitVec w → Block 64 w → Prop
{a["ctor"]}
/-- The back end with these compare_exchanges, strong and weak. -/
def backendSx {bi} : Backend 64 := ({a["base"]}).withCas (CasSx e)

theorem narrowedSx {bi} : ({a["base"]}).NarrowedBy (CasSx e) := by
  rintro s f w a old new B ({a["pat"]})
  · exact {a["w"]}
  · exact {a["s"]}

theorem goodSx {bi} : Good (backendSx {ar}) scMons := ({a["good"]}).withCas (narrowedSx {ar})
theorem progressSx {bi} : (backendSx {ar}).ProgressOK := Backend.withCas_progress ({a["prog"]}) (narrowedSx {ar})
theorem accessesSx {bi} : (backendSx {ar}).AccessesOK (gran {a["gran"]}) := Backend.withCas_accesses ({a["acc"]}) (narrowedSx {ar})
theorem pairedSx {bi} : (backendSx {ar}).Paired := Backend.withCas_paired ({a["paired"]}) (narrowedSx {ar})
theorem orderingsSx {bi} : (backendSx {ar}).OrderingsOK :=
  Backend.orderingsOK (goodSx {ar}).acquireOK (goodSx {ar}).releaseOK (goodSx {ar}).seqCstOK (goodSx {ar}).failureOK

/-- C04 on {k} for all sizes, if the compiler sign-extends `old`. -/
theorem C04_sx_{k}_signext_partial {bi} : (backendSx {ar}).CasAtomic := by
  rintro s f w a old new B ({a["pat"]})
  · rintro tr rs ⟨c0, c, h1, h2, h3, h4, rfl⟩
    have h5 : c0.rs.r (al .old) = old.signExtend 64 := by
      have := h2 _ List.mem_cons_self
      simpa using this
    exact cas_word_strong e (by decide) al hw _ p old new _ rfl c0 tr c h1 (fun y hy => h2 y (List.mem_cons_of_mem _ hy)) h5 h3 h4
  · exact (sub_cas_impl e al (by decide) hw _ p hal old new _ rfl).atomic fun _ _ _ _ h => h.1.1
end {N}
''']
    th = o.append
    th(f'''/-- C04 of the method on {k}, if the compiler sign-extends `old`. -/
theorem C04_methods{T}.CasMethodAtomic fun _ => True :=
  Backend.casMethodAtomic' {c}
/-- C18 on {k}, if the compiler sign-extends `old` (without that: `C18_{k}_violated`). -/
theorem C18{T}.GarbageOK fun _ => True :=
  Backend.garbageOK {g}.loadsAtomic {g}.storesAtomic {g}.swapsAtomic (fun s f w a old new B _ => {N}.C04_sx_{k}_signext_partial {ar} s f w a old new B) {weak}
/-- C21 on {k}, if the compiler sign-extends `old`. -/
theorem C21{T}.Linearizable fun _ => True :=
  Backend.linearizable_of _ {g}.loadsAtomic {g}.storesAtomic {g}.swapsAtomic (fun s f w a old new B _ => {N}.C04_sx_{k}_signext_partial {ar} s f w a old new B) {weak} {prog}
theorem C21_hw{T}.Herlihy fun _ => True := (C21_{k}_signext_partial {ar}).herlihy
/-- C57 on {k}, if the compiler sign-extends `old`. -/
theorem C57{T}.SignalSafe fun _ => True :=
  Backend.signalSafe (C21_{k}_signext_partial {ar}) {prog}
/-- C41 on {k}, if the compiler sign-extends `old`. -/
theorem C41{T}.SCOnWeak Call.SeqCstOnly :=
  {g}.scOnWeak {c} {ordk}
/-- C42 on {k}, if the compiler sign-extends `old`. -/
theorem C42{T}.Coherent fun _ => True :=
  {g}.coherent {c} {acc}
/-- C45 on {k}, if the compiler sign-extends `old` (without that: `C45_{k}_violated`). -/
theorem C45{T}.MethodsFinish fun _ => True :=
  Backend.methodsFinish {prog} (Backend.weakAlone_strong fun s f w a old new B _ => {N}.C04_sx_{k}_signext_partial {ar} s f w a old new B)
/-- C49 on {k}, if the compiler sign-extends `old`. -/
theorem C49{T}.RaceFreeSC Call.SeqCstOnly :=
  {g}.raceFreeSC {c} {ordk} {pr} {acc}
/-- C52 on {k}, if the compiler sign-extends `old` (without that: `C52_{k}_violated`). -/
theorem C52_{k}_signext_partial {bi} (P) : {S}.MethodsLockFree (fun _ => True) P :=
  Backend.methodsLockFree P ({g}.writesOnce {prog}) {prog} {weak}
    (Backend.quietFailure_strong fun s f w a old new B _ => {N}.C04_sx_{k}_signext_partial {ar} s f w a old new B) (C45_{k}_signext_partial {ar})
/-- C54 on {k}, if the compiler sign-extends `old`. -/
theorem C54{T}.FencesSC fun _ => True :=
  {g}.fencesSC {c} {ordk}
/-- C59 on {k}, if the compiler sign-extends `old`. -/
theorem C59{T}.MixedHistory fun _ => True :=
  {g}.mixedHistory {loc} {pr} {acc}
theorem C59_coherent{T}.MixedCoherent fun _ => True :=
  Backend.mixedCoherent {loc} {acc}
/-- C60 on {k}, if the compiler sign-extends `old`. -/
theorem C60{T}.MixedHistoryFenced fun _ => True :=
  {g}.mixedHistoryFenced {loc} {pr} {acc}
/-- C61 on {k}, if the compiler sign-extends `old`. -/
theorem C61{T}.SeqlockReads fun _ => True :=
  {g}.seqlockReads {loc} {pr} {acc}
/-- C62 on {k}, if the compiler sign-extends `old`. -/
theorem C62{T}.FencedStoresSeen fun _ => True :=
  {g}.fencedStoresSeen {loc} {pr} {acc}
''')
    if a["nonmca"]:
        b = f"({N}.barriersSx {ar})"
        th(f'''theorem {N}.barriersSx {bi} : {S}.BarriersOnly := Backend.withCas_barriersOnly (Mips.barriersOnly e 64) ({N}.narrowedSx {ar})
/-- Without multi-copy atomicity. -/
theorem C41_nonmca{T}.SCOnNonMCA Call.SeqCstOnly :=
  {g}.scOnNonMCA {c} {acc} (.inr (by decide))
theorem C49_nonmca{T}.RaceFreeSCNonMCA Call.SeqCstOnly :=
  {g}.raceFreeSCNonMCA {c} {ordk} {pr} {acc} {b} rfl (.inr (by decide))
theorem C54_nonmca{T}.FencesSCOnNonMCA fun _ => True :=
  {g}.fencesSCOnNonMCA {c} {acc} (.inr (by decide))
theorem C59_nonmca{T}.MixedHistoryNonMCA fun _ => True :=
  {g}.mixedHistoryNonMCA {loc} {pr} {acc} {b} rfl
theorem C60_nonmca{T}.MixedHistoryFencedNonMCA fun _ => True :=
  {g}.mixedHistoryFencedNonMCA {loc} {pr} {acc} {b} rfl
theorem C61_nonmca{T}.SeqlockReadsNonMCA fun _ => True :=
  {g}.seqlockReadsNonMCA {loc} {pr} {acc} {b} rfl
theorem C62_nonmca{T}.FencedStoresSeenNonMCA fun _ => True :=
  {g}.fencedStoresSeenNonMCA {loc} {pr} {acc} {b} rfl
''')
    extra = ".seqCst .acquire" if N != "LoongArch" else ".seqCst (f := .acquire)"
    ex = f"({N}.backendSx {a['ex']})"
    end = a["ex"].split()[0]
    th(f'''/-- The assumption can be met: a 32-bit compare_exchange of a negative value runs to its end. -/
example : ∃ (B : Block 64 32) (tr : List TEv) (rs : RS 64), {ex}.Cas .seqCst .acquire 32 0x1000 0x80000000#32 5#32 B ∧
    B.Completed {ex}.e tr rs := by
  have hB := {N}.CasSx.word (e := {end}) (Alloc.std {N}.casKind) {extra} 0x1000#64 0x80000000#32 5#32 (.inl rfl) rfl
  have hp := {N}.progressSx {a['ex']} _ (.cas hB)
  obtain ⟨tr, rs, h⟩ := hp.completed (rs := ⟨fun i => if i = (Alloc.std {N}.casKind) .dst then 0x1000#64
    else if i = (Alloc.std {N}.casKind) .old then 0xffffffff80000000#64 else 5#64, false, 0⟩) (by
      intro x hx
      simp only [Block.assuming, {N}.casBlock, List.mem_cons, List.not_mem_nil, or_false] at hx
      rcases hx with rfl | rfl | rfl | rfl <;> simp)
  exact ⟨_, tr, rs, hB, h⟩
''')
    return "\n".join(o)

with open(OUT, "w") as f:
    f.write(HEAD + "namespace Verif\n\n" + "\n".join(arch(a) for a in ARCH) + "\nend Verif\n")
