/-
A back end some of whose compare_exchange blocks are only ever entered in certain register states (the compiler puts
more into the operand registers than the Rust reference promises, for instance a sign-extended value). What holds of
the back end holds of the narrowed one.
-/
import Verif.Core.BackendLemmas
import Verif.Core.Progress
import Verif.Access.Spec
import Verif.Weak.Sync
import Verif.Weak.NonMCASync

namespace Verif
variable {W : Nat}

/-- The back end with other compare_exchange blocks. -/
def Backend.withCas (A : Backend W)
    (C : Ordering → Ordering → (w a : Nat) → BitVec w → BitVec w → Block W w → Prop) : Backend W :=
  { A with Cas := C, CasWeak := C }

/-- The first block is the second one, entered in fewer register states. -/
def Block.Narrows {w : Nat} (B B0 : Block W w) : Prop :=
  ∃ args, B = { B0 with args := args } ∧ ∀ rs, B.pre rs → B0.pre rs

/-- `args` demanded of the operand registers in addition to what the block demands. -/
def Block.assuming {w : Nat} (B : Block W w) (x : Arg) : Block W w := { B with args := x :: B.args }

theorem Block.assuming_narrows {w : Nat} (B : Block W w) (x : Arg) : (B.assuming x).Narrows B :=
  ⟨_, rfl, fun _ h y hy => h y (List.mem_cons_of_mem _ hy)⟩

/-- Every block of `C` narrows one of `A`, for the strong and for the weak form. -/
def Backend.NarrowedBy (A : Backend W)
    (C : Ordering → Ordering → (w a : Nat) → BitVec w → BitVec w → Block W w → Prop) : Prop :=
  ∀ s f w a old new B, C s f w a old new B →
    ∃ B0, (A.Cas s f w a old new B0 ∧ A.CasWeak s f w a old new B0) ∧ B.Narrows B0

variable {A : Backend W} {C : Ordering → Ordering → (w a : Nat) → BitVec w → BitVec w → Block W w → Prop}

theorem Good.withCas {sc : List Mon} (h : Good A sc) (hC : A.NarrowedBy C) : Good (A.withCas C) sc where
  load := h.load
  store := h.store
  swap := h.swap
  cas := fun s f w a old new B hB => by
    obtain ⟨B0, ⟨h0, _⟩, args, rfl, hp⟩ := hC s f w a old new B hB
    exact (h.cas s f w a old new B0 h0).mono hp fun _ _ _ _ h => h
  casWeak := fun s f w a old new B hB => by
    obtain ⟨B0, ⟨_, h0⟩, args, rfl, hp⟩ := hC s f w a old new B hB
    exact (h.casWeak s f w a old new B0 h0).mono hp fun _ _ _ _ h => h
  ord := h.ord

theorem Backend.withCas_progress (h : A.ProgressOK) (hC : A.NarrowedBy C) : (A.withCas C).ProgressOK := by
  have key : ∀ {s f w a old new} {B : Block W w}, C s f w a old new B → B.Progress A.e := by
    intro s f w a old new B hB
    obtain ⟨B0, ⟨h0, _⟩, args, rfl, hp⟩ := hC s f w a old new B hB
    obtain ⟨N, hN, hf⟩ := h B0 (.cas h0)
    exact ⟨N, hN, fun c0 tr c h1 h2 => hf c0 tr c h1 (hp _ h2)⟩
  intro w B hB
  cases hB with
  | load hB => exact h B (.load hB)
  | store hB => exact h B (.store hB)
  | swap hB => exact h B (.swap hB)
  | cas hB => exact key hB
  | casWeak hB => exact key hB

theorem Backend.withCas_accesses {st sw cas : Nat} (h : A.AccessesOK (gran st sw cas)) (hC : A.NarrowedBy C) :
    (A.withCas C).AccessesOK (gran st sw cas) := by
  intro c B hB hal
  cases c with
  | load o w a => exact h (.load o w a) B hB hal
  | store o w a v => exact h (.store o w a v) B hB hal
  | swap o w a v => exact h (.swap o w a v) B hB hal
  | cas s f w a old new =>
    obtain ⟨B0, ⟨h0, _⟩, args, rfl, hp⟩ := hC s f w a old new B hB
    intro c0 tr c i x n h1 h2
    exact h (.cas s f w a old new) B0 h0 hal c0 tr c i x n h1 (hp _ h2)
  | casWeak s f w a old new =>
    obtain ⟨B0, ⟨_, h0⟩, args, rfl, hp⟩ := hC s f w a old new B hB
    intro c0 tr c i x n h1 h2
    exact h (.casWeak s f w a old new) B0 h0 hal c0 tr c i x n h1 (hp _ h2)

theorem Backend.withCas_code {p : List (Instr W) → Prop} (h : ∀ c (B : Block W c.width), A.Runs c B → p B.code)
    (hC : A.NarrowedBy C) : ∀ c (B : Block W c.width), (A.withCas C).Runs c B → p B.code := by
  intro c B hB
  cases c with
  | load o w a => exact h (.load o w a) B hB
  | store o w a v => exact h (.store o w a v) B hB
  | swap o w a v => exact h (.swap o w a v) B hB
  | cas s f w a old new =>
    obtain ⟨B0, ⟨h0, _⟩, args, rfl, hp⟩ := hC s f w a old new B hB
    exact h (.cas s f w a old new) B0 h0
  | casWeak s f w a old new =>
    obtain ⟨B0, ⟨_, h0⟩, args, rfl, hp⟩ := hC s f w a old new B hB
    exact h (.casWeak s f w a old new) B0 h0

theorem Backend.withCas_paired (h : A.Paired) (hC : A.NarrowedBy C) : (A.withCas C).Paired :=
  Backend.withCas_code (p := fun l => ∀ i ∈ l, ∀ j ∈ l, j.isSC = true → i.isPlainRead = false) h hC

theorem Backend.withCas_barriersOnly (h : A.BarriersOnly) (hC : A.NarrowedBy C) : (A.withCas C).BarriersOnly :=
  Backend.withCas_code (p := fun l => ∀ i ∈ l, i.barriersOnly = true) h hC

end Verif
