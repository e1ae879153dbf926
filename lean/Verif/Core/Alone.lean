/-
What a thread that runs alone computes (for C20): symbolic execution of quiet runs with a postcondition.
-/
import Verif.Core.Progress
import Verif.Props.Solo

namespace Verif

/-- The thread executes instructions, and nobody interferes (`QStep`). -/
inductive QSteps (e : Endian) {W : Nat} (P : List (Instr W)) (c : Cfg W) : Cfg W → Prop where
  | refl : QSteps e P c c
  | step {c1 c2 i} (h : QSteps e P c c1) (hi : P[c1.pc]? = some i) (hq : QStep e i c1 c2) : QSteps e P c c2

/-- The block was called with memory `m`, ran alone, and is finished: with memory `m'` and registers `rs`. -/
def Block.Alone {W w : Nat} (e : Endian) (B : Block W w) (m : Mem) (rs : RS W) (m' : Mem) : Prop :=
  ∃ c0 c, c0.pc = 0 ∧ B.pre c0.rs ∧ c0.mem = m ∧ QSteps e B.code c0 c ∧ c.pc = B.code.length ∧ c.rs = rs ∧ c.mem = m'

/-- The trace consists of own events. -/
theorem QSteps.run {e : Endian} {W : Nat} {P : List (Instr W)} {c c' : Cfg W} (h : QSteps e P c c') :
    ∃ tr, Run e P c tr c' ∧ Undisturbed tr := by
  induction h with
  | refl => exact ⟨[], .nil, fun _ _ h => by cases h⟩
  | step _ hi hq ih =>
    obtain ⟨tr, h1, h2⟩ := ih
    obtain ⟨ev, hs, _⟩ := hq
    refine ⟨_, h1.own hi hs, fun m m' h => ?_⟩
    rcases List.mem_append.1 h with h | h
    · exact h2 m m' h
    · simp at h

theorem Block.Alone.quiet {W w : Nat} {e : Endian} {B : Block W w} {m m' : Mem} {rs : RS W} (h : B.Alone e m rs m') :
    ∃ rs0, B.QuietRun e rs0 m m' rs := by
  obtain ⟨c0, c, h1, h2, h3, h4, h5, h6, h7⟩ := h
  obtain ⟨tr, hr, hu⟩ := h4.run
  exact ⟨c0.rs, c0, c, tr, h1, rfl, h3, h2, hr, h5, h7, h6, hu⟩

/-- Symbolic execution of quiet runs with the postcondition `Q` on registers and memory. -/
def qpost (e : Endian) {W : Nat} (P : List (Instr W)) (Q : RS W → Mem → Prop) : Nat → QAssn W
  | 0, _ => fun _ _ _ => False
  | n + 1, pc => match P[pc]? with
    | some i => qIns e (qpost e P Q n) i pc
    | none => fun rs m _ => Q rs m

attribute [asm] qpost

theorem qpost_sound {e : Endian} {W : Nat} {P : List (Instr W)} {Q : RS W → Mem → Prop} {n : Nat} {c c' : Cfg W}
    (h : qpost e P Q n c.pc c.rs c.mem c.resv) (hs : QSteps e P c c') (hc : c'.pc = P.length) : Q c'.rs c'.mem := by
  have key : ∀ {c'}, QSteps e P c c' → ∃ n, qpost e P Q n c'.pc c'.rs c'.mem c'.resv := by
    intro c' hs
    induction hs with
    | refl => exact ⟨n, h⟩
    | step _ hi hq ih =>
      obtain ⟨n, hn⟩ := ih
      cases n with
      | zero => exact hn.elim
      | succ n =>
        simp only [qpost, hi] at hn
        exact ⟨n, (qIns_sound hn).2 _ hq⟩
  obtain ⟨n, hn⟩ := key hs
  cases n with
  | zero => exact hn.elim
  | succ n =>
    simp only [qpost, hc, List.getElem?_eq_none (Nat.le_refl P.length)] at hn
    exact hn

/-- Proof rule for loop-free blocks. -/
theorem Block.Alone.post {W w : Nat} {e : Endian} {B : Block W w} {Q : Mem → RS W → Prop} (n : Nat)
    (hq : ∀ rs m resv, B.pre rs → qpost e B.code (fun rs' _ => Q m rs') n 0 rs m resv)
    {m m' : Mem} {rs : RS W} (h : B.Alone e m rs m') : Q m rs := by
  obtain ⟨c0, c, h1, h2, h3, h4, h5, h6, h7⟩ := h
  subst h3 h6
  have := hq c0.rs c0.mem c0.resv h2
  rw [← h1] at this
  exact qpost_sound this h4 h5

/-- C20, one call: a weak compare_exchange of an object of a size in `S` that runs alone is a compare_exchange, so if the
object holds the expected value, it succeeds. -/
def Backend.WeakAlone {W : Nat} (A : Backend W) (S : Nat → Prop) : Prop :=
  ∀ s f w a old new B, S w → A.CasWeak s f w a old new B → ∀ m rs m', B.Alone A.e m rs m' →
    CasSpec A.e a w old new m m' (B.out rs) (B.ok rs)

theorem Backend.weakAlone_of {W : Nat} {A : Backend W} {S : Nat → Prop} (h5 : A.WeakCasAtomic)
    (h : ∀ s f w a old new B, S w → A.CasWeak s f w a old new B → ∀ m rs m', B.Alone A.e m rs m' →
      load A.e m a w = old → B.ok rs = true) : A.WeakAlone S := by
  intro s f w a old new B hS hB m rs m' hr
  obtain ⟨rs0, hq⟩ := hr.quiet
  obtain ⟨h1, h2⟩ := (h5 s f w a old new B hB).quiet hq
  refine ⟨h1, ?_⟩
  rcases h2 with h2 | ⟨h2, h3⟩
  · exact .inl h2
  · refine .inr ⟨fun hl => ?_, h2, h3⟩
    rw [h s f w a old new B hS hB m rs m' hr hl] at h2; cases h2

/-- Where `compare_exchange_weak` is `compare_exchange`. -/
theorem Backend.weakAlone_strong {W : Nat} {A : Backend W} {S : Nat → Prop}
    (h : ∀ s f w a old new B, S w → A.CasWeak s f w a old new B →
      B.Atomic A.e fun m m' rs => CasSpec A.e a w old new m m' (B.out rs) (B.ok rs)) : A.WeakAlone S := by
  intro s f w a old new B hS hB m rs m' hr
  obtain ⟨rs0, hq⟩ := hr.quiet
  exact (h s f w a old new B hS hB).quiet hq

/-- On a single core. -/
theorem IBackend.weakAlone {W : Nat} {A : IBackend W} (h4 : A.CasAtomic)
    (hc : ∀ s f w a old new B, A.CasWeak s f w a old new B → A.Cas s f w a old new B := by exact fun _ _ _ _ _ _ _ h => h) :
    A.toBackend.WeakAlone fun _ => True := by
  rintro s f w a old new B - hB m rs m' ⟨c0, c, h1, h2, h3, h4', h5, h6, h7⟩
  have key : ∀ {c : Cfg W}, QSteps A.e B.code c0 c → ∃ tr, IRun A.e A.ien B.code c0 tr c ∧ Undisturbed tr := by
    intro c h
    induction h with
    | refl => exact ⟨[], .nil, fun _ _ h => by cases h⟩
    | step _ hi hq ih =>
      obtain ⟨tr, r1, r2⟩ := ih
      obtain ⟨ev, hs, _⟩ := hq
      refine ⟨_, r1.own hi hs, fun m m' h => ?_⟩
      rcases List.mem_append.1 h with h | h
      · exact r2 m m' h
      · simp at h
  obtain ⟨tr, hr, hu⟩ := key h4'
  exact section_quiet (h4 s f w a old new B (hc _ _ _ _ _ _ _ hB)) ⟨c0, c, tr, h1, rfl, h3, h2, hr, h5, h7, h6, hu⟩

end Verif
