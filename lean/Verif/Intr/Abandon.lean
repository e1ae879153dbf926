/-
Abandoned operations on one core with interrupts (AVR, MSP430): what a handler can find.
-/
import Verif.Intr.Certs
import Verif.Lin.Abandon

namespace Verif

/-- C40 with interrupts. At every moment of every run of an operation, finished or not, at which an interrupt can be taken (so
at every moment at which anybody else can look at memory): either the own steps so far have changed nothing (seen from
outside), or they have, in one uninterrupted section, done the whole effect of the operation. -/
def IBackend.AllOrNothing {W : Nat} (A : IBackend W) : Prop :=
  ∀ (c : Call) (B : Block W c.width), A.Runs c B → ∀ (c0 : Cfg W) tr cfg, c0.pc = 0 → B.pre c0.rs →
    IRun A.e A.ien B.code c0 tr cfg → A.ien cfg.rs = true →
    NoChange tr ∨ AtomicSection tr (fun m m' => m' = m) ∨ AtomicSection tr (fun m m' => c.Effect A.e m m')

theorem Cert.between {e : Endian} {W w : Nat} {ien : RS W → Bool} {B : Block W w} {a : Nat}
    {spec : Mem → Mem → BitVec w → Bool → Prop} (C : Cert e ien B a spec) {c0 : Cfg W} {tr : List TEv} {c : Cfg W}
    (h0 : c0.pc = 0) (hp : B.pre c0.rs) (hr : IRun e ien B.code c0 tr c) (hi : ien c.rs = true) :
    NoChange tr ∨ ∃ out ok, AtomicSection tr fun m m' => spec m m' out ok := by
  obtain ⟨⟨ph, hJ, hT⟩, _⟩ := C.run h0 hp hr
  obtain ⟨_, h2⟩ := C.irq _ _ _ _ c.mem hJ hi
  cases ph with
  | before => exact .inl fun ev m m' hm => (hT ev m m' hm).symm
  | inside m0 => exact absurd rfl (h2 m0)
  | after out ok => exact .inr ⟨out, ok, hT⟩

theorem AtomicSection.imp' {tr : List TEv} {spec : Mem → Mem → Prop} {P Q : Mem → Mem → Prop}
    (h : AtomicSection tr spec) (hs : ∀ m m', spec m m' → P m m' ∨ Q m m') : AtomicSection tr P ∨ AtomicSection tr Q := by
  obtain ⟨pre, sec, post, m, m', h1, h2, h3, h4, h5⟩ := h
  rcases hs m m' h4 with h | h
  · exact .inl ⟨pre, sec, post, m, m', h1, h2, h3, h, h5⟩
  · exact .inr ⟨pre, sec, post, m, m', h1, h2, h3, h, h5⟩

theorem ICerts.allOrNothing {W : Nat} {A : IBackend W} (h : ICerts A) : A.AllOrNothing := by
  intro c B hB c0 tr cfg h0 hp hr hi
  cases c with
  | load o w a =>
    obtain ⟨C⟩ := h.load o w a B hB
    exact (C.between h0 hp hr hi).imp id fun ⟨_, _, hs⟩ => hs.imp' fun m m' h => .inl h.2
  | store o w a v =>
    obtain ⟨C⟩ := h.store o w a v B hB
    exact (C.between h0 hp hr hi).imp id fun ⟨_, _, hs⟩ => hs.imp' fun m m' h => .inr h
  | swap o w a v =>
    obtain ⟨C⟩ := h.swap o w a v B hB
    exact (C.between h0 hp hr hi).imp id fun ⟨_, _, hs⟩ => hs.imp' fun m m' h => .inr h.2
  | cas s f w a old new =>
    obtain ⟨C⟩ := h.cas s f w a old new B hB
    exact (C.between h0 hp hr hi).imp id fun ⟨_, _, hs⟩ => hs.imp' fun m m' h =>
      h.2.elim (fun h => .inr ⟨h.1, h.2.2⟩) fun h => .inl h.2.2
  | casWeak s f w a old new =>
    obtain ⟨C⟩ := h.casWeak s f w a old new B hB
    exact (C.between h0 hp hr hi).imp id fun ⟨_, _, hs⟩ => hs.imp' fun m m' h =>
      h.2.elim (fun h => .inr ⟨h.1, h.2.2⟩) fun h => .inl h.2

end Verif
