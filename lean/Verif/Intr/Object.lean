/-
C08 and C22 on one core with interrupts (AVR, MSP430): the history of one object, used by the main program and by handlers
nested to any depth, is the history of a register on its own.
-/
import Verif.Intr.System
import Verif.Lin.Object

namespace Verif

/-- C22 on one core with interrupts: as `Backend.ObjectAlone`; what the register holds is compared with memory whenever the
running activation is between operations. -/
def IBackend.ObjectAlone {W : Nat} (A : IBackend W) (P : Call → Prop) : Prop :=
  ∀ (w a : Nat), w % 8 = 0 → w ≠ 0 → ∀ (m0 : Mem) (tr : List IEv) (g : IState W),
    ISRun A P ⟨m0, .idle, []⟩ tr g → VRegular A.e w a (fun _ _ => True) (IEv.vis tr) →
    ∃ otr o, ORun w a ⟨load A.e m0 a w, fun _ => .idle⟩ otr o ∧ OEv.vis otr = objectPart w a (IEv.vis tr) ∧
      (g.top = .idle → o.val = load A.e g.mem a w ∧ o.th g.rest.length = .idle) ∧
      ∀ i, g.rest.length < i → o.th i = .idle

/-- C08 on one core with interrupts. -/
def IBackend.ReadsLastWrite {W : Nat} (A : IBackend W) (P : Call → Prop) : Prop :=
  ∀ (w a : Nat), w % 8 = 0 → w ≠ 0 → ∀ (m0 : Mem) (tr : List IEv) (g : IState W),
    ISRun A P ⟨m0, .idle, []⟩ tr g → VRegular A.e w a (fun _ _ => True) (IEv.vis tr) →
    ∃ otr : List OEv, OEv.vis otr = objectPart w a (IEv.vis tr) ∧
      (∀ pre i c r post, otr = pre ++ .pt i c r :: post → c.Sees (lastBits w a (load A.e m0 a w) pre) r) ∧
      (∀ pre i c r post, otr = pre ++ .h (.ret i c r) :: post → ∃ p q s,
        pre = p ++ .h (.inv i c) :: (q ++ .pt i c r :: s) ∧ ∀ ev ∈ q ++ s, ¬ ev.Of i) ∧
      (g.top = .idle → load A.e g.mem a w = lastBits w a (load A.e m0 a w) otr)

variable {W : Nat}

theorem IBackend.Linearizable.objectAlone {A : IBackend W} {P : Call → Prop} (hl : A.Linearizable P) :
    A.ObjectAlone P := by
  intro w a hw hw0 m0 tr g hr hreg
  obtain ⟨str, s, h1, h2, h3, h4⟩ := hl m0 tr g hr
  rw [← h2] at hreg ⊢
  have hR : Regular A.e w a str := ⟨fun i c r hm => (hreg.1 i c (h1.pt_inv hm)).imp (·.1) id,
    fun m m' hm => hreg.2 m m' (ext_vis hm)⟩
  obtain ⟨otr, ho, hv⟩ := h1.object hw hw0 hR
  refine ⟨otr, _, ho, hv, fun ht => ?_, fun i hi => by simp only [h4 i hi]; rfl⟩
  obtain ⟨h5, h6⟩ := h3 ht
  exact ⟨by rw [h5], by simp only [h6]; rfl⟩

theorem IBackend.ObjectAlone.readsLastWrite {A : IBackend W} {P : Call → Prop} (h : A.ObjectAlone P) :
    A.ReadsLastWrite P := by
  intro w a hw hw0 m0 tr g hr hreg
  obtain ⟨otr, o, h1, h2, h3, _⟩ := h w a hw hw0 m0 tr g hr hreg
  refine ⟨otr, h2, ?_, ?_, ?_⟩
  · intro pre i c r post hs
    obtain ⟨s1, s2, h4, h5⟩ := h1.split pre _ post hs
    cases h5 with
    | pt _ _ _ hth ha => rw [h4.value] at ha; exact ha
  · intro pre i c r post hs
    obtain ⟨s1, s2, h4, h5⟩ := h1.split pre _ post hs
    cases h5 with
    | ret _ _ _ hth =>
      have := h4.threads i
      rw [hth] at this
      exact this
  · intro ht; rw [← (h3 ht).1]; exact h1.value

end Verif
