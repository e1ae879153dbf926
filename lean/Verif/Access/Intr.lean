import Verif.Access.Spec
import Verif.Props.Avr
import Verif.Props.Msp430
namespace Verif

set_option maxHeartbeats 2000000 in
theorem Msp430.inside : backend.toBackend.InsideAll 1 1 1 where
  load o w a B h hal := by
    obtain ⟨al, p, hw, hv⟩ := h
    acc_straight; acc_obj hal hw
  store o w a v B h hal := by
    obtain ⟨al, p, _, hw, hv⟩ := h
    acc_straight; acc_obj hal hw
  swap o w a v B h hal := by
    obtain ⟨al, _, p, _, hw⟩ := h
    acc_straight; acc_obj hal hw
  cas s f w a old new B h hal := by
    have h : Cas s f w a old new B := h.elim id id
    obtain ⟨al, p, _, _, hw, hv⟩ := h
    acc_straight
    (refine ⟨?_, fun _ _ => ?_⟩) <;> acc_obj hal hw

/-- A block with two address registers, neither of which is written. -/
theorem inside_keeps2 {W w : Nat} {e : Endian} {B : Block W w} {a g : Nat} (d d' : Nat)
    (h1 : ∀ i ∈ B.code, i.Keeps d) (h2 : ∀ i ∈ B.code, i.Keeps d')
    (h : ∀ rs0 rs, B.pre rs0 → rs.r d = rs0.r d → rs.r d' = rs0.r d' → ∀ i ∈ B.code, i.Inside a g rs) :
    B.AccessesInside e a g := by
  intro c0 tr c i x n h0 hp hr hi ha
  have key : c.rs.r d = c0.rs.r d ∧ c.rs.r d' = c0.rs.r d' := by
    clear hi ha
    induction hr with
    | nil => exact ⟨rfl, rfl⟩
    | own hr' hi hs ih =>
      exact ⟨(step_keeps (h1 _ (List.mem_of_getElem? hi)) hs).trans ih.1,
        (step_keeps (h2 _ (List.mem_of_getElem? hi)) hs).trans ih.2⟩
    | env h1 m' r' hr ih => exact ih
  exact (h c0.rs c.rs hp key.1 key.2 i (List.mem_of_getElem? hi)).access ha

namespace Avr
theorem inside_z {w : Nat} {B : Block 8 w} {p : BitVec 16} {g : Nat} {al : Op → Nat}
    (h1 : ∀ i ∈ B.code, i.Keeps (rg al .x0)) (h2 : ∀ i ∈ B.code, i.Keeps (rg al .x1))
    (hp : ∀ rs, B.pre rs → rs.r (rg al .x1) ++ rs.r (rg al .x0) = p)
    (h : ∀ rs : RS 8, rs.r (rg al .x1) ++ rs.r (rg al .x0) = p → ∀ i ∈ B.code, i.Inside p.toNat g rs) :
    B.AccessesInside .little p.toNat g := by
  refine inside_keeps2 _ _ h1 h2 ?_
  intro rs0 rs hpre e1 e2 i hi
  exact h rs (by rw [e1, e2]; exact hp _ hpre) i hi

/-- proves the first three hypotheses of `inside_z` -/
local macro "avr_acc" al:term:max : tactic => `(tactic| (
  refine inside_z (al := Alloc.reg $al) (by simp [asm]) (by simp [asm]) ?_ ?_
  · intro rs hp; simp [asm] at hp; exact join_ptr hp.1 (by first | exact hp.2.1 | exact hp.2)
  intro rs hp
  simp only [rg] at hp
  simp [asm, -BitVec.toNat_append, -BitVec.toNat_add, hp]))

set_option maxHeartbeats 2000000 in
theorem inside : backend.toBackend.InsideAll 1 1 1 where
  load o w a B h hal := by
    obtain ⟨al, p, hv⟩ | ⟨al, ro, p, hp, hv⟩ := h
    · avr_acc al; acc_lit hal
    · cases ro <;> avr_acc al <;> acc_lit hal
  store o w a v B h hal := by
    obtain ⟨al, p, _, hv⟩ | ⟨al, wo, p, _, hp, hv⟩ := h
    · avr_acc al; acc_lit hal
    · cases wo <;> avr_acc al <;> acc_lit hal
  swap o w a v B h hal := by
    obtain ⟨al, _, p, _⟩ | ⟨al, ro, wo, _, p, _, hp⟩ := h
    · avr_acc al; acc_lit hal
    · cases ro <;> cases wo <;> avr_acc al <;> acc_lit hal
  cas s f w a old new B h hal := by
    have h : Cas s f w a old new B := h.elim id id
    obtain ⟨al, p, _, _, hv⟩ | ⟨al, ro, wo, p, _, _, hp, hv⟩ := h
    · avr_acc al; acc_lit hal
    · cases ro <;> cases wo <;> avr_acc al <;> acc_lit hal
end Avr

end Verif
