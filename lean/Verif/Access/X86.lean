import Verif.Access.Spec
import Verif.Props.X86
namespace Verif

set_option maxHeartbeats 2000000 in
theorem X86.inside32 (c : Conf32) : (backend32 c).InsideAll 1 1 1 where
  load o w a B h hal := by
    obtain ⟨al, _, p, hw⟩ | ⟨al, _, p, h, hc⟩ | ⟨al, _, p, h, hc2, hc⟩ | ⟨al, _, p, h, hc, hx⟩ |
      ⟨al, _, p, h, hc, hx⟩ := h
    · acc_straight; simp only [Size] at hw; acc_obj hal hw
    · acc_straight; acc_lit hal
    · acc_straight; acc_lit hal
    · acc_straight; acc_lit hal
    · acc_straight; acc_lit hal
  store o w a v B h hal := by
    obtain ⟨al, p, _, hw, ho⟩ | ⟨al, p, _, hw, ho⟩ | @⟨al, _, sc, p, _, h, hc, ho⟩ | @⟨al, _, sc, p, _, h, hc, hx, ho⟩ |
      ⟨al, _, p, _, h, hc, hx⟩ := h
    · acc_straight; simp only [Size] at hw; acc_obj hal hw
    · acc_straight; simp only [Size] at hw; acc_obj hal hw
    · cases sc <;> acc_straight <;> acc_lit hal
    · cases sc <;> acc_straight <;> acc_lit hal
    · acc_keeps 4 al .dst; acc_lit hal
  swap o w a v B h hal := by
    obtain ⟨al, _, p, _, hw⟩ | ⟨al, _, p, _, h⟩ := h
    · acc_straight; simp only [Size] at hw; acc_obj hal hw
    · acc_keeps 4 al .dst; acc_lit hal
  cas s f w a old new B h hal := by
    have h : Cas32 c s f w a old new B := h.elim id id
    obtain ⟨al, _, _, p, _, _, hw, h⟩ | ⟨al, _, _, p, _, _, h⟩ := h
    · acc_straight; simp only [Size] at hw; acc_obj hal hw
    · acc_straight; acc_lit hal

set_option maxHeartbeats 2000000 in
theorem X86.inside64 (c : Conf64) : (backend64 c).InsideAll 1 1 1 where
  load o w a B h hal := by
    obtain ⟨al, _, p, hw⟩ | ⟨al, _, hb, p, h⟩ := h
    · acc_straight; simp only [Size] at hw; acc_obj hal hw
    · have h1 := hb.ne .src (by decide) (by decide)
      refine inside_straight 40 ?_
      intro rs hp
      simp [asm] at hp
      simp [asm, hp, h1]; acc_lit hal
  store o w a v B h hal := by
    obtain ⟨al, p, _, hw, ho⟩ | ⟨al, p, _, hw, ho⟩ | ⟨al, _, hb, p, _, h⟩ := h
    · acc_straight; simp only [Size] at hw; acc_obj hal hw
    · acc_straight; simp only [Size] at hw; acc_obj hal hw
    · have h1 := hb.ne .dst (by decide) (by decide)
      refine inside_keeps (Alloc.reg al .dst) 5 (by simp [asm, h1]) (by simp [asm]) ?_
      intro rs0 rs hp hd
      simp [asm] at hp
      simp [asm, hd, hp]
      obtain ⟨P, hP, _⟩ := c
      rcases hP with hP | hP <;> (subst hP; acc_lit hal)
  swap o w a v B h hal := by
    obtain ⟨al, _, p, _, hw⟩ | ⟨al, _, hb, p, _, h⟩ := h
    · acc_straight; simp only [Size] at hw; acc_obj hal hw
    · have h1 := hb.ne .dst (by decide) (by decide)
      refine inside_keeps (Alloc.reg al .dst) 5 (by simp [asm, h1]) (by simp [asm]) ?_
      intro rs0 rs hp hd
      simp [asm] at hp
      simp [asm, hd, hp]
      obtain ⟨P, hP, _⟩ := c
      rcases hP with hP | hP <;> (subst hP; acc_lit hal)
  cas s f w a old new B h hal := by
    have h : Cas64 c s f w a old new B := h.elim id id
    obtain ⟨al, _, _, p, _, _, hw⟩ | ⟨al, _, _, hb, p, _, _, h⟩ := h
    · acc_straight; simp only [Size] at hw; acc_obj hal hw
    · have h1 := hb.ne .dst (by decide) (by decide)
      refine inside_straight 40 ?_
      intro rs hp
      simp [asm] at hp
      simp [asm, hp, h1]; acc_lit hal

end Verif
