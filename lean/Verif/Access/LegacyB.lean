import Verif.Access.Spec
import Verif.Props.LegacyAArch64
import Verif.Props.LegacyX86
set_option maxRecDepth 4000
namespace Verif

set_option maxHeartbeats 2000000 in
theorem LegacyAArch64.inside (e : Endian) (c : AArch64.Conf) : (backend e c).InsideAll 1 1 1 where
  load o w a B h hal := by
    obtain ⟨al, po, p, hw, hf⟩ | ⟨al, po, p, hf⟩ | ⟨al, po, p, hf⟩ | ⟨al, po, p, hf⟩ | ⟨al, po, p, hf⟩ := h
    · acc_straight; simp only [AArch64.WSize] at hw; acc_obj hal hw
    · acc_straight; acc_lit hal
    · acc_straight; acc_lit hal
    · acc_straight; acc_lit hal
    · acc_keeps 30 al .src; acc_lit hal
  store o w a v B h hal := by
    obtain ⟨al, pv, p, val, hw, hf⟩ | ⟨al, pv, p, val, hv, hf⟩ | ⟨al, pv, p, val, hv, hf⟩ |
      ⟨al, pv, p, val, hv, hf⟩ := h
    · acc_straight; simp only [AArch64.WSize] at hw; acc_obj hal hw
    · acc_straight; acc_lit hal
    · acc_straight; acc_lit hal
    · acc_keeps 30 al .dst; acc_lit hal
  swap o w a v B h hal := by
    obtain ⟨al, o, _, po, pv, p, val, hw, _⟩ | ⟨al, o, _, po, pv, p, val, hw, _⟩ | ⟨al, o, _, po, pv, p, val, _⟩ |
      ⟨al, o, _, po, pv, p, val, _⟩ := h
    · acc_straight; simp only [AArch64.WSize] at hw; acc_obj hal hw
    · acc_keeps 30 al .dst; simp only [AArch64.WSize] at hw; acc_obj hal hw
    · acc_straight; acc_lit hal
    · acc_keeps 30 al .dst; acc_lit hal
  cas s f w a old new B h hal := by
    have hcas : ∀ {w a} {old new : BitVec w} {B : Block 64 w}, Cas e c s f w a old new B → a % (w / 8) = 0 →
        B.AccessesInside e a (max (w / 8) 1) := by
      intro w a old new B h hal
      obtain ⟨al, _, po, pold, pnew, p, _, _, hw, _, hv⟩ | ⟨al, _, po, pold, pnew, p, _, _, hw, _, hv⟩ |
        ⟨al, _, po, pold, pnew, p, _, _, _, hv⟩ | ⟨al, _, po, pold, pnew, p, _, _, _, hv⟩ := h
      · acc_straight; simp only [AArch64.WSize] at hw; acc_obj hal hw
      · acc_keeps 30 al .dst; simp only [AArch64.WSize] at hw; acc_obj hal hw
      · acc_straight; acc_lit hal
      · acc_keeps 30 al .dst; acc_lit hal
    rcases h with h | h
    · exact hcas h hal
    · obtain ⟨al, _, po, pold, pnew, p, _, _, hw, _, hv⟩ | ⟨_, h⟩ := h
      · acc_keeps 30 al .dst; simp only [AArch64.WSize] at hw; acc_obj hal hw
      · exact hcas h hal

set_option maxHeartbeats 2000000 in
theorem LegacyX86.inside32 (c : Conf32) : (backend32 c).InsideAll 1 1 1 where
  load o w a B h hal := by
    obtain ⟨al, _, po, p, hw⟩ | ⟨al, _, po, p, h, hc, hc2⟩ | ⟨al, _, po, p, h, hc, hc2⟩ | ⟨al, _, hb, po, p, h, hc⟩ := h
    · acc_straight; simp only [X86.Size] at hw; acc_obj hal hw
    · acc_straight; acc_lit hal
    · acc_straight; acc_lit hal
    · have h1 := hb.ne .src (by decide) (by decide)
      refine inside_straight 40 ?_
      intro rs hp
      simp [asm] at hp
      simp [asm, hp, h1]; acc_lit hal
  store o w a v B h hal := by
    obtain @⟨al, _, w, sc, pv, p, _, hw, ho⟩ | @⟨al, _, sc, pv, p, _, h, hc, ho⟩ | ⟨al, _, pv, p, _, h, hc⟩ := h
    · clear ho; cases sc <;> acc_straight <;> simp only [X86.Size] at hw <;> acc_obj hal hw
    · clear ho; cases h2 : c.sse2 <;> cases sc <;> acc_straight <;> acc_lit hal
    · acc_keeps 30 al .dst; acc_lit hal
  swap o w a v B h hal := by
    obtain ⟨al, _, po, pv, p, _, hw, _⟩ | ⟨al, _, hb, po, pv, p, _, h, _⟩ := h
    · acc_straight; simp only [X86.Size] at hw; acc_obj hal hw
    · have h1 := hb.ne .dst (by decide) (by decide)
      refine inside_keeps (Alloc.reg al .dst) 30 (by simp [asm, h1]) (by simp [asm]) ?_
      intro rs0 rs hp hd
      simp [asm] at hp
      simp [asm, hd, hp]
      acc_lit hal
  cas s f w a old new B h hal := by
    have h : Cas32 c s f w a old new B := h.elim id id
    obtain ⟨al, _, _, po, pold, pnew, p, _, _, hw, h, _⟩ | ⟨al, _, _, hb, po, pold, pnew, p, _, _, h, _⟩ := h
    · acc_straight; simp only [X86.Size] at hw; acc_obj hal hw
    · have h1 := hb.ne .dst (by decide) (by decide)
      refine inside_straight 40 ?_
      intro rs hp
      simp [asm] at hp
      simp [asm, hp, h1]; acc_lit hal

set_option maxHeartbeats 2000000 in
theorem LegacyX86.inside64 (c : X86.Conf64) : (backend64 c).InsideAll 1 1 1 where
  load o w a B h hal := by
    obtain ⟨al, _, po, p, hw⟩ | ⟨al, _, hb, po, p, h⟩ := h
    · acc_straight; simp only [X86.Size] at hw; acc_obj hal hw
    · have h1 := hb.ne .src (by decide) (by decide)
      refine inside_straight 40 ?_
      intro rs hp
      simp [asm] at hp
      simp [asm, hp, h1]; acc_lit hal
  store o w a v B h hal := by
    obtain @⟨al, _, w, sc, pv, p, _, hw, ho⟩ | ⟨al, _, hb, pv, p, _, h⟩ := h
    · clear ho; cases sc <;> acc_straight <;> simp only [X86.Size] at hw <;> acc_obj hal hw
    · have h1 := hb.ne .dst (by decide) (by decide)
      refine inside_keeps (Alloc.reg al .dst) 30 (by simp [asm, h1]) (by simp [asm]) ?_
      intro rs0 rs hp hd
      simp [asm] at hp
      simp [asm, hd, hp]
      obtain ⟨P, hP, _⟩ := c
      rcases hP with hP | hP <;> (subst hP; acc_lit hal)
  swap o w a v B h hal := by
    obtain ⟨al, _, po, pv, p, _, hw, _⟩ | ⟨al, _, hb, po, pv, p, _, h, _⟩ := h
    · acc_straight; simp only [X86.Size] at hw; acc_obj hal hw
    · have h1 := hb.ne .dst (by decide) (by decide)
      refine inside_keeps (Alloc.reg al .dst) 30 (by simp [asm, h1]) (by simp [asm]) ?_
      intro rs0 rs hp hd
      simp [asm] at hp
      simp [asm, hd, hp]
      obtain ⟨P, hP, _⟩ := c
      rcases hP with hP | hP <;> (subst hP; acc_lit hal)
  cas s f w a old new B h hal := by
    have h : Cas64 c s f w a old new B := h.elim id id
    obtain ⟨al, _, _, po, pold, pnew, p, _, _, hw, _⟩ | ⟨al, _, _, hb, po, pold, pnew, p, _, _, h, _⟩ := h
    · acc_straight; simp only [X86.Size] at hw; acc_obj hal hw
    · have h1 := hb.ne .dst (by decide) (by decide)
      refine inside_straight 40 ?_
      intro rs hp
      simp [asm] at hp
      simp [asm, hp, h1]; acc_lit hal

end Verif
