import Verif.Access.Spec
import Verif.Props.ArmLinux
namespace Verif

/-- `acc_keeps` for the blocks of the 64-bit operations. -/
local macro "acc_keeps4" al:term:max o:term:max : tactic => `(tactic| (
  refine inside_keeps (Alloc.reg $al $o) 30 (by simp [asm]) (by simp [asm]) ?_
  intro rs0 rs hp hd
  simp [asm] at hp
  simp [asm, hd, hp, ArmLinux.ea4]))

set_option maxHeartbeats 2000000 in
theorem ArmLinux.inside (e : Endian) (c : Conf) : (backend e c).InsideAll 1 4 4 where
  load o w a B h hal := by
    obtain ⟨al, p, hw⟩ | ⟨al, p, hw, ho⟩ | ⟨al, _, p, po, hk, _⟩ := h
    · acc_straight; acc_obj hal hw
    · acc_straight; acc_obj hal hw
    · acc_keeps4 al .src; acc_lit hal
  store o w a v B h hal := by
    obtain ⟨al, p, _, hw⟩ | ⟨al, p, _, hw⟩ | ⟨al, p, _, hw⟩ | ⟨al, _, p, po, pv, _, hne, hk, _⟩ := h
    · acc_straight; acc_obj hal hw
    · acc_keeps 30 al .dst; acc_obj hal hw
    · acc_keeps 30 al .dst; acc_obj hal hw
    · acc_keeps4 al .dst; acc_lit hal
  swap o w a v B h hal := by
    obtain ⟨al, _, p, _⟩ | ⟨al, _, p, _, hw, _⟩ | ⟨al, _, p, po, pv, _, hne, hk, _⟩ := h
    · acc_keeps4 al .dst; acc_lit hal
    · acc_keeps 30 al .dst; acc_sub (subword_aligned _ (by omega) p) hw
    · acc_keeps4 al .dst; acc_lit hal
  cas s f w a old new B h hal := by
    have h : Cas e c s f w a old new B := h.elim id id
    obtain ⟨al, _, _, p, _, _⟩ | ⟨al, _, _, p, _, _, hw, _⟩ | ⟨al, _, _, p, po, pv, _, _, hne, hk, _⟩ := h
    · acc_keeps4 al .dst; acc_lit hal
    · acc_keeps 30 al .dst; acc_sub (subword_aligned _ (by omega) p) hw
    · acc_keeps4 al .dst; acc_lit hal

end Verif
