import Verif.Access.Spec
import Verif.Props.LegacyRiscV
import Verif.Props.LegacyLoongArch
import Verif.Props.LegacyArmv8
import Verif.Props.LegacyArm
import Verif.Props.LegacyArmLinux
set_option maxRecDepth 4000
namespace Verif

theorem LegacyRiscV.inside (e : Endian) {W : Nat} (hW : 32 ≤ W) : (backend e W).InsideAll 1 4 4 where
  load o w a B h hal := by
    obtain ⟨al, po, p, hw, hf⟩ := h
    acc_straight; acc_obj hal hw
  store o w a v B h hal := by
    obtain ⟨al, pv, p, val, hw, hf⟩ := h
    acc_straight; acc_obj hal hw
  swap o w a v B h hal := by
    obtain ⟨al, o, po, pv, p, val, hw, hb⟩ | ⟨al, o, po, pv, p, val, hw, hsp, hb⟩ := h
    · acc_straight; acc_obj hal hw
    · acc_keeps 30 al .dst; acc_sub (hsp.subword_aligned hW _) hw
  cas s f w a old new B h hal := by
    have h : Cas e s f w a old new B := h.elim id id
    obtain ⟨al, _, _, po, pold, pnew, p, _, _, hw, hv, hb⟩ | ⟨al, _, _, po, pold, pnew, p, _, _, hw, hv, hsp, hb⟩ := h
    · acc_keeps 30 al .dst; acc_obj hal hw
    · acc_keeps 13 al .dst; acc_sub (hsp.subword_aligned hW _) hw

theorem LegacyLoongArch.inside (e : Endian) {W : Nat} (hW : 32 ≤ W) : (backend e W).InsideAll 1 4 4 where
  load o w a B h hal := by
    obtain ⟨al, po, p, hw, hf⟩ := h
    acc_straight; acc_obj hal hw
  store o w a v B h hal := by
    obtain @⟨al, _, b, w, pv, p, val, hw, hf⟩ | ⟨al, pv, p, val, hw, hf⟩ := h
    · clear hf; cases b <;> acc_straight <;> acc_obj hal hw
    · acc_straight; acc_obj hal hw
  swap o w a v B h hal := by
    obtain ⟨al, o, po, pv, p, val, hw, hb⟩ | ⟨al, o, po, pv, p, val, hw, hsp, hb⟩ := h
    · acc_straight; acc_obj hal hw
    · acc_keeps 30 al .dst; acc_sub (hsp.subword_aligned hW _) hw
  cas s f w a old new B h hal := by
    have h : Cas e s f w a old new B := h.elim id id
    obtain ⟨al, _, po, pold, pnew, p, _, _, hw, hv, hb⟩ | ⟨al, _, po, pold, pnew, p, _, _, hw, hv, hsp, hb⟩ := h
    · acc_keeps 30 al .dst; acc_obj hal hw
    · acc_keeps 18 al .dst; acc_sub (hsp.subword_aligned hW _) hw

set_option maxHeartbeats 2000000 in
theorem LegacyArmv8.inside (e : Endian) (c : Armv8.Conf) : (backend e c).InsideAll 1 1 1 where
  load o w a B h hal := by
    obtain ⟨al, po, p, hw, hf⟩ | ⟨al, hc, po, p, hf⟩ := h
    · acc_straight; acc_obj hal hw
    · acc_straight; acc_lit hal
  store o w a v B h hal := by
    obtain ⟨al, pv, p, val, hw, hf⟩ | ⟨al, _, pv, p, val, hf⟩ := h
    · acc_straight; acc_obj hal hw
    · acc_keeps 30 al .dst; acc_lit hal
  swap o w a v B h hal := by
    obtain ⟨al, o, po, pv, p, val, hw, _⟩ | ⟨al, o, _, po, pv, p, val, _⟩ := h
    · acc_keeps 30 al .dst; acc_obj hal hw
    · acc_keeps 30 al .dst; acc_lit hal
  cas s f w a old new B h hal := by
    rcases h with h | h
    · obtain ⟨al, po, pold, pnew, p, _, _, hw, hv, _⟩ | ⟨al, _, po, pold, pnew, p, _, _, hv, _⟩ := h <;>
        obtain ⟨k⟩ := c <;> cases k
      all_goals acc_keeps 30 al .dst; first | acc_lit hal | acc_obj hal hw
    · obtain ⟨al, po, pold, pnew, p, _, _, hw, hv, _⟩ | ⟨al, _, po, pold, pnew, p, _, _, hv, _⟩ := h <;>
        obtain ⟨k⟩ := c <;> cases k
      all_goals acc_keeps 30 al .dst; first | acc_lit hal | acc_obj hal hw

local macro "ck" c:ident : tactic => `(tactic| (obtain ⟨k, v⟩ := $c; cases k <;> cases v))

set_option maxHeartbeats 4000000 in
theorem LegacyArm.inside (e : Endian) (c : Arm.Conf) : (backend e c).InsideAll 1 1 1 where
  load o w a B h hal := by
    obtain ⟨al, po, p, hw, hf⟩ | ⟨al, po, p, hf⟩ := h
    · ck c; all_goals acc_straight; acc_obj hal hw
    · ck c; all_goals acc_straight; acc_lit hal
  store o w a v B h hal := by
    obtain ⟨al, pv, p, val, hw, hf⟩ | ⟨al, pv, p, val, hf⟩ := h
    · ck c; all_goals acc_keeps 30 al .dst; acc_obj hal hw
    · ck c; all_goals acc_keeps 30 al .dst; acc_lit hal
  swap o w a v B h hal := by
    obtain ⟨al, o, po, pv, p, val, hw, _⟩ | ⟨al, o, po, pv, p, val, _⟩ := h
    · ck c; all_goals acc_keeps 30 al .dst; acc_obj hal hw
    · ck c; all_goals acc_keeps 30 al .dst; acc_lit hal
  cas s f w a old new B h hal := by
    rcases h with h | h
    · obtain @⟨al, s, f, w, g, po, pold, pnew, p, _, _, hw, _, hv, hg⟩ |
        @⟨al, s, f, g, po, pold, pnew, p, _, _, _, hv, hg⟩ := h <;> clear hg <;> cases g <;> ck c
      all_goals acc_keeps 30 al .dst; first | acc_lit hal | acc_obj hal hw
    · obtain @⟨al, s, f, w, g, po, pold, pnew, p, _, _, hw, _, hv, hg⟩ |
        @⟨al, s, f, g, po, pold, pnew, p, _, _, _, hv, hg⟩ := h <;> clear hg <;> cases g <;> ck c
      all_goals acc_keeps 30 al .dst; first | acc_lit hal | acc_obj hal hw

/-- `acc_keeps` for the blocks of the 64-bit operations. -/
local macro "acc_keeps4" al:term:max o:term:max : tactic => `(tactic| (
  refine inside_keeps (Alloc.reg $al $o) 40 (by simp [asm]) (by simp [asm]) ?_
  intro rs0 rs hp hd
  simp [asm] at hp
  simp [asm, hd, hp, ArmLinux.ea4]))

set_option maxHeartbeats 2000000 in
theorem LegacyArmLinux.inside (e : Endian) (c : ArmLinux.Conf) : (backend e c).InsideAll 1 4 4 where
  load o w a B h hal := by
    obtain ⟨al, po, p, hw⟩ | ⟨al, po, p, hw, ho⟩ | ⟨al, _, p, po, hk, _⟩ := h
    · acc_straight; acc_obj hal hw
    · acc_straight; acc_obj hal hw
    · acc_keeps4 al .src; acc_lit hal
  store o w a v B h hal := by
    obtain ⟨al, pv, p, _, hw⟩ | ⟨al, pv, p, _, hw⟩ | ⟨al, pv, p, _, hw⟩ | ⟨al, _, p, po, pv, _, hne, hk, _⟩ := h
    · acc_straight; acc_obj hal hw
    · acc_keeps 40 al .dst; acc_obj hal hw
    · acc_keeps 40 al .dst; acc_obj hal hw
    · acc_keeps4 al .dst; acc_lit hal
  swap o w a v B h hal := by
    obtain ⟨al, _, po, pv, p, _⟩ | ⟨al, _, po, pv, p, _, hw, _⟩ | ⟨al, _, p, po, pv, _, hne, hk, _⟩ := h
    · acc_keeps4 al .dst; acc_lit hal
    · acc_keeps 40 al .dst; acc_sub (subword_aligned _ (by omega) p) hw
    · acc_keeps4 al .dst; acc_lit hal
  cas s f w a old new B h hal := by
    have h : Cas e c s f w a old new B := h.elim id id
    obtain ⟨al, _, _, po, pold, pnew, p, _, _, _⟩ | ⟨al, _, _, po, pold, pnew, p, _, _, hw, _⟩ |
      ⟨al, _, _, p, po, pold, pnew, _, _, hne, hk, _⟩ := h
    · acc_keeps4 al .dst; acc_lit hal
    · acc_keeps 40 al .dst; acc_sub (subword_aligned _ (by omega) p) hw
    · acc_keeps4 al .dst; acc_lit hal

end Verif
