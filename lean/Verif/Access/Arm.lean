import Verif.Access.Spec
import Verif.Props.Arm
import Verif.Props.Armv8
namespace Verif

local macro "ck" c:ident : tactic => `(tactic| (obtain ⟨k, v⟩ := $c; cases k <;> cases v))

set_option maxHeartbeats 2000000 in
theorem Arm.inside (e : Endian) (c : Conf) : (backend e c).InsideAll 1 1 1 where
  load o w a B h hal := by
    have hc := (contract e c _ (.load h)).1
    obtain ⟨al, p, hw, hf⟩ | ⟨al, p, hf⟩ := h
    · ck c; all_goals acc_straight; acc_obj hal hw
    · ck c; all_goals acc_straight; acc_lit hal
  store o w a v B h hal := by
    have hc := (contract e c _ (.store h)).1
    obtain ⟨al, p, val, hw, hf⟩ | ⟨al, p, val, hf⟩ := h
    · ck c; all_goals acc_frame hc al .dst; acc_obj hal hw
    · ck c; all_goals acc_frame hc al .dst; acc_lit hal
  swap o w a v B h hal := by
    have hc := (contract e c _ (.swap h)).1
    obtain ⟨al, o, p, val, hw⟩ | ⟨al, o, p, val⟩ := h
    · ck c; all_goals acc_frame hc al .dst; acc_obj hal hw
    · ck c; all_goals acc_frame hc al .dst; acc_lit hal
  cas s f w a old new B h hal := by
    rcases h with h | h
    · have hc := (contract e c _ (.cas h)).1
      obtain @⟨al, s, f, w, g, p, _, _, hw, hv, hg⟩ | @⟨al, s, f, g, p, _, _, hv, hg⟩ := h <;> clear hg <;> cases g <;> ck c
      all_goals acc_frame hc al .dst; first | acc_lit hal | acc_obj hal hw
    · have hc := (contract e c _ (.casWeak h)).1
      obtain @⟨al, s, f, w, g, p, _, _, hw, hv, hg⟩ | @⟨al, s, f, g, p, _, _, hv, hg⟩ := h <;> clear hg <;> cases g <;> ck c
      all_goals acc_frame hc al .dst; first | acc_lit hal | acc_obj hal hw

set_option maxHeartbeats 2000000 in
theorem Armv8.inside (e : Endian) (c : Conf) : (backend e c).InsideAll 1 1 1 where
  load o w a B h hal := by
    obtain ⟨al, p, hw, hf⟩ | ⟨al, hc, p, hf⟩ := h
    · acc_straight; acc_obj hal hw
    · acc_straight; acc_lit hal
  store o w a v B h hal := by
    have hc := (contract e c _ (.store h)).1
    obtain ⟨al, p, val, hw, hf⟩ | ⟨al, _, p, val, hf⟩ := h
    · acc_straight; acc_obj hal hw
    · acc_frame hc al .dst; acc_lit hal
  swap o w a v B h hal := by
    have hc := (contract e c _ (.swap h)).1
    obtain ⟨al, o, p, val, hw⟩ | ⟨al, o, _, p, val⟩ := h
    · acc_frame hc al .dst; acc_obj hal hw
    · acc_frame hc al .dst; acc_lit hal
  cas s f w a old new B h hal := by
    rcases h with h | h
    · have hc := (contract e c _ (.cas h)).1
      obtain ⟨al, p, _, _, hw, hv⟩ | ⟨al, _, p, _, _, hv⟩ := h <;> obtain ⟨k⟩ := c <;> cases k
      all_goals acc_frame hc al .dst; first | acc_lit hal | acc_obj hal hw
    · have hc := (contract e c _ (.casWeak h)).1
      obtain ⟨al, p, _, _, hw, hv⟩ | ⟨al, _, p, _, _, hv⟩ := h <;> obtain ⟨k⟩ := c <;> cases k
      all_goals acc_frame hc al .dst; first | acc_lit hal | acc_obj hal hw

end Verif
