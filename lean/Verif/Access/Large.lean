import Verif.Access.Spec
import Verif.Props.AArch64
import Verif.Props.PowerPC
import Verif.Props.S390x
namespace Verif

set_option maxHeartbeats 2000000 in
theorem AArch64.inside (e : Endian) (c : Conf) : (backend e c).InsideAll 1 1 1 where
  load o w a B h hal := by
    have hc := (contract e c _ (.load h)).1
    obtain ⟨al, p, hw, hf⟩ | ⟨al, p, hf⟩ | ⟨al, p, hf⟩ | ⟨al, p, hf⟩ | ⟨al, p, hf⟩ := h
    · acc_straight; simp only [WSize] at hw; acc_obj hal hw
    · acc_straight; acc_lit hal
    · acc_straight; acc_lit hal
    · acc_straight; acc_lit hal
    · acc_frame hc al .src; acc_lit hal
  store o w a v B h hal := by
    have hc := (contract e c _ (.store h)).1
    obtain ⟨al, p, val, hw, hf⟩ | ⟨al, p, val, hv, hf⟩ | ⟨al, p, val, hv, hf⟩ |
      ⟨al, p, val, hv, hf⟩ := h
    · acc_straight; simp only [WSize] at hw; acc_obj hal hw
    · acc_straight; acc_lit hal
    · acc_straight; acc_lit hal
    · acc_frame hc al .dst; acc_lit hal
  swap o w a v B h hal := by
    have hc := (contract e c _ (.swap h)).1
    obtain ⟨al, o, _, p, val, hw⟩ | ⟨al, o, _, p, val, hw⟩ | ⟨al, o, _, p, val⟩ |
      ⟨al, o, _, p, val⟩ := h
    · acc_straight; simp only [WSize] at hw; acc_obj hal hw
    · acc_frame hc al .dst; simp only [WSize] at hw; acc_obj hal hw
    · acc_straight; acc_lit hal
    · acc_frame hc al .dst; acc_lit hal
  cas s f w a old new B h hal := by
    have hcas : ∀ {w a} {old new : BitVec w} {B : Block 64 w}, Cas e c s f w a old new B → a % (w / 8) = 0 →
        B.AccessesInside e a (max (w / 8) 1) := by
      intro w a old new B h hal
      have hc := (contract e c _ (.cas h)).1
      obtain ⟨al, _, p, _, _, hw, hv⟩ | ⟨al, _, p, _, _, hw, hv⟩ | ⟨al, _, p, _, _, hv⟩ |
        ⟨al, _, p, _, _, hv⟩ := h
      · acc_straight; simp only [WSize] at hw; acc_obj hal hw
      · acc_frame hc al .dst; simp only [WSize] at hw; acc_obj hal hw
      · acc_straight; acc_lit hal
      · acc_frame hc al .dst; acc_lit hal
    rcases h with h | h
    · exact hcas h hal
    · have hc := (contract e c _ (.casWeak h)).1
      obtain ⟨al, _, p, _, _, hw, hv⟩ | ⟨_, h⟩ := h
      · acc_straight; simp only [WSize] at hw; (refine ⟨?_, fun _ _ => ?_⟩) <;> acc_obj hal hw
      · exact hcas h hal

set_option maxHeartbeats 2000000 in
theorem PowerPC.inside (e : Endian) {W : Nat} (hW : 32 ≤ W) (c : Conf) :
    (backend e W c).InsideAll 1 (if c.partword then 1 else 4) (if c.partword then 1 else 4) where
  load o w a B h hal := by
    obtain ⟨al, p, hw, hf⟩ | ⟨al, p, hw, hf⟩ | ⟨al, hq, p, hf⟩ | ⟨al, hq, p, hf⟩ := h
    · acc_straight; acc_obj hal hw
    · acc_straight; acc_obj hal hw
    · acc_straight; acc_lit hal
    · acc_straight; acc_lit hal
  store o w a v B h hal := by
    obtain ⟨al, p, val, hw, hf⟩ | ⟨al, hq, p, val, hf⟩ := h
    · acc_straight; acc_obj hal hw
    · acc_straight; acc_lit hal
  swap o w a v B h hal := by
    have hc := (contract e c _ (.swap h)).1
    obtain ⟨al, o, p, val, hw⟩ | ⟨al, o, p, val, hw, hp, _⟩ | ⟨al, o, hq, p, val⟩ := h
    · acc_frame hc al .dst
      simp only [Direct] at hw
      cases hcp : c.partword <;> simp [hcp] at hw ⊢ <;> acc_obj hal hw
    · acc_frame hc al .dst
      simp only [hp, Bool.false_eq_true, if_false]
      acc_sub (subword_aligned _ (by omega) p) hw
    · acc_frame hc al .dst; cases hcp : c.partword <;> acc_lit hal
  cas s f w a old new B h hal := by
    rcases h with h | h
    · have hc := (contract e c _ (.cas h)).1
      obtain ⟨al, p, _, _, hw, hv, ho⟩ | ⟨al, p, _, _, hw, hp, _, hv, ho⟩ | ⟨al, hq, p, _, _, hv, ho⟩ := h
      · acc_keeps 8 al .dst
        simp only [Direct] at hw
        cases hcp : c.partword <;> simp [hcp] at hw ⊢ <;> acc_obj hal hw
      · acc_frame hc al .dst
        simp only [hp, Bool.false_eq_true, if_false]
        acc_sub (subword_aligned _ (by omega) p) hw
      · acc_frame hc al .dst; cases hcp : c.partword <;> acc_lit hal
    · have hc := (contract e c _ (.casWeak h)).1
      obtain ⟨al, p, _, _, hw, hv, ho⟩ | ⟨al, p, _, _, hw, hp, _, hv, ho⟩ | ⟨al, hq, p, _, _, hv, ho⟩ := h
      · acc_keeps 7 al .dst
        simp only [Direct] at hw
        cases hcp : c.partword <;> simp [hcp] at hw ⊢ <;> acc_obj hal hw
      · acc_frame hc al .dst
        simp only [hp, Bool.false_eq_true, if_false]
        acc_sub (subword_aligned _ (by omega) p) hw
      · acc_frame hc al .dst; cases hcp : c.partword <;> acc_lit hal

set_option maxHeartbeats 2000000 in
theorem S390x.inside : backend.InsideAll 1 4 4 where
  load o w a B h hal := by
    obtain ⟨al, o, p, hw⟩ | ⟨al, o, p⟩ := h
    · acc_straight; acc_obj hal hw
    · acc_straight; acc_lit hal
  store o w a v B h hal := by
    obtain ⟨al, p, val, hw, hf⟩ | ⟨al, p, val, hf⟩ := h
    · acc_straight; acc_obj hal hw
    · acc_straight; acc_lit hal
  swap o w a v B h hal := by
    have hc := (contract _ (.swap h)).1
    obtain ⟨al, o, p, val, hw⟩ | ⟨al, o, p, val, hw, _⟩ | ⟨al, o, p, val⟩ := h
    · acc_frame hc al .dst; acc_obj hal hw
    · acc_frame hc al .dst; acc_sub (subword_aligned _ (by omega) p) hw
    · acc_frame hc al .dst; acc_lit hal
  cas s f w a old new B h hal := by
    have h : Cas s f w a old new B := h.elim id id
    have hc := (contract _ (.cas h)).1
    obtain ⟨al, _, _, p, _, _, hw⟩ | ⟨al, _, _, p, _, _, hw, _⟩ | ⟨al, _, _, p, _, _⟩ := h
    · acc_straight; acc_obj hal hw
    · acc_keeps 9 al .dst; acc_sub (subword_aligned _ (by omega) p) hw
    · acc_straight; acc_lit hal

end Verif
