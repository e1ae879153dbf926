/-
Proofs for the MSP430 back end.
-/
import Verif.Intr.Cert
import Verif.Arch.Msp430
import Verif.Core.Mem

namespace Verif.Msp430

theorem load_cert (al) {w : Nat} (hw : SubSize w) (p : BitVec 16) :
    Nonempty (Cert .little ien (loadBlock al w p) p.toNat (fun m m' out _ => LoadSpec .little p.toNat w m m' out)) := by
  refine ⟨certOf _ _ _ _ _ 0 1 20 ?_⟩
  intro rs m hpre
  simp [asm, Block.pre] at hpre
  rcases hw with rfl | rfl <;> simp [asm, hpre, LoadSpec]

theorem store_cert (al) {w : Nat} (hw : SubSize w) (p : BitVec 16) (val : BitVec w) :
    Nonempty (Cert .little ien (storeBlock al w p val) p.toNat (fun m m' _ _ => StoreSpec .little p.toNat w val m m')) := by
  refine ⟨certOf _ _ _ _ _ 0 1 20 ?_⟩
  intro rs m hpre
  simp [asm, Block.pre] at hpre
  obtain ⟨h1, h3⟩ := hpre
  rcases hw with rfl | rfl <;> (try simp at h3) <;> simp [asm, h1, h3, StoreSpec]

theorem swap_cert (al) {w : Nat} (hw : SubSize w) (p : BitVec 16) (val : BitVec w) :
    Nonempty (Cert .little ien (swapBlock al w p val) p.toNat
      (fun m m' out _ => SwapSpec .little p.toNat w val m m' out)) := by
  refine ⟨certOf _ _ _ _ _ 3 5 20 ?_⟩
  intro rs m hpre
  simp [asm, Block.pre] at hpre
  obtain ⟨h1, h3⟩ := hpre
  rcases hw with rfl | rfl <;> (try simp at h3) <;> simp [asm, h1, h3, SwapSpec]

theorem cas_cert (al) {w : Nat} (hw : SubSize w) (p : BitVec 16) (old new : BitVec w) :
    Nonempty (Cert .little ien (casBlock al w p old new) p.toNat
      (fun m m' out ok => CasSpec .little p.toNat w old new m m' out ok)) := by
  refine ⟨certOf _ _ _ _ _ 3 9 20 ?_⟩
  intro rs m hpre
  simp [asm, Block.pre] at hpre
  obtain ⟨h1, h3, h4⟩ := hpre
  rcases hw with rfl | rfl <;> (try simp at h3 h4) <;> simp [asm, h1, h3, h4, CasSpec]
  all_goals
    intro m1 _ m2 _ m3 _
    refine ⟨fun h => ?_, fun h => ?_⟩
    · simp [h, Ne.symm h]
    · simp [h]

macro "status_tac" : tactic => `(tactic| (refine ⟨20, ?_⟩; intro rs0 _; simp +contextual [asm]))

theorem load_status (al w p) : (loadBlock al w p).StatusOK ien sr := by status_tac
theorem store_status (al w p v) : (storeBlock al w p v).StatusOK ien sr := by status_tac
theorem swap_status (al w p v) : (swapBlock al w p v).StatusOK ien sr := by status_tac
theorem cas_status (al w p o n) : (casBlock al w p o n).StatusOK ien sr := by status_tac

end Verif.Msp430
