/-
Proofs for the AVR back end.
-/
import Verif.Intr.Cert
import Verif.Arch.Avr
import Verif.Core.Mem

namespace Verif.Avr

theorem store16_lohi (m : Mem) (a : Nat) (v : BitVec 16) :
    store .little (store .little m a 8 (lo8 v)) (a + 1) 8 (hi8 v) = store .little m a 16 v := by
  funext x
  simp only [store, byteIdx, lo8, hi8]
  by_cases h1 : x = a
  · subst h1
    have : ¬ (x + 1 ≤ x ∧ x < x + 1 + 8 / 8) := by omega
    rw [if_neg this]
    simp only [Nat.le_refl, Nat.sub_self, true_and]
    rw [if_pos (by omega), if_pos (by omega)]
    apply BitVec.eq_of_getLsbD_eq; intro i hi; simp [hi]
  · by_cases h2 : x = a + 1
    · subst h2
      simp
      apply BitVec.eq_of_getLsbD_eq; intro i hi; simp [hi]
    · have : ¬ (a + 1 ≤ x ∧ x < a + 1 + 8 / 8) := by omega
      have h3 : ¬ (a ≤ x ∧ x < a + 8 / 8) := by omega
      have h4 : ¬ (a ≤ x ∧ x < a + 16 / 8) := by omega
      simp only [this, h3, h4, if_false]
theorem store16_hilo (m : Mem) (a : Nat) (v : BitVec 16) :
    store .little (store .little m (a + 1) 8 (hi8 v)) a 8 (lo8 v) = store .little m a 16 v := by
  rw [← store16_lohi]
  funext x
  simp only [store]
  by_cases h1 : x = a
  · subst h1; simp; omega
  · by_cases h2 : x = a + 1
    · subst h2
      simp
    · have : ¬ (a + 1 ≤ x ∧ x < a + 1 + 8 / 8) := by omega
      have h3 : ¬ (a ≤ x ∧ x < a + 8 / 8) := by omega
      simp only [this, h3, if_false]
theorem load16 (m : Mem) (a : Nat) :
    load .little m (a + 1) 8 ++ load .little m a 8 = load .little m a 16 :=
  (load_halves (e := .little) (m := m) (A := a) (w := 8) rfl).symm
theorem join_ptr {p : BitVec 16} {lo hi : BitVec 8} (h1 : lo = lo8 p) (h2 : hi = hi8 p) : hi ++ lo = p := by
  subst h1 h2
  apply BitVec.eq_of_getLsbD_eq
  intro i hi
  simp only [BitVec.getLsbD_append, lo8, hi8, BitVec.getLsbD_setWidth, BitVec.getLsbD_ushiftRight]
  by_cases h : i < 8
  · simp [h]
  · have h1 : i - 8 < 8 := by omega
    have h2 : 8 + (i - 8) = i := by omega
    simp [h, h1, h2]
theorem ptr_succ {p : BitVec 16} (hp : p.toNat % 2 = 0) : (p + 1#16).toNat = p.toNat + 1 := by
  rw [BitVec.toNat_add]; have := p.isLt; simp; omega

theorem cmp16_zero (a b : BitVec 16) : ((lo8 a ^^^ lo8 b) ||| (hi8 a ^^^ hi8 b)) = 0#8 ↔ a = b := by
  constructor
  · intro h
    rw [BitVec.or_eq_zero_iff] at h
    obtain ⟨h1, h2⟩ := h
    rw [BitVec.xor_eq_zero_iff] at h1 h2
    rw [← join_ptr (p := a) rfl rfl, ← join_ptr (p := b) rfl rfl, h1, h2]
  · rintro rfl; simp

theorem load_lo (m : Mem) (a : Nat) : lo8 (load .little m a 16) = load .little m a 8 := by
  rw [← load16]; apply BitVec.eq_of_getLsbD_eq; intro i hi
  simp only [lo8, BitVec.getLsbD_setWidth, BitVec.getLsbD_append]; simp [hi]
theorem load_hi (m : Mem) (a : Nat) : hi8 (load .little m a 16) = load .little m (a + 1) 8 := by
  rw [← load16]; apply BitVec.eq_of_getLsbD_eq; intro i hi
  simp only [hi8, BitVec.getLsbD_setWidth, BitVec.getLsbD_ushiftRight, BitVec.getLsbD_append]; simp [hi]

/-! ### Certificates -/

theorem load8_cert (al) (p : BitVec 16) :
    Nonempty (Cert .little ien (load8Block al p) p.toNat (fun m m' out _ => LoadSpec .little p.toNat 8 m m' out)) := by
  refine ⟨certOf _ _ _ _ _ 0 1 20 ?_⟩
  intro rs m hpre
  simp [asm, Block.pre] at hpre
  have hz := join_ptr hpre.1 hpre.2
  simp [asm, -BitVec.toNat_append, hz, LoadSpec]

theorem store8_cert (al) (p : BitVec 16) (val : BitVec 8) :
    Nonempty (Cert .little ien (store8Block al p val) p.toNat (fun m m' _ _ => StoreSpec .little p.toNat 8 val m m')) := by
  refine ⟨certOf _ _ _ _ _ 0 1 20 ?_⟩
  intro rs m hpre
  simp [asm, Block.pre] at hpre
  obtain ⟨h1, h2, h3⟩ := hpre
  have hz := join_ptr h1 h2
  simp [asm, -BitVec.toNat_append, hz, h3, StoreSpec]

theorem swap8_cert (al) (p : BitVec 16) (val : BitVec 8) :
    Nonempty (Cert .little ien (swap8Block al p val) p.toNat
      (fun m m' out _ => SwapSpec .little p.toNat 8 val m m' out)) := by
  refine ⟨certOf _ _ _ _ _ 2 4 20 ?_⟩
  intro rs m hpre
  simp [asm, Block.pre] at hpre
  obtain ⟨h1, h2, h3⟩ := hpre
  have hz := join_ptr h1 h2
  simp [asm, -BitVec.toNat_append, hz, h3, SwapSpec]

theorem cas8_cert (al) (p : BitVec 16) (old new : BitVec 8) :
    Nonempty (Cert .little ien (cas8Block al p old new) p.toNat
      (fun m m' out ok => CasSpec .little p.toNat 8 old new m m' out ok)) := by
  refine ⟨certOf _ _ _ _ _ 2 8 20 ?_⟩
  intro rs m hpre
  simp [asm, Block.pre] at hpre
  obtain ⟨h1, h2, h3, h4⟩ := hpre
  have hz := join_ptr h1 h2
  simp [asm, -BitVec.toNat_append, hz, h3, h4, CasSpec]
  intro m1 _ m2 _
  refine ⟨fun h => ?_, fun h => ?_⟩
  · simp [h, Ne.symm h]
  · simp [h]

theorem load16_cert (al ro) (p : BitVec 16) (hp : p.toNat % 2 = 0) :
    Nonempty (Cert .little ien (load16Block al ro p) p.toNat
      (fun m m' out _ => LoadSpec .little p.toNat 16 m m' out)) := by
  refine ⟨certOf _ _ _ _ _ 2 4 20 ?_⟩
  intro rs m hpre
  simp [asm, Block.pre] at hpre
  have hz := join_ptr hpre.1 hpre.2
  have hs := ptr_succ hp
  cases ro <;> simp [asm, -BitVec.toNat_append, -BitVec.toNat_add, hz, hs, LoadSpec, load16]

theorem store16_cert (al wo) (p val : BitVec 16) (hp : p.toNat % 2 = 0) :
    Nonempty (Cert .little ien (store16Block al wo p val) p.toNat
      (fun m m' _ _ => StoreSpec .little p.toNat 16 val m m')) := by
  refine ⟨certOf _ _ _ _ _ 2 4 20 ?_⟩
  intro rs m hpre
  simp [asm, Block.pre] at hpre
  obtain ⟨h1, h2, h3, h4⟩ := hpre
  have hz := join_ptr h1 h2
  have hs := ptr_succ hp
  cases wo <;>
  simp [asm, -BitVec.toNat_append, -BitVec.toNat_add, hz, hs, h3, h4, StoreSpec, store16_lohi, store16_hilo]

theorem swap16_cert (al ro wo) (p val : BitVec 16) (hp : p.toNat % 2 = 0) :
    Nonempty (Cert .little ien (swap16Block al ro wo p val) p.toNat
      (fun m m' out _ => SwapSpec .little p.toNat 16 val m m' out)) := by
  refine ⟨certOf _ _ _ _ _ 2 6 20 ?_⟩
  intro rs m hpre
  simp [asm, Block.pre] at hpre
  obtain ⟨h1, h2, h3, h4⟩ := hpre
  have hz := join_ptr h1 h2
  have hs := ptr_succ hp
  cases ro <;> cases wo <;>
  simp [asm, -BitVec.toNat_append, -BitVec.toNat_add, hz, hs, h3, h4, SwapSpec, store16_lohi, store16_hilo, load16]

theorem cas16_cert (al ro wo) (p old new : BitVec 16) (hp : p.toNat % 2 = 0) :
    Nonempty (Cert .little ien (cas16Block al ro wo p old new) p.toNat
      (fun m m' out ok => CasSpec .little p.toNat 16 old new m m' out ok)) := by
  refine ⟨certOf _ _ _ _ _ 2 13 20 ?_⟩
  intro rs m hpre
  simp [asm, Block.pre] at hpre
  obtain ⟨h1, h2, h3, h4, h5, h6⟩ := hpre
  have hz := join_ptr h1 h2
  have hs := ptr_succ hp
  have key : ∀ m, ((lo8 old ^^^ load .little m p.toNat 8) ||| (hi8 old ^^^ load .little m (p.toNat + 1) 8)) = 0#8 ↔
      load .little m p.toNat 16 = old := by
    intro m; rw [← load_lo, ← load_hi, cmp16_zero, eq_comm]
  cases ro <;> cases wo <;>
  (simp [asm, -BitVec.toNat_append, -BitVec.toNat_add, -BitVec.or_eq_zero_iff, -BitVec.xor_eq_zero_iff, hz, hs,
      h3, h4, h5, h6, CasSpec, store16_lohi, store16_hilo, load16, key]
   intro m1 _ m2 _
   refine ⟨fun h => ?_, fun h => ?_⟩ <;> simp [h])

/-! ### The status register -/

macro "status_tac" : tactic => `(tactic| (refine ⟨20, ?_⟩; intro rs0 _; simp +contextual [asm]))

theorem load8_status (al p) : (load8Block al p).StatusOK ien sreg := by status_tac
theorem store8_status (al p v) : (store8Block al p v).StatusOK ien sreg := by status_tac
theorem swap8_status (al p v) : (swap8Block al p v).StatusOK ien sreg := by status_tac
theorem cas8_status (al p o n) : (cas8Block al p o n).StatusOK ien sreg := by status_tac
theorem load16_status (al ro p) : (load16Block al ro p).StatusOK ien sreg := by cases ro <;> status_tac
theorem store16_status (al wo p v) : (store16Block al wo p v).StatusOK ien sreg := by cases wo <;> status_tac
theorem swap16_status (al ro wo p v) : (swap16Block al ro wo p v).StatusOK ien sreg := by
  cases ro <;> cases wo <;> status_tac
theorem cas16_status (al ro wo p o n) : (cas16Block al ro wo p o n).StatusOK ien sreg := by
  cases ro <;> cases wo <;> status_tac

end Verif.Avr
