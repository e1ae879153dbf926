import Verif.Arch.S390x
import Verif.Core.BackendLemmas
set_option linter.unusedSimpArgs false
set_option maxRecDepth 4000
namespace Verif.S390x

theorem low32_low (r : BitVec 64) (x : BitVec 32) {w : Nat} (hw : w ≤ 32) :
    (low32 r x).setWidth w = x.setWidth w := by
  apply BitVec.eq_of_getLsbD_eq
  intro i hi
  have h1 : i < 32 := by omega
  have h2 : i < 64 := by omega
  simp only [low32, BitVec.getLsbD_setWidth, BitVec.getLsbD_append, hi, h1, decide_true, Bool.true_and, if_true]

theorem low32_32 (r : BitVec 64) (x : BitVec 32) : (low32 r x).setWidth 32 = x := by
  rw [low32_low r x (Nat.le_refl _), BitVec.setWidth_eq]

theorem ldVal_low {w : Nat} (hw : SubSize w ∨ WordSize 64 w) (r : BitVec 64) (x : BitVec w) :
    (ldVal w r x).setWidth w = x := by
  rcases hw with (rfl | rfl) | rfl | ⟨rfl, _⟩
  · rw [ldVal, if_neg (by decide), low32_low _ _ (by decide), setWidth_signExtend (by decide)]
  · rw [ldVal, if_neg (by decide), low32_low _ _ (by decide), setWidth_signExtend (by decide)]
  · rw [ldVal, if_neg (by decide), low32_low _ _ (by decide), setWidth_signExtend (by decide)]
  · simp [ldVal]

theorem ldVal_32 (r : BitVec 64) (x : BitVec 32) : (ldVal 32 r x).setWidth 32 = x := ldVal_low (.inr (.inl rfl)) r x

theorem cmpCC_lh {n : Nat} (a b : BitVec n) : (cmpCC a b = 1#2 ∨ cmpCC a b = 2#2) ↔ ¬ a = b := by
  unfold cmpCC
  by_cases h : a = b
  · simp [h]
  · by_cases h2 : a.slt b = true <;> simp [h, h2]
theorem cmpCC_zero {n : Nat} (a b : BitVec n) : cmpCC a b = 0#2 ↔ a = b := by
  unfold cmpCC
  by_cases h : a = b
  · simp [h]
  · by_cases h2 : a.slt b = true <;> simp [h, h2]

/-- `extract_cc` is true exactly if the condition code is zero. -/
theorem extractCC_ipm (r : BitVec 64) (pm : BitVec 4) (cc : BitVec 2) :
    extractCC (ipmVal r pm cc) = (cc == 0#2) := by
  have h0 : ∀ x : BitVec 64, ((x &&& (1#64 <<< 31)) != 0#64) = x.getLsbD 31 := by
    intro x
    rw [show (1#64 <<< 31) = BitVec.twoPow 64 31 by decide, BitVec.and_twoPow]
    cases x.getLsbD 31 <;> decide
  have h1 : ∀ x : BitVec 64, x.getLsbD 31 = (x.setWidth 32).msb := by
    intro x; simp [BitVec.msb_eq_getLsbD_last]
  rw [extractCC, h0, h1, BitVec.setWidth_add _ _ (by decide)]
  have h2 : (ipmVal r pm cc).setWidth 32 = 0#2 ++ cc ++ pm ++ r.setWidth 24 := low32_32 _ _
  rw [h2, BitVec.msb_eq_decide, BitVec.toNat_add]
  have h3 : (0#2 ++ cc ++ pm ++ r.setWidth 24).toNat
      = cc.toNat * 2 ^ 28 + pm.toNat * 2 ^ 24 + (r.setWidth 24).toNat := by
    have a1 := (r.setWidth 24).isLt
    have a2 := pm.isLt
    have a3 := cc.isLt
    rw [BitVec.toNat_append, BitVec.toNat_append, BitVec.toNat_append, ← Nat.shiftLeft_add_eq_or_of_lt a1,
      ← Nat.shiftLeft_add_eq_or_of_lt a2, ← Nat.shiftLeft_add_eq_or_of_lt a3]
    simp only [BitVec.toNat_ofNat, Nat.shiftLeft_eq]
    omega
  rw [h3, show ((BitVec.ofInt 64 (-268435456)).setWidth 32).toNat = 4026531840 by decide]
  have a1 := (r.setWidth 24).isLt
  have a2 := pm.isLt
  have a3 := cc.isLt
  have hcc : (cc == 0#2) = decide (cc.toNat = 0) := by
    rw [Bool.eq_iff_iff, beq_iff_eq, decide_eq_true_iff, ← BitVec.toNat_inj]; rfl
  rw [hcc, decide_eq_decide]
  omega

/-! ### Rotations -/

theorem rot64 (x : BitVec 32) (n : Nat) : x.rotateLeft (n % 64) = x.rotateLeft (n % 32) := by
  rw [← BitVec.rotateLeft_mod_eq_rotateLeft (r := n % 64), ← BitVec.rotateLeft_mod_eq_rotateLeft (r := n % 32)]
  congr 1; omega

theorem amount_mod {x : BitVec 64} (d : Int) {k : Nat} (hx : x.toNat % 32 = k) :
    (((amount x d % 32 : Nat) : Int)) = (k + d) % 32 := by
  rw [amount, Nat.mod_mod_of_dvd _ (by decide : 32 ∣ 64)]
  rw [BitVec.toNat_add, BitVec.toNat_ofInt]
  omega

theorem getLsbD_maskBE {i3 i4 i : Nat} (h3 : i3 ≤ 63) (h4 : i4 ≤ 63) :
    (maskBE i3 i4).getLsbD i = (decide (63 - i4 ≤ i) && decide (i ≤ 63 - i3)) := by
  rw [maskBE, BitVec.getLsbD_and, BitVec.getLsbD_ushiftRight, BitVec.getLsbD_shiftLeft, BitVec.getLsbD_allOnes,
    BitVec.getLsbD_allOnes, Bool.eq_iff_iff]
  simp only [Bool.and_eq_true, decide_eq_true_eq, Bool.not_eq_true', decide_eq_false_iff_not]
  omega

theorem getLsbD_rot32 (X : BitVec 32) {n i : Nat} (hn : n < 32) (hi : i < 32) :
    (X.rotateLeft n).getLsbD i = X.getLsbD (if i < n then 32 - n + i else i - n) := by
  rw [BitVec.getLsbD_rotateLeft, Nat.mod_eq_of_lt hn]
  by_cases h : i < n <;> simp [h, hi]

theorem getLsbD_rot64 (X : BitVec 64) {n i : Nat} (hn : n < 64) (hi : i < 64) :
    (X.rotateLeft n).getLsbD i = X.getLsbD (if i < n then 64 - n + i else i - n) := by
  rw [BitVec.getLsbD_rotateLeft, Nat.mod_eq_of_lt hn]
  by_cases h : i < n <;> simp [h, hi]

theorem low_bit {n k : Nat} {x : BitVec n} {v : BitVec k} (h : x.setWidth k = v) {i : Nat} (hi : i < k) :
    x.getLsbD i = v.getLsbD i := by
  rw [← h, BitVec.getLsbD_setWidth]; simp [hi]

/-- `risbg {out}, {val}, 32, $risbg_swap` puts the object at the top of the 32-bit part. -/
theorem risbg_swap {w : Nat} (hw : SubSize w) (t a : BitVec 64) (v : BitVec w) (ha : a.setWidth w = v) {i : Nat}
    (hi : i < 32) :
    ((risbgVal t a 32 (risbgSwap w).1 (risbgSwap w).2).setWidth 32).getLsbD i
      = if 32 - w ≤ i then v.getLsbD (i - (32 - w)) else t.getLsbD i := by
  have h64 : i < 64 := by omega
  rcases hw with rfl | rfl
  · simp only [risbgVal, risbgSwap, if_true, BitVec.getLsbD_setWidth, hi, decide_true, Bool.true_and,
      BitVec.getLsbD_or, BitVec.getLsbD_and, BitVec.getLsbD_not, h64]
    rw [getLsbD_maskBE (by decide) (by decide), getLsbD_rot64 _ (by decide) h64]
    by_cases h : 24 ≤ i
    · have h1 : ¬ i < 24 := by omega
      have h2 : i ≤ 31 := by omega
      rw [if_neg h1, low_bit ha (by omega)]
      simp [h, h2]
    · simp [h]
  · simp only [risbgVal, risbgSwap, if_true, BitVec.getLsbD_setWidth, hi, decide_true, Bool.true_and,
      BitVec.getLsbD_or, BitVec.getLsbD_and, BitVec.getLsbD_not, h64, if_neg (show ¬ (16 : Nat) = 8 by decide)]
    rw [getLsbD_maskBE (by decide) (by decide), getLsbD_rot64 _ (by decide) h64]
    by_cases h : 16 ≤ i
    · have h1 : ¬ i < 16 := by omega
      have h2 : i ≤ 31 := by omega
      rw [if_neg h1, low_bit ha (by omega)]
      simp [h, h2]
    · simp [h]

/-- `risbg {new}, {out}, 32, $risbg_cas, 0` keeps the low `w` bits of `new` and takes the rest from `out`. -/
theorem risbg_cas {w : Nat} (hw : SubSize w) (t a : BitVec 64) {i : Nat} (hi : i < 32) :
    (risbgVal t a 32 (risbgCas w) 0).getLsbD i = if i < w then t.getLsbD i else a.getLsbD i := by
  have h64 : i < 64 := by omega
  rcases hw with rfl | rfl
  · simp only [risbgVal, risbgCas, if_true, BitVec.getLsbD_or, BitVec.getLsbD_and, BitVec.getLsbD_not, h64,
      decide_true, Bool.true_and]
    rw [getLsbD_maskBE (by decide) (by decide), getLsbD_rot64 _ (by decide) h64]
    by_cases h : i < 8
    · have h2 : ¬ 8 ≤ i := by omega
      simp [h, h2]
    · have h2 : 8 ≤ i := by omega
      have h3 : i ≤ 31 := by omega
      simp [h, h2, h3]
  · simp only [risbgVal, risbgCas, if_true, BitVec.getLsbD_or, BitVec.getLsbD_and, BitVec.getLsbD_not, h64,
      decide_true, Bool.true_and, if_neg (show ¬ (16 : Nat) = 8 by decide)]
    rw [getLsbD_maskBE (by decide) (by decide), getLsbD_rot64 _ (by decide) h64]
    by_cases h : i < 16
    · have h2 : ¬ 16 ≤ i := by omega
      simp [h, h2]
    · have h2 : 16 ≤ i := by omega
      have h3 : i ≤ 31 := by omega
      simp [h, h2, h3]

theorem risbg_cas_low {w : Nat} (hw : SubSize w) (t a : BitVec 64) :
    (risbgVal t a 32 (risbgCas w) 0).setWidth w = t.setWidth w := by
  apply BitVec.eq_of_getLsbD_eq
  intro i hi
  have := hw.le
  simp only [BitVec.getLsbD_setWidth, risbg_cas hw t a (show i < 32 by omega), hi, if_true]

/-- rotate, insert at the top, rotate back: a masked insertion (swap) -/
theorem swap_store {m : Mem} {A w off n n' : Nat} (hw : SubSize w) (hfit : 8 * off + w ≤ 32)
    (hn : n % 32 = 8 * off) (hn' : n' % 32 = (32 - 8 * off) % 32)
    (t a : BitVec 64) (v : BitVec w) (ha : a.setWidth w = v) :
    store .big m A 32
      (((risbgVal (low32 t ((load .big m A 32).rotateLeft n)) a 32 (risbgSwap w).1
        (risbgSwap w).2).setWidth 32).rotateLeft n')
      = store .big m (A + off) w v := by
  apply store_sub (by decide) hw.mod8 hfit
  intro i hi
  rw [← BitVec.rotateLeft_mod_eq_rotateLeft (r := n'), ← BitVec.rotateLeft_mod_eq_rotateLeft (r := n), hn, hn']
  have hoff : 8 * off < 32 := by have := hw.pos; omega
  have hl := hw.le
  have hp := hw.pos
  rw [getLsbD_rot32 _ (by omega) hi]
  generalize hj : (if i < (32 - 8 * off) % 32 then 32 - (32 - 8 * off) % 32 + i else i - (32 - 8 * off) % 32) = j
  have hj32 : j < 32 := by rw [← hj]; split <;> omega
  rw [risbg_swap hw _ _ v ha hj32, show bitPos .big 32 w off = 32 - w - 8 * off from rfl]
  have hjj : (i < 32 - 8 * off → j = i + 8 * off) ∧ (32 - 8 * off ≤ i → j = i - (32 - 8 * off)) := by
    rw [← hj]
    rcases Nat.eq_zero_or_pos off with rfl | hpos
    · simp; omega
    · rw [Nat.mod_eq_of_lt (by omega)]; split <;> omega
  clear hj
  by_cases h1 : 32 - w - 8 * off ≤ i ∧ i < 32 - w - 8 * off + w
  · rw [if_pos h1, if_pos (by omega)]
    congr 1; omega
  · rw [if_neg h1, if_neg (by omega)]
    rw [low_bit (low32_32 _ _) hj32, getLsbD_rot32 _ hoff hj32]
    congr 1
    split <;> omega

/-- rotating the object to the bottom extracts it -/
theorem rot_extract {m : Mem} {A w off n : Nat} (hw : SubSize w) (hfit : 8 * off + w ≤ 32)
    (hn : n % 32 = (8 * off + w) % 32) :
    ((load .big m A 32).rotateLeft n).setWidth w = load .big m (A + off) w := by
  rw [← load_sub (C := 32) (by decide) hw.mod8 hfit]
  apply BitVec.eq_of_getLsbD_eq
  intro i hi
  have hl := hw.le
  rw [BitVec.getLsbD_setWidth, BitVec.getLsbD_extractLsb', ← BitVec.rotateLeft_mod_eq_rotateLeft (r := n), hn,
    getLsbD_rot32 _ (Nat.mod_lt _ (by decide)) (by omega)]
  simp only [hi, decide_true, Bool.true_and, bitPos]
  congr 1
  rcases Nat.eq_or_lt_of_le hfit with h | h
  · rw [h]; simp; omega
  · rw [Nat.mod_eq_of_lt h]; split <;> omega

/-- rotate the object to the bottom, replace it, rotate back (compare_exchange) -/
theorem cas_store {m : Mem} {A w off n n' : Nat} (hw : SubSize w) (hfit : 8 * off + w ≤ 32)
    (hn : n % 32 = (8 * off + w) % 32) (hn' : n' % 32 = (64 - 8 * off - w) % 32)
    (t r : BitVec 64) :
    store .big m A 32
      (((risbgVal r (low32 t ((load .big m A 32).rotateLeft n)) 32 (risbgCas w) 0).setWidth 32).rotateLeft n')
      = store .big m (A + off) w (r.setWidth w) := by
  apply store_sub (by decide) hw.mod8 hfit
  intro i hi
  rw [← BitVec.rotateLeft_mod_eq_rotateLeft (r := n'), ← BitVec.rotateLeft_mod_eq_rotateLeft (r := n), hn, hn']
  have hl := hw.le
  have hp := hw.pos
  rw [getLsbD_rot32 _ (Nat.mod_lt _ (by decide)) hi]
  generalize hj : (if i < (64 - 8 * off - w) % 32 then 32 - (64 - 8 * off - w) % 32 + i
    else i - (64 - 8 * off - w) % 32) = j
  have hj32 : j < 32 := by rw [← hj]; split <;> omega
  rw [BitVec.getLsbD_setWidth, risbg_cas hw _ _ hj32]
  rw [show bitPos .big 32 w off = 32 - w - 8 * off from rfl]
  simp only [hj32, decide_true, Bool.true_and]
  have hjj : (i < 32 - w - 8 * off → j = i + (8 * off + w)) ∧ (32 - w - 8 * off ≤ i → j = i - (32 - w - 8 * off)) := by
    rw [← hj]
    rcases Nat.eq_or_lt_of_le hfit with h | h
    · rw [show 64 - 8 * off - w = 32 by omega]; simp; omega
    · rw [show 64 - 8 * off - w = 32 + (32 - 8 * off - w) by omega, Nat.add_mod_left, Nat.mod_eq_of_lt (by omega)]
      split <;> omega
  clear hj
  by_cases h1 : 32 - w - 8 * off ≤ i ∧ i < 32 - w - 8 * off + w
  · rw [if_pos h1, if_pos (by omega), BitVec.getLsbD_setWidth]
    have h2 : i - (32 - w - 8 * off) < w := by omega
    simp only [h2, decide_true, Bool.true_and]
    congr 1; omega
  · rw [if_neg h1, if_neg (by omega)]
    rw [low_bit (low32_32 _ _) hj32, getLsbD_rot32 _ (Nat.mod_lt _ (by decide)) hj32]
    congr 1
    rcases Nat.eq_or_lt_of_le hfit with h | h
    · rw [h]; simp; omega
    · rw [Nat.mod_eq_of_lt h]; split <;> omega

/-! ### Blocks -/

abbrev ldMon : Mon := ({} : Mon).onRd .plain
abbrev stMon (f : Pairs) : Mon := (({} : Mon).onWr .plain).onFence f
abbrev rmwMon : Mon := (({} : Mon).onRd ser).onWr ser
abbrev failMon : Mon := ({} : Mon).onRd ser

theorem size_le64 {w : Nat} (hw : SubSize w ∨ WordSize 64 w) : w ≤ 64 := size_le (by decide) hw

theorem load_impl (al : Alloc loadKind) {w : Nat} (hw : SubSize w ∨ WordSize 64 w)
    (p : BitVec 64) (B : Block 64 w) (hB : B = loadBlock al w p) :
    Implements .big B.code B.pre (fun m m' rs M => LoadSpec .big p.toNat w m m' (B.out rs) ∧ M = ldMon) := by
  subst hB
  refine implements_straight 20 ?_
  intro rs m h
  simp [asm] at h
  simp [asm, h, LoadSpec, ldVal_low hw]

theorem store_impl (al : Alloc storeKind) {w : Nat} (f : Pairs)
    (p : BitVec 64) (val : BitVec w) (B : Block 64 w) (hB : B = storeBlock al w f p val) :
    Implements .big B.code B.pre (fun m m' _ M => StoreSpec .big p.toNat w val m m' ∧ M = stMon f) := by
  subst hB
  refine implements_straight 20 ?_
  intro rs m h
  simp [asm] at h
  simp [asm, h, StoreSpec]

theorem swap_impl (al : Alloc swapKind) {w : Nat} (hw : WordSize 64 w)
    (p : BitVec 64) (val : BitVec w) (B : Block 64 w) (hB : B = swapBlock al w p val) :
    Implements .big B.code B.pre (fun m m' rs M => SwapSpec .big p.toNat w val m m' (B.out rs) ∧ M = rmwMon) := by
  subst hB
  refine implements_loop 1 (fun rs g => (rs.r (al .dst) = p ∧ (rs.r (al .val)).setWidth w = val) ∧
      g.Clean ∧ g.mon.onRd ser = failMon) 40 ?_ ?_
  · rintro rs g ⟨⟨rfl, rfl⟩, hc, hm⟩
    simp [asm, hc, hm, SwapSpec]
    intro m
    by_cases h : load .big m (rs.r (al .dst)).toNat w = (rs.r (al .out)).setWidth w <;> simp [h]
  · rintro rs m h
    simp [asm] at h
    simp [asm, h]

theorem cas_impl (al : Alloc casKind) {w : Nat} (hw : WordSize 64 w)
    (p : BitVec 64) (old new : BitVec w) (B : Block 64 w) (hB : B = casBlock al w p old new) :
    Implements .big B.code B.pre
      (fun m m' rs M => CasSpec .big p.toNat w old new m m' (B.out rs) (B.ok rs) ∧
        M = if B.ok rs then rmwMon else failMon) := by
  subst hB
  refine implements_straight 20 ?_
  rintro rs m h
  simp [asm] at h
  obtain ⟨rfl, rfl, rfl⟩ := h
  simp [asm, CasSpec, extractCC_ipm, ldVal_low (.inr hw)]
  intro m
  by_cases h : load .big m (rs.r (al .dst)).toNat w = (rs.r (al .old)).setWidth w <;>
    simp [h, extractCC_ipm, ldVal_low (.inr hw)]

theorem sub_facts {w : Nat} (hw : SubSize w) (p : BitVec 64) (hal : p.toNat % (w / 8) = 0) :
    (sub w p).1.toNat + p.toNat % 4 = p.toNat ∧ (sub w p).2.1.toNat % 32 = 8 * (p.toNat % 4) ∧
      (-(sub w p).2.1).toNat % 32 = (32 - 8 * (p.toNat % 4)) % 32 := by
  obtain ⟨h1, h2, _⟩ := subword_noshift true (R := 32) .little (by omega) (by omega) hw p hal (by decide)
  refine ⟨h1, h2, ?_⟩
  rw [BitVec.toNat_neg]
  have h2 : (sub w p).2.1.toNat % 32 = 8 * (p.toNat % 4) := h2
  have := (sub w p).2.1.isLt
  omega

/-- the low five bits of a `u32` operand in a 64-bit register -/
theorem arg_mod {x : BitVec 64} {y : BitVec 32} (h : x.setWidth 32 = y) : x.toNat % 32 = y.toNat % 32 := by
  rw [← h, BitVec.toNat_setWidth]; omega

theorem sub_swap_impl (al : Alloc subSwapKind) {w : Nat} (hw : SubSize w)
    (p : BitVec 64) (hal : p.toNat % (w / 8) = 0) (val : BitVec w) (B : Block 64 w)
    (hB : B = subSwapBlock al w p val) :
    Implements .big B.code B.pre
      (fun m m' rs M => SwapSpec .big p.toNat w val m m' (B.out rs) ∧ M = rmwMon) := by
  subst hB
  have hfit : 8 * (p.toNat % 4) + w ≤ 32 := subword_fit hw hal
  obtain ⟨hA, hsh, hsc⟩ := sub_facts hw p hal
  generalize hoff : p.toNat % 4 = off at *
  generalize hAA : (sub w p).1.toNat = A at *
  refine implements_loop 1 (fun rs g => ((rs.r (al .dst)).toNat = A ∧
      (rs.r (al .shift)).toNat % 32 = 8 * off ∧ (rs.r (al .shift_c)).toNat % 32 = (32 - 8 * off) % 32 ∧
      (rs.r (al .val)).setWidth w = val) ∧ g.Clean ∧
      g.mon.onRd ser = failMon) 40 ?_ ?_
  · rintro rs g ⟨⟨h1, hs, hs', hv⟩, hc, hm⟩
    have ha0 := amount_mod 0 hs
    have haw := amount_mod w hs
    have hac := amount_mod 0 hs'
    simp [asm, hc, hm, hs, hs', hv, h1, SwapSpec, low32_low _ _ hw.le, low32_32]
    intro m
    by_cases h : load .big m A 32 = (rs.r (al .prev)).setWidth 32
    · simp [h]
      rw [← h, rot_extract hw hfit (by omega), swap_store hw hfit (by omega) (by omega) _ _ val hv, hA]
      exact ⟨rfl, rfl⟩
    · simp [h]
  · rintro rs m h
    simp [asm] at h
    simp [asm, h, hAA, arg_mod h.2.2.1, arg_mod h.2.2.2, hsh, hsc, -BitVec.toNat_neg]

theorem sub_cas_impl (al : Alloc subCasKind) {w : Nat} (hw : SubSize w)
    (p : BitVec 64) (hal : p.toNat % (w / 8) = 0) (old new : BitVec w) (B : Block 64 w)
    (hB : B = subCasBlock al w p old new) :
    Implements .big B.code B.pre
      (fun m m' rs M => CasSpec .big p.toNat w old new m m' (B.out rs) (B.ok rs) ∧
        (if B.ok rs then M = rmwMon else M = ldMon ∨ M = failMon)) := by
  subst hB
  have hfit : 8 * (p.toNat % 4) + w ≤ 32 := subword_fit hw hal
  obtain ⟨hA, hsh, hsc⟩ := sub_facts hw p hal
  generalize hoff : p.toNat % 4 = off at *
  generalize hAA : (sub w p).1.toNat = A at *
  have hpos := hw.pos
  refine implements_loop 1 (fun rs g => ((rs.r (al .dst)).toNat = A ∧
      (rs.r (al .shift)).toNat % 32 = 8 * off ∧ (rs.r (al .shift_c)).toNat % 32 = (32 - 8 * off) % 32 ∧
      (rs.r (al .old)).setWidth 32 = old.setWidth 32 ∧
      (rs.r (al .new)).setWidth w = new) ∧ (∃ m s M, g = ⟨s, some (m, m), M⟩ ∧ (M = ldMon ∨ M = failMon) ∧
        (rs.r (al .prev)).setWidth 32 = load .big m A 32)) 40 ?_ ?_
  · rintro rs g ⟨⟨h1, hs, hs', ho, hn⟩, m0, s0, M0, rfl, hM, hprev⟩
    have haw := amount_mod w hs
    have hac := amount_mod (-w) hs'
    have hzx : ∀ x : BitVec w, (x.setWidth 32).setWidth w = x := fun x => by
      rw [BitVec.setWidth_setWidth_of_le _ hw.le, BitVec.setWidth_eq]
    have hMr : M0.onRd ser = failMon := by rcases hM with rfl | rfl <;> rfl
    have hMw : M0.wr = none := by rcases hM with rfl | rfl <;> rfl
    have hx := rot_extract (m := m0) (A := A) (n := amount (rs.r (al .shift)) w) hw hfit (by omega)
    rw [hA] at hx
    simp [asm, hMr, hMw, hs, hs', hn, h1, ho, hprev, CasSpec, low32_low _ _ hw.le, low32_32, hx, extractCC_ipm,
      setWidth_inj hw.le, risbg_cas_low hw, ldVal_32, cmpCC_lh, cmpCC_zero]
    by_cases h : load .big m0 p.toNat w = old
    · simp [h]
      intro m
      by_cases h2 : load .big m A 32 = load .big m0 A 32
      · simp [h2]
        have h3 : load .big m p.toNat w = load .big m0 p.toNat w := by
          rw [← hA, ← load_sub (C := 32) (by decide) hw.mod8 hfit, h2, load_sub (C := 32) (by decide) hw.mod8 hfit]
        rw [h3, h, ← h2, cas_store hw hfit (by omega) (by omega), hA, hn]
        simp [extractCC_ipm, hzx]
      · simp [h2]
        exact ⟨_, _, _, ⟨rfl, rfl, rfl⟩, .inr rfl, ldVal_32 _ _⟩
    · simp [h, hM, hzx]
  · rintro rs m h
    simp [asm] at h
    simp [asm, h, hAA, arg_mod h.2.2.2.1, arg_mod h.2.2.2.2, hsh, hsc, -BitVec.toNat_neg, ldVal_32, zeroExtend_eq .big hw.mod8 hw.le]
    exact fun m1 => ⟨_, _, _, ⟨rfl, rfl, rfl⟩, .inl rfl, rfl⟩

theorem pr_eq (v : BitVec 128) : pr v = (lowHalf 64 v, highHalf 64 v) :=
  pairOf_num (e := .big) (w := 128) (h := 64) rfl rfl v
theorem of_eq (lo hi : BitVec 64) : ofPair false .big 128 lo hi = joinHL 128 hi lo :=
  ofPair_num (e := .big) (w := 128) (h := 64) rfl rfl lo hi

theorem lq_impl (al : Alloc lqKind) (p : BitVec 64) (B : Block 64 128) (hB : B = lqBlock al p) :
    Implements .big B.code B.pre (fun m m' rs M => LoadSpec .big p.toNat 128 m m' (B.out rs) ∧ M = ldMon) := by
  subst hB
  refine implements_straight 20 ?_
  intro rs m h
  simp [asm] at h
  simp [asm, h, LoadSpec, of_eq, joinHL_halves]

theorem stq_impl (al : Alloc stqKind) (f : Pairs) (p : BitVec 64) (val : BitVec 128) (B : Block 64 128)
    (hB : B = stqBlock al f p val) :
    Implements .big B.code B.pre (fun m m' _ M => StoreSpec .big p.toNat 128 val m m' ∧ M = stMon f) := by
  subst hB
  refine implements_straight 20 ?_
  intro rs m h
  simp [asm, pr_eq] at h
  simp [asm, h, StoreSpec, joinHL_halves]

theorem swapq_impl (al : Alloc swapqKind) (p : BitVec 64) (val : BitVec 128) (B : Block 64 128)
    (hB : B = swapqBlock al p val) :
    Implements .big B.code B.pre
      (fun m m' rs M => SwapSpec .big p.toNat 128 val m m' (B.out rs) ∧ M = rmwMon) := by
  subst hB
  refine implements_loop 2 (fun rs g => (rs.r (al .dst) = p ∧
      joinHL 128 (rs.r (al .val_hi)) (rs.r (al .val_lo)) = val) ∧
      g.Clean ∧ g.mon.onRd ser = failMon) 40 ?_ ?_
  · rintro rs g ⟨⟨rfl, rfl⟩, hc, hm⟩
    simp [asm, hc, hm, SwapSpec, of_eq]
    intro m
    by_cases h : load .big m (rs.r (al .dst)).toNat 128 = joinHL 128 (rs.r (al .prev_hi)) (rs.r (al .prev_lo)) <;>
      simp [h]
  · rintro rs m h
    simp [asm, pr_eq] at h
    simp [asm, h, joinHL_halves]

theorem casq_impl (al : Alloc casqKind) (p : BitVec 64) (old new : BitVec 128) (B : Block 64 128)
    (hB : B = casqBlock al p old new) :
    Implements .big B.code B.pre
      (fun m m' rs M => CasSpec .big p.toNat 128 old new m m' (B.out rs) (B.ok rs) ∧
        M = if B.ok rs then rmwMon else failMon) := by
  subst hB
  refine implements_straight 20 ?_
  rintro rs m h
  simp [asm, pr_eq] at h
  simp [asm, h, CasSpec, extractCC_ipm, of_eq, joinHL_halves]
  intro m
  by_cases h : load .big m p.toNat 128 = old <;>
    simp [h, extractCC_ipm, joinHL_halves]

end Verif.S390x
