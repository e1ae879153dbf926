import Verif.Arch.X86
import Verif.Core.BackendLemmas
set_option linter.unusedSimpArgs false
namespace Verif.X86
variable {W : Nat}

/-- monitor of a plain read -/
abbrev rdMon : Mon := ({} : Mon).onRd .plain
/-- monitor of a plain write -/
abbrev wrMon : Mon := ({} : Mon).onWr .plain
/-- monitor of a plain write followed by a full barrier -/
abbrev wrFMon : Mon := (({} : Mon).onWr .plain).onFence Pairs.full
/-- monitor of a locked read-modify-write -/
abbrev rmwMon : Mon := (({} : Mon).onRd locked).onWr locked
/-- monitor of a failed locked compare-and-exchange -/
abbrev failMon : Mon := ({} : Mon).onRd locked

/-- the low bits of a register after a partial write -/
theorem part_low {w : Nat} (hw : w ≤ W) (x : BitVec w) (r : BitVec W) : (part x r).setWidth w = x := by
  apply BitVec.eq_of_getLsbD_eq
  intro i hi
  have hW : i < W := by omega
  unfold part
  split
  · simp [hi, hW]
  · simp [BitVec.getLsbD_setWidth, BitVec.getLsbD_or, BitVec.getLsbD_shiftLeft, hi, hW]

theorem part_eq (x r : BitVec W) : part x r = x := by
  have := part_low (Nat.le_refl W) x r
  simpa using this

theorem load_impl (al : Alloc loadKind) {w P : Nat} (hw : w ≤ W) (p : BitVec P) (B : Block W w)
    (hB : B = loadBlock al w p) :
    Implements .little B.code B.pre (fun m m' rs M => LoadSpec .little p.toNat w m m' (B.out rs) ∧ M = rdMon) := by
  subst hB
  refine implements_straight 20 ?_
  intro rs m h
  simp [asm] at h
  simp [asm, h, LoadSpec, part_low hw]

theorem store_impl (al : Alloc storeKind) {w P : Nat} (p : BitVec P) (val : BitVec w) (B : Block W w)
    (hB : B = storeBlock al w p val) :
    Implements .little B.code B.pre (fun m m' _ M => StoreSpec .little p.toNat w val m m' ∧ M = wrMon) := by
  subst hB
  refine implements_straight 20 ?_
  intro rs m h
  simp [asm] at h
  simp [asm, h, StoreSpec]

theorem swap_impl (al : Alloc swapKind) {w P : Nat} (hw : w ≤ W) (p : BitVec P) (val : BitVec w) (B : Block W w)
    (hB : B = swapBlock al w p val) :
    Implements .little B.code B.pre
      (fun m m' rs M => SwapSpec .little p.toNat w val m m' (B.out rs) ∧ M = rmwMon) := by
  subst hB
  refine implements_straight 20 ?_
  intro rs m h
  simp [asm] at h
  simp [asm, h, SwapSpec, part_low hw]

theorem cas_impl (al : Alloc casKind) {w P : Nat} (hW : 8 ≤ W) (hw : w ≤ W) (p : BitVec P) (old new : BitVec w)
    (B : Block W w) (hB : B = casBlock al w p old new) :
    Implements .little B.code B.pre
      (fun m m' rs M => (CasSpec .little p.toNat w old new m m' (B.out rs) (B.ok rs) ∧ B.assumes rs) ∧
        M = if B.ok rs then rmwMon else failMon) := by
  subst hB
  refine implements_straight 20 ?_
  rintro rs m h
  simp [asm] at h
  obtain ⟨h1, h2, h3⟩ := h
  simp [asm, CasSpec, part_low hw, part_low hW, h1, h2, h3]
  intro m
  by_cases h : load .little m p.toNat w = old
  · simp [h, part_low hW, h3]
  · simp [h, part_low hW, part_low hw]

theorem pr_eq32 (v : BitVec 64) : pr 32 v = (lowHalf 32 v, highHalf 32 v) :=
  pairOf_num (e := .little) (h := 32) (w := 64) (by decide) (by decide) v
theorem unpr_eq32 (lo hi : BitVec 32) : unpr 64 lo hi = joinHL 64 hi lo :=
  ofPair_num (e := .little) (h := 32) (w := 64) (by decide) (by decide) lo hi
theorem pr_eq64 (v : BitVec 128) : pr 64 v = (lowHalf 64 v, highHalf 64 v) :=
  pairOf_num (e := .little) (h := 64) (w := 128) (by decide) (by decide) v
theorem unpr_eq64 (lo hi : BitVec 64) : unpr 128 lo hi = joinHL 128 hi lo :=
  ofPair_num (e := .little) (h := 64) (w := 128) (by decide) (by decide) lo hi

theorem sseLoad_impl (al : Alloc sseLoadKind) (p : BitVec 32) (B : Block 32 64) (hB : B = sseLoadBlock al p) :
    Implements .little B.code B.pre (fun m m' rs M => LoadSpec .little p.toNat 64 m m' (B.out rs) ∧ M = rdMon) := by
  subst hB
  refine implements_straight 20 ?_
  intro rs m h
  simp [asm] at h
  simp [asm, h, LoadSpec, joinHL_halves]

theorem sseStore_impl (al : Alloc sseStoreKind) (sc : Bool) (p : BitVec 32) (val : BitVec 64) (B : Block 32 64)
    (hB : B = sseStoreBlock al sc p val) :
    Implements .little B.code B.pre
      (fun m m' _ M => StoreSpec .little p.toNat 64 val m m' ∧ M = if sc then wrFMon else wrMon) := by
  subst hB
  cases sc <;>
  · refine implements_straight 20 ?_
    intro rs m h
    simp [asm] at h
    simp [asm, h, StoreSpec, joinHL_halves]

theorem cx8Load_impl (al : Alloc cx8LoadKind) (p : BitVec 32) (B : Block 32 64) (hB : B = cx8LoadBlock al p) :
    Implements .little B.code B.pre
      (fun m m' rs M => LoadSpec .little p.toNat 64 m m' (B.out rs) ∧ (M = rmwMon ∨ M = failMon)) := by
  subst hB
  refine implements_straight 20 ?_
  intro rs m h
  simp [asm] at h
  simp [asm, h, LoadSpec, unpr_eq32, joinHL_halves]
  intro m
  by_cases h : load .little m p.toNat 64 = joinHL 64 0#32 0#32
  · simp [h]
    rw [← h, store_load (by decide)]
  · simp [h, joinHL_halves]

theorem cx8Swap_impl (al : Alloc cx8SwapKind) (p : BitVec 32) (val : BitVec 64) (B : Block 32 64)
    (hB : B = cx8SwapBlock al p val) :
    Implements .little B.code B.pre
      (fun m m' rs M => SwapSpec .little p.toNat 64 val m m' (B.out rs) ∧ M = rmwMon) := by
  subst hB
  refine implements_loop 2 (fun rs g => (rs.r (al .dst) = p ∧
      joinHL 64 (rs.r (al .val_hi)) (rs.r (al .val_lo)) = val) ∧
      g.Clean ∧ g.mon.onRd locked = failMon) 40 ?_ ?_
  · rintro rs g ⟨⟨rfl, rfl⟩, hc, hm⟩
    simp [asm, hc, hm, SwapSpec, unpr_eq32]
    intro m
    by_cases h : load .little m (rs.r (al .dst)).toNat 64 = joinHL 64 (rs.r (al .prev_hi)) (rs.r (al .prev_lo)) <;>
      simp [h]
  · rintro rs m h
    simp [asm, pr_eq32] at h
    simp [asm, h, joinHL_halves]

theorem cx8Cas_impl (al : Alloc cx8CasKind) (p : BitVec 32) (old new : BitVec 64) (B : Block 32 64)
    (hB : B = cx8CasBlock al p old new) :
    Implements .little B.code B.pre
      (fun m m' rs M => (CasSpec .little p.toNat 64 old new m m' (B.out rs) (B.ok rs) ∧ B.assumes rs) ∧
        M = if B.ok rs then rmwMon else failMon) := by
  subst hB
  refine implements_straight 20 ?_
  rintro rs m h
  simp [asm, pr_eq32] at h
  simp [asm, h, CasSpec, unpr_eq32, joinHL_halves, part_low (show 8 ≤ 32 by decide)]
  intro m
  by_cases h : load .little m p.toNat 64 = old <;>
    simp [h, joinHL_halves, part_low (show 8 ≤ 32 by decide)]

/-! ### x87 (C37) -/

theorem log2_abs {x : BitVec 64} (hx : x ≠ 0#64) :
    absNat x ≠ 0 ∧ (absNat x).log2 ≤ 63 ∧ absNat x < 2 ^ 64 := by
  have h0 : absNat x ≠ 0 := by
    intro h
    apply hx
    apply BitVec.eq_of_toInt_eq
    simpa [absNat] using h
  have h1 : absNat x < 2 ^ 64 := by
    have h1 := BitVec.toInt_lt (x := x)
    have h2 := BitVec.le_toInt (x := x)
    simp only [absNat]
    simp at h1 h2
    omega
  refine ⟨h0, ?_, h1⟩
  have := (Nat.log2_lt h0).2 h1
  omega

/-- `fistp` after `fild` gives the integer back, whatever the rounding mode. -/
theorem fistp_fild (rc : Round) (x : BitVec 64) : fistpVal rc (fildVal x) = x := by
  by_cases hx : x = 0#64
  · subst hx
    simp [fildVal, fistpVal, roundDiv]
  obtain ⟨h0, hl, hlt⟩ := log2_abs hx
  have hlog : 2 ^ (absNat x).log2 ≤ absNat x := Nat.log2_self_le h0
  have hlog' : absNat x < 2 ^ ((absNat x).log2 + 1) := Nat.lt_log2_self
  generalize hL : (absNat x).log2 = L at *
  have hexp : (BitVec.ofNat 15 (16383 + L)).toNat = 16383 + L := by
    rw [BitVec.toNat_ofNat]; omega
  have hsig : (BitVec.ofNat 64 (absNat x * 2 ^ (63 - L))).toNat = absNat x * 2 ^ (63 - L) := by
    rw [BitVec.toNat_ofNat]
    apply Nat.mod_eq_of_lt
    calc absNat x * 2 ^ (63 - L) < 2 ^ (L + 1) * 2 ^ (63 - L) :=
          Nat.mul_lt_mul_of_pos_right hlog' (Nat.two_pow_pos _)
      _ = 2 ^ 64 := by rw [← Nat.pow_add]; congr 1; omega
  have hmag : (if 16446 ≤ (BitVec.ofNat 15 (16383 + L)).toNat then
      (BitVec.ofNat 64 (absNat x * 2 ^ (63 - L))).toNat * 2 ^ ((BitVec.ofNat 15 (16383 + L)).toNat - 16446)
    else roundDiv rc ((if x.msb then (1 : BitVec 1) else 0) == 1#1)
      (BitVec.ofNat 64 (absNat x * 2 ^ (63 - L))).toNat
      (16446 - (BitVec.ofNat 15 (16383 + L)).toNat)) = absNat x := by
    rw [hexp, hsig]
    by_cases h : 16446 ≤ 16383 + L
    · have : L = 63 := by omega
      subst this
      simp
    · rw [if_neg h, show 16446 - (16383 + L) = 63 - L by omega]
      simp [roundDiv, Nat.two_pow_pos]
  have hv : (if ((if x.msb then (1 : BitVec 1) else 0) == 1#1) then -((absNat x : Nat) : Int) else (absNat x : Int))
      = x.toInt := by
    have := BitVec.msb_eq_toInt (x := x)
    cases hm : x.msb
    · rw [hm] at this
      simp [absNat] at this ⊢
      omega
    · rw [hm] at this
      simp [absNat] at this ⊢
      omega
  unfold fistpVal fildVal
  rw [if_neg hx]
  simp only [hL]
  rw [hmag, hv]
  have hne : BitVec.ofNat 15 (16383 + L) ≠ 0x7fff#15 := by
    intro h
    have := congrArg BitVec.toNat h
    rw [hexp] at this
    simp at this
    omega
  have h1 := BitVec.toInt_lt (x := x)
  have h2 := BitVec.le_toInt (x := x)
  rw [if_neg (by
    rintro (h | h | h)
    · exact hne h
    · simp at h1 h2; omega
    · simp at h1 h2; omega)]
  exact BitVec.ofInt_toInt

/-- `fild` is exact and normalised. -/
theorem fild_value (x : BitVec 64) (hx : x ≠ 0#64) :
    x.toInt * 2 ^ 63 = (if (fildVal x).sign = 1#1 then -1 else 1) *
      ((fildVal x).sig.toNat : Int) * 2 ^ ((fildVal x).exp.toNat - 16383) ∧ (fildVal x).sig.msb = true := by
  obtain ⟨h0, hl, hlt⟩ := log2_abs hx
  have hlog : 2 ^ (absNat x).log2 ≤ absNat x := Nat.log2_self_le h0
  have hlog' : absNat x < 2 ^ ((absNat x).log2 + 1) := Nat.lt_log2_self
  have hsignum : x.toInt = (if (if x.msb then (1 : BitVec 1) else 0) = 1#1 then -1 else 1) * (absNat x : Int) := by
    have := BitVec.msb_eq_toInt (x := x)
    cases hm : x.msb
    · rw [hm] at this
      simp [absNat] at this ⊢
      omega
    · rw [hm] at this
      simp [absNat] at this ⊢
      omega
  unfold fildVal
  rw [if_neg hx]
  have hfin : ∀ L, (absNat x).log2 = L → L ≤ 63 → 2 ^ L ≤ absNat x → absNat x < 2 ^ (L + 1) →
      x.toInt * 2 ^ 63 = (if (if x.msb then (1 : BitVec 1) else 0) = 1#1 then -1 else 1) *
        ((BitVec.ofNat 64 (absNat x * 2 ^ (63 - L))).toNat : Int) * 2 ^ ((BitVec.ofNat 15 (16383 + L)).toNat - 16383)
      ∧ (BitVec.ofNat 64 (absNat x * 2 ^ (63 - L))).msb = true := by
    intro L hL hl hlog hlog'
    have hexp : (BitVec.ofNat 15 (16383 + L)).toNat = 16383 + L := by
      rw [BitVec.toNat_ofNat]; omega
    have hpow : 2 ^ L * 2 ^ (63 - L) = 2 ^ 63 := by rw [← Nat.pow_add]; congr 1; omega
    have hsig : (BitVec.ofNat 64 (absNat x * 2 ^ (63 - L))).toNat = absNat x * 2 ^ (63 - L) := by
      rw [BitVec.toNat_ofNat]
      apply Nat.mod_eq_of_lt
      calc absNat x * 2 ^ (63 - L) < 2 ^ (L + 1) * 2 ^ (63 - L) :=
            Nat.mul_lt_mul_of_pos_right hlog' (Nat.two_pow_pos _)
        _ = 2 ^ 64 := by rw [← Nat.pow_add]; congr 1; omega
    constructor
    · rw [hexp, hsig, Nat.add_sub_cancel_left, hsignum]
      generalize (if (if x.msb then (1 : BitVec 1) else 0) = 1#1 then (-1 : Int) else 1) = s
      have : ((absNat x * 2 ^ (63 - L) : Nat) : Int) * 2 ^ L = (absNat x : Int) * 2 ^ 63 := by
        have h : absNat x * 2 ^ (63 - L) * 2 ^ L = absNat x * 2 ^ 63 := by
          rw [Nat.mul_assoc, Nat.mul_comm (2 ^ (63 - L)), hpow]
        exact_mod_cast h
      rw [Int.mul_assoc, Int.mul_assoc, this]
    · rw [BitVec.msb_eq_decide, hsig, decide_eq_true_iff]
      calc 2 ^ (64 - 1) = 2 ^ L * 2 ^ (63 - L) := hpow.symm
        _ ≤ absNat x * 2 ^ (63 - L) := Nat.mul_le_mul_right _ hlog
  exact hfin _ rfl hl hlog hlog'

theorem extOf_ext (x : Ext) : extOf (extLo x) (extHi x) (extSE x) = x := by
  obtain ⟨s, e, g⟩ := x
  simp only [extOf, extLo, extHi, extSE, Ext.mk.injEq]
  refine ⟨?_, ?_, joinHL_halves (w := 64) (h := 32) rfl g⟩
  · apply BitVec.eq_of_getLsbD_eq
    intro i hi
    have : i = 0 := by omega
    subst this
    simp only [BitVec.getLsbD_extractLsb', BitVec.getLsbD_setWidth, BitVec.getLsbD_append]
    simp
  · apply BitVec.eq_of_getLsbD_eq
    intro i hi
    have : i < 16 := by omega
    simp only [BitVec.getLsbD_extractLsb', BitVec.getLsbD_setWidth, BitVec.getLsbD_append, Nat.zero_add, hi, this,
      show i < 32 by omega]
    simp

theorem x87Load_impl (al : Alloc x87LoadKind) (rc : Round) (p : BitVec 32) (B : Block 32 64)
    (hB : B = x87LoadBlock al rc p) :
    Implements .little B.code B.pre (fun m m' rs M => LoadSpec .little p.toNat 64 m m' (B.out rs) ∧ M = rdMon) := by
  subst hB
  refine implements_straight 20 ?_
  intro rs m h
  simp [asm] at h
  simp [asm, h, LoadSpec, extOf_ext, fistp_fild, joinHL_halves]

theorem x87Store_impl (al : Alloc x87StoreKind) (rc : Round) (sc : Bool) (p : BitVec 32) (val : BitVec 64)
    (B : Block 32 64) (hB : B = x87StoreBlock al rc sc p val) :
    Implements .little B.code B.pre
      (fun m m' _ M => StoreSpec .little p.toNat 64 val m m' ∧ M = if sc then wrFMon else wrMon) := by
  subst hB
  cases sc <;>
  · refine implements_straight 20 ?_
    intro rs m h
    simp [asm] at h
    simp [asm, h, StoreSpec, extOf_ext, fistp_fild, joinHL_halves]

/-! ### cmpxchg16b -/

theorem Rbx.neq {kind : Op → Kind} {al : Alloc kind} {b : Nat} (h : Rbx al b) {o : Op}
    (ho : (decide (o = .rbx_tmp) || decide (kind o = .unused)) = false) : (al o = b) = False := by
  simp only [Bool.or_eq_false_iff, decide_eq_false_iff_not] at ho
  simp only [eq_iff_iff, iff_false]
  exact h.ne o ho.1 ho.2

theorem Rbx.neq' {kind : Op → Kind} {al : Alloc kind} {b : Nat} (h : Rbx al b) {o : Op}
    (ho : (decide (o = .rbx_tmp) || decide (kind o = .unused)) = false) : (b = al o) = False := by
  rw [show (b = al.reg o) = (al.reg o = b) from propext eq_comm, h.neq ho]

/-- As `Implements` for the block, together with: `rbx` has its old content in the end. -/
abbrev Impl16 (B : Block 64 128) (b : Nat) (isTmp : Prop) (post : Mem → Mem → RS 64 → Mon → Prop) : Prop :=
  ∀ v, Implements .little B.code (fun rs => B.pre rs ∧ rs.r b = v)
    (fun m m' rs M => post m m' rs M ∧ (¬ isTmp → rs.r b = v))

theorem Impl16.impl {B : Block 64 128} {b : Nat} {T : Prop} {post : Mem → Mem → RS 64 → Mon → Prop}
    (h : Impl16 B b T post) : Implements .little B.code B.pre post := fun c0 tr c h1 h2 h3 h4 =>
  (h (c0.rs.r b)).mono (fun _ h => h) (fun _ _ _ _ h => h.1) c0 tr c h1 ⟨h2, rfl⟩ h3 h4

/-- `rbx` is restored. -/
theorem Impl16.restored {B : Block 64 128} {b : Nat} {T : Prop} {post : Mem → Mem → RS 64 → Mon → Prop}
    (h : Impl16 B b T post) (hT : ¬ T) {c0 c : Cfg 64} {tr : List TEv} (h1 : c0.pc = 0) (h2 : B.pre c0.rs)
    (h3 : Run .little B.code c0 tr c) (h4 : c.pc = B.code.length) : c.rs.r b = c0.rs.r b := by
  obtain ⟨_, _, _, _, _, _, _, hp⟩ := (h (c0.rs.r b)).run h1 ⟨h2, rfl⟩ h3 h4
  exact hp.2 hT

theorem cx16Load_impl (al : Alloc cx16LoadKind) {b P : Nat} (hb : Rbx al b) (p : BitVec P)
    (B : Block 64 128) (hB : B = cx16LoadBlock al b p) :
    Impl16 B b (al .rbx_tmp = b)
      (fun m m' rs M => LoadSpec .little p.toNat 128 m m' (B.out rs) ∧ (M = rmwMon ∨ M = failMon)) := by
  subst hB
  intro v
  refine implements_straight 20 ?_
  rintro rs m ⟨h, hv⟩
  simp [asm] at h
  by_cases ht : b = al .rbx_tmp
  · subst ht
    simp [asm, h, hv, LoadSpec, unpr_eq64, joinHL_halves]
    intro m
    by_cases h : load .little m p.toNat 128 = joinHL 128 0#64 0#64
    · simp [h]
      rw [← h, store_load (by decide)]
    · simp [h, joinHL_halves]
  · simp [asm, h, hv, LoadSpec, unpr_eq64, joinHL_halves, ht, Ne.symm ht, hb.neq, hb.neq']
    intro m
    by_cases h : load .little m p.toNat 128 = joinHL 128 0#64 0#64
    · simp [h]
      rw [← h, store_load (by decide)]
    · simp [h, joinHL_halves]

theorem cx16Swap_impl (al : Alloc cx16SwapKind) {b P : Nat} (hb : Rbx al b) (p : BitVec P) (val : BitVec 128)
    (B : Block 64 128) (hB : B = cx16SwapBlock al b p val) :
    Impl16 B b (al .rbx_tmp = b)
      (fun m m' rs M => SwapSpec .little p.toNat 128 val m m' (B.out rs) ∧ M = rmwMon) := by
  subst hB
  intro v
  refine implements_loop 3 (fun rs g => ((rs.r (al .dst)).setWidth P = p ∧
      joinHL 128 (rs.r (al .val_hi)) (rs.r b) = val ∧ (al .rbx_tmp ≠ b → rs.r (al .rbx_tmp) = v)) ∧
      g.Clean ∧ g.mon.onRd locked = failMon) 40 ?_ ?_
  · rintro rs g ⟨⟨hp, rfl, ht⟩, hc, hm⟩
    by_cases hbt : b = al .rbx_tmp
    · subst hbt
      simp [asm, hc, hm, SwapSpec, unpr_eq64, hp]
      intro m
      by_cases h : load .little m p.toNat 128 = joinHL 128 (rs.r (al .prev_hi)) (rs.r (al .prev_lo)) <;>
        simp [h, hp]
    · simp [asm, hc, hm, SwapSpec, unpr_eq64, hbt, Ne.symm hbt, hb.neq, hb.neq', ht, hp]
      intro m
      by_cases h : load .little m p.toNat 128 = joinHL 128 (rs.r (al .prev_hi)) (rs.r (al .prev_lo)) <;>
        simp [h, ht, Ne.symm hbt]
  · rintro rs m ⟨h, hv⟩
    simp [asm, pr_eq64] at h
    by_cases hbt : b = al .rbx_tmp
    · subst hbt
      simp [asm, h, joinHL_halves]
    · simp [asm, h, hv, joinHL_halves, hbt, Ne.symm hbt, hb.neq, hb.neq']

theorem cx16Cas_impl (al : Alloc cx16CasKind) {b P : Nat} (hb : Rbx al b) (p : BitVec P) (old new : BitVec 128)
    (B : Block 64 128) (hB : B = cx16CasBlock al b p old new) :
    Impl16 B b (al .rbx_tmp = b)
      (fun m m' rs M => (CasSpec .little p.toNat 128 old new m m' (B.out rs) (B.ok rs) ∧ B.assumes rs) ∧
        M = if B.ok rs then rmwMon else failMon) := by
  subst hB
  intro v
  refine implements_straight 20 ?_
  rintro rs m ⟨h, hv⟩
  simp [asm, pr_eq64] at h
  by_cases hbt : b = al .rbx_tmp
  · subst hbt
    simp [asm, h, CasSpec, unpr_eq64, joinHL_halves, part_low (show 8 ≤ 64 by decide)]
    intro m
    by_cases h : load .little m p.toNat 128 = old <;>
      simp [h, joinHL_halves, part_low (show 8 ≤ 64 by decide)]
  · simp [asm, h, hv, CasSpec, unpr_eq64, joinHL_halves, part_low (show 8 ≤ 64 by decide), hbt, Ne.symm hbt,
      hb.neq, hb.neq']
    intro m
    by_cases h : load .little m p.toNat 128 = old <;>
      simp [h, joinHL_halves, part_low (show 8 ≤ 64 by decide)]

end Verif.X86
