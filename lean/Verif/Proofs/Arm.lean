import Verif.Arch.Arm
import Verif.Core.BackendLemmas
set_option linter.unusedSimpArgs false
set_option maxRecDepth 4000
namespace Verif.Arm

theorem word_facts {w : Nat} (hw : SubSize w ∨ w = 32) : w ≤ 32 ∧ w % 8 = 0 := by
  rcases hw with (rfl | rfl) | rfl <;> decide

/-- monitors a compare_exchange can end with -/
structure CasMons where
  ok : List Mon
  fail : List Mon

/-- after the read / after the barrier between read and write / after a second read -/
abbrev mon1 : Mon := ({} : Mon).onRd .plain
abbrev mon2 : Mon := mon1.onFence dmb
abbrev mon3 : Mon := mon2.onRd .plain

/-- monitors of the strong sequences -/
def casMons : CasProg → CasMons
  | .storeRelaxed fs ff => ⟨[(mon1.onWr .plain).onFence fs], [mon1.onFence ff]⟩
  | .release ff => ⟨[mon2.onWr .plain, mon3.onWr .plain], [mon1.onFence ff, mon3.onFence ff]⟩
  | .acqrel ff => ⟨[(mon2.onWr .plain).onFence dmb, (mon3.onWr .plain).onFence dmb],
      [mon1.onFence ff, mon3.onFence ff]⟩
/-- monitors of the weak sequences -/
def weakMons : WeakProg → CasMons
  | .weak acq rel => ⟨[((mon1.onFence rel).onWr .plain).onFence acq],
      [mon1.onFence acq, (mon1.onFence rel).onFence acq]⟩
  | .failRelaxed rel => ⟨[((mon1.onFence rel).onWr .plain).onFence dmb], [mon1, mon1.onFence rel]⟩
  | .successRelaxed rel => ⟨[(mon1.onFence rel).onWr .plain],
      [mon1.onFence dmb, (mon1.onFence rel).onFence dmb]⟩

theorem load_impl (e : Endian) (c : Conf) (al : Alloc (loadKind c)) {w : Nat} (hw : w ≤ 32) (f : Pairs)
    (p : BitVec 32) (B : Block 32 w) (hB : B = loadBlock c al w f p) :
    Implements e B.code B.pre (fun m m' rs M => LoadSpec e p.toNat w m m' (B.out rs) ∧
        M = (({} : Mon).onRd .plain).onFence f) := by
  subst hB
  obtain ⟨k, v⟩ := c
  cases k <;>
  · refine implements_straight 20 ?_
    intro rs m h
    simp [asm] at h
    simp [asm, h, LoadSpec, BitVec.setWidth_setWidth_of_le _ hw, hw]

theorem store_impl (e : Endian) (c : Conf) (al : Alloc (storeKind c)) {w : Nat} (f : Pairs × Pairs)
    (p : BitVec 32) (val : BitVec w) (B : Block 32 w) (hB : B = storeBlock c al w f p val) :
    Implements e B.code B.pre (fun m m' _ M => StoreSpec e p.toNat w val m m' ∧
        M = ((({} : Mon).onFence f.2).onWr .plain).onFence f.1) := by
  subst hB
  obtain ⟨k, v⟩ := c
  cases k <;>
  · refine implements_straight 20 ?_
    intro rs m h
    simp [asm] at h
    simp [asm, h, StoreSpec]

/-- monitor of a completed swap -/
abbrev rmwMon (f : Pairs × Pairs) : Mon :=
  (((({} : Mon).onFence f.2).onRd .plain).onWr .plain).onFence f.1

theorem swap_impl (e : Endian) (c : Conf) (al : Alloc (swapKind c)) {w : Nat} (hw : w ≤ 32)
    (hw8 : w % 8 = 0) (f : Pairs × Pairs)
    (p : BitVec 32) (val : BitVec w) (B : Block 32 w) (hB : B = swapBlock c al w f p val) :
    Implements e B.code B.pre (fun m m' rs M => SwapSpec e p.toNat w val m m' (B.out rs) ∧
        M = rmwMon f) := by
  subst hB
  obtain ⟨k, v⟩ := c
  cases k <;>
  · refine implements_loop 2 (fun rs g => (rs.r (al .dst) = p ∧ (rs.r (al .val)).setWidth w = val) ∧
      g.Clean ∧ g.mon.onRd .plain = (({} : Mon).onFence f.2).onRd .plain) 40 ?_ ?_
    · rintro rs g ⟨⟨rfl, rfl⟩, hc, hm⟩
      simp [asm, hc, hm, SwapSpec, BitVec.setWidth_setWidth_of_le _ hw, hw]
      intro m m' ha
      exact (load_congr hw8 ha).symm
    · rintro rs m h
      simp [asm] at h
      simp [asm, h]


/-- invariant at the store-exclusive of the release sequences: the value read is `old` -/
def Reading (e : Endian) (a w : Nat) (old : BitVec w) (g : Ghost) : Prop :=
  ∃ m M, (M = mon2 ∨ M = mon3) ∧ g = ⟨m, some (m, m), M⟩ ∧ load e m a w = old

theorem reading_mk {e : Endian} {a w : Nat} {old : BitVec w} {m : Mem} {M : Mon} :
    Reading e a w old ⟨m, some (m, m), M⟩ ↔ (M = mon2 ∨ M = mon3) ∧ load e m a w = old := by
  constructor
  · rintro ⟨m1, M1, h, h2, h3⟩
    simp only [Ghost.mk.injEq] at h2
    obtain ⟨rfl, _, rfl⟩ := h2
    exact ⟨h, h3⟩
  · rintro ⟨h, h3⟩
    exact ⟨m, M, h, rfl, h3⟩

theorem cas_impl (e : Endian) (c : Conf) (al : Alloc (casKind c)) {w : Nat} (hw : w ≤ 32)
    (hw8 : w % 8 = 0) (g : CasProg) (p : BitVec 32) (old new : BitVec w) (B : Block 32 w)
    (hB : B = casFrame e c al w (casAsm c al w g) p old new) :
    Implements e B.code B.pre
      (fun m m' rs M => (CasSpec e p.toNat w old new m m' (B.out rs) (B.ok rs) ∧ B.assumes rs) ∧
        M ∈ if B.ok rs then (casMons g).ok else (casMons g).fail) := by
  subst hB
  obtain ⟨k, v⟩ := c
  have hz := zeroExtend_eq e hw8 hw
  cases g with
  | storeRelaxed fs ff =>
    cases k <;> cases v <;>
    · refine implements_loop 0 (fun rs g => (rs.r (al .dst) = p ∧ rs.r (al .old) = old.setWidth 32 ∧
        (rs.r (al .new)).setWidth w = new) ∧ g.Clean ∧ g.mon.onRd .plain = mon1) 60 ?_ ?_
      · rintro rs g ⟨⟨rfl, ho, rfl⟩, hc, hm⟩
        simp [asm, hc, hm, ho, CasSpec, casMons, setWidth_inj hw, BitVec.setWidth_setWidth_of_le _ hw, hw]
        intro m h1 m' ha
        rw [load_congr hw8 ha]
        exact ⟨rfl, h1⟩
      · rintro rs m h
        simp [asm] at h
        simp [asm, h, hz]
  | release ff =>
    cases k <;> cases v <;>
    · refine implements_loop 5 (fun rs g => (rs.r (al .dst) = p ∧ rs.r (al .old) = old.setWidth 32 ∧
        (rs.r (al .new)).setWidth w = new ∧ rs.r (al .out) = old.setWidth 32) ∧
        Reading e p.toNat w old g) 60 ?_ ?_
      · rintro rs g ⟨⟨rfl, ho, rfl, hout⟩, m, M, hM, rfl, hl⟩
        rcases hM with rfl | rfl <;>
        · simp [asm, ho, hout, CasSpec, casMons, setWidth_inj hw, BitVec.setWidth_setWidth_of_le _ hw, hw, reading_mk]
          intro m' ha
          rw [load_congr hw8 ha]
          exact ⟨hl.symm, hl⟩
      · rintro rs m h
        simp [asm] at h
        simp [asm, h, hz, reading_mk, CasSpec, casMons, setWidth_inj hw, BitVec.setWidth_setWidth_of_le _ hw, hw]
  | acqrel ff =>
    cases k <;> cases v <;>
    · refine implements_loop 5 (fun rs g => (rs.r (al .dst) = p ∧ rs.r (al .old) = old.setWidth 32 ∧
        (rs.r (al .new)).setWidth w = new ∧ rs.r (al .out) = old.setWidth 32) ∧
        Reading e p.toNat w old g) 60 ?_ ?_
      · rintro rs g ⟨⟨rfl, ho, rfl, hout⟩, m, M, hM, rfl, hl⟩
        rcases hM with rfl | rfl <;>
        · simp [asm, ho, hout, CasSpec, casMons, setWidth_inj hw, BitVec.setWidth_setWidth_of_le _ hw, hw, reading_mk]
          intro m' ha
          rw [load_congr hw8 ha]
          exact ⟨hl.symm, hl⟩
      · rintro rs m h
        simp [asm] at h
        simp [asm, h, hz, reading_mk, CasSpec, casMons, setWidth_inj hw, BitVec.setWidth_setWidth_of_le _ hw, hw]

theorem weak_impl (e : Endian) (c : Conf) (al : Alloc (casKind c)) {w : Nat} (hw : w ≤ 32)
    (hw8 : w % 8 = 0) (g : WeakProg) (p : BitVec 32) (old new : BitVec w) (B : Block 32 w)
    (hB : B = casFrame e c al w (weakAsm c al w g) p old new) :
    Implements e B.code B.pre
      (fun m m' rs M => (WeakCasSpec e p.toNat w old new m m' (B.out rs) (B.ok rs) ∧ B.assumes rs) ∧
        M ∈ if B.ok rs then (weakMons g).ok else (weakMons g).fail) := by
  subst hB
  obtain ⟨k, v⟩ := c
  have hz := zeroExtend_eq e hw8 hw
  cases g <;> cases k <;> cases v <;>
  · refine implements_straight 60 ?_
    rintro rs m h
    simp [asm] at h
    simp [asm, h, hz, WeakCasSpec, weakMons, setWidth_inj hw, BitVec.setWidth_setWidth_of_le _ hw, hw]
    intro m h1 m' ha
    rw [load_congr hw8 ha]
    exact ⟨rfl, h1⟩

/-! ### 64 bits -/

theorem loadd_impl (e : Endian) (c : Conf) (al : Alloc (loaddKind c)) (f : Pairs)
    (p : BitVec 32) (B : Block 32 64) (hB : B = loaddBlock e c al f p) :
    Implements e B.code B.pre (fun m m' rs M => LoadSpec e p.toNat 64 m m' (B.out rs) ∧
        M = (({} : Mon).onRd .plain).onFence f) := by
  subst hB
  obtain ⟨k, v⟩ := c
  cases k <;> cases v <;>
  · refine implements_straight 20 ?_
    intro rs m h
    simp [asm] at h
    simp [asm, h, LoadSpec, ofPair_true, join_word]

theorem stored_impl (e : Endian) (c : Conf) (al : Alloc (storedKind c)) (f : Pairs × Pairs)
    (p : BitVec 32) (val : BitVec 64) (B : Block 32 64) (hB : B = storedBlock e c al f p val) :
    Implements e B.code B.pre (fun m m' _ M => StoreSpec e p.toNat 64 val m m' ∧
        M = rmwMon f) := by
  subst hB
  obtain ⟨k, v⟩ := c
  cases k <;>
  · refine implements_loop 2 (fun rs g => (rs.r (al .dst) = p ∧ rs.r (al .val_lo) = word0 e 32 val ∧
        rs.r (al .val_hi) = word1 e 32 val) ∧
      g.Clean ∧ g.mon.onRd .plain = (({} : Mon).onFence f.2).onRd .plain) 40 ?_ ?_
    · rintro rs g ⟨⟨rfl, h0, h1⟩, hc, hm⟩
      simp [asm, hc, hm, h0, h1, StoreSpec, join_word]
    · rintro rs m h
      simp [asm, pairOf_true] at h
      simp [asm, h]

theorem swapd_impl (e : Endian) (c : Conf) (al : Alloc (swapdKind c)) (f : Pairs × Pairs)
    (p : BitVec 32) (val : BitVec 64) (B : Block 32 64) (hB : B = swapdBlock e c al f p val) :
    Implements e B.code B.pre (fun m m' rs M => SwapSpec e p.toNat 64 val m m' (B.out rs) ∧
        M = rmwMon f) := by
  subst hB
  obtain ⟨k, v⟩ := c
  cases k <;>
  · refine implements_loop 2 (fun rs g => (rs.r (al .dst) = p ∧ rs.r (al .val_lo) = word0 e 32 val ∧
        rs.r (al .val_hi) = word1 e 32 val) ∧
      g.Clean ∧ g.mon.onRd .plain = (({} : Mon).onFence f.2).onRd .plain) 40 ?_ ?_
    · rintro rs g ⟨⟨rfl, h0, h1⟩, hc, hm⟩
      simp [asm, hc, hm, h0, h1, SwapSpec, ofPair_true, join_word]
      intro m m' ha
      exact (load_congr (w := 64) rfl ha).symm
    · rintro rs m h
      simp [asm, pairOf_true] at h
      simp [asm, h]

/-- the eor/eor/orrs comparison decides equality of the double-width values -/
theorem pair_cmp {e : Endian} {x y : BitVec 64} :
    (word0 e 32 x ^^^ word0 e 32 y ||| (word1 e 32 x ^^^ word1 e 32 y)) = 0#32 ↔ x = y := by
  rw [xor_or_eq_zero, word_eq_iff (h := 32) rfl rfl]

theorem casd_impl (e : Endian) (c : Conf) (al : Alloc (casdKind c)) (g : CasProg) (p : BitVec 32)
    (old new : BitVec 64) (B : Block 32 64) (hB : B = casdFrame e c al (casdAsm e c al g) p old new) :
    Implements e B.code B.pre
      (fun m m' rs M => (CasSpec e p.toNat 64 old new m m' (B.out rs) (B.ok rs) ∧ B.assumes rs) ∧
        M ∈ if B.ok rs then (casMons g).ok else (casMons g).fail) := by
  subst hB
  obtain ⟨k, v⟩ := c
  cases g with
  | storeRelaxed fs ff =>
    cases k <;> cases v <;>
    · refine implements_loop 0 (fun rs g => (rs.r (al .dst) = p ∧ rs.r (al .old_lo) = word0 e 32 old ∧
        rs.r (al .old_hi) = word1 e 32 old ∧ rs.r (al .new_lo) = word0 e 32 new ∧
        rs.r (al .new_hi) = word1 e 32 new) ∧ g.Clean ∧ g.mon.onRd .plain = mon1) 60 ?_ ?_
      · rintro rs g ⟨⟨rfl, ho0, ho1, hn0, hn1⟩, hc, hm⟩
        simp [asm, hc, hm, ho0, ho1, hn0, hn1, CasSpec, casMons, -BitVec.or_eq_zero_iff, pair_cmp, ofPair_true, join_word]
        intro m h1 m' ha
        rw [load_congr (w := 64) rfl ha]
        exact ⟨rfl, h1⟩
      · rintro rs m h
        simp [asm, pairOf_true] at h
        simp [asm, h]
  | release ff =>
    cases k <;> cases v <;>
    · refine implements_loop 7 (fun rs g => (rs.r (al .dst) = p ∧ rs.r (al .old_lo) = word0 e 32 old ∧
        rs.r (al .old_hi) = word1 e 32 old ∧ rs.r (al .new_lo) = word0 e 32 new ∧
        rs.r (al .new_hi) = word1 e 32 new ∧ rs.r (al .prev_lo) = word0 e 32 old ∧
        rs.r (al .prev_hi) = word1 e 32 old) ∧ Reading e p.toNat 64 old g) 60 ?_ ?_
      · rintro rs g ⟨⟨rfl, ho0, ho1, hn0, hn1, hp0, hp1⟩, m, M, hM, rfl, hl⟩
        rcases hM with rfl | rfl <;>
        · simp [asm, ho0, ho1, hn0, hn1, hp0, hp1, CasSpec, casMons, -BitVec.or_eq_zero_iff, pair_cmp, ofPair_true, join_word, reading_mk]
          refine ⟨fun m h => by simp [h], ?_⟩
          intro m' ha
          rw [load_congr (w := 64) rfl ha]
          exact ⟨hl.symm, hl⟩
      · rintro rs m h
        simp [asm, pairOf_true] at h
        simp [asm, h, reading_mk, CasSpec, casMons, -BitVec.or_eq_zero_iff, pair_cmp, ofPair_true, join_word]
        exact fun m h => by simp [h]
  | acqrel ff =>
    cases k <;> cases v <;>
    · refine implements_loop 7 (fun rs g => (rs.r (al .dst) = p ∧ rs.r (al .old_lo) = word0 e 32 old ∧
        rs.r (al .old_hi) = word1 e 32 old ∧ rs.r (al .new_lo) = word0 e 32 new ∧
        rs.r (al .new_hi) = word1 e 32 new ∧ rs.r (al .prev_lo) = word0 e 32 old ∧
        rs.r (al .prev_hi) = word1 e 32 old) ∧ Reading e p.toNat 64 old g) 60 ?_ ?_
      · rintro rs g ⟨⟨rfl, ho0, ho1, hn0, hn1, hp0, hp1⟩, m, M, hM, rfl, hl⟩
        rcases hM with rfl | rfl <;>
        · simp [asm, ho0, ho1, hn0, hn1, hp0, hp1, CasSpec, casMons, -BitVec.or_eq_zero_iff, pair_cmp, ofPair_true, join_word, reading_mk]
          refine ⟨fun m h => by simp [h], ?_⟩
          intro m' ha
          rw [load_congr (w := 64) rfl ha]
          exact ⟨hl.symm, hl⟩
      · rintro rs m h
        simp [asm, pairOf_true] at h
        simp [asm, h, reading_mk, CasSpec, casMons, -BitVec.or_eq_zero_iff, pair_cmp, ofPair_true, join_word]
        exact fun m h => by simp [h]

theorem weakd_impl (e : Endian) (c : Conf) (al : Alloc (casdKind c)) (g : WeakProg) (p : BitVec 32)
    (old new : BitVec 64) (B : Block 32 64) (hB : B = casdFrame e c al (weakdAsm e c al g) p old new) :
    Implements e B.code B.pre
      (fun m m' rs M => (WeakCasSpec e p.toNat 64 old new m m' (B.out rs) (B.ok rs) ∧ B.assumes rs) ∧
        M ∈ if B.ok rs then (weakMons g).ok else (weakMons g).fail) := by
  subst hB
  obtain ⟨k, v⟩ := c
  cases g <;> cases k <;> cases v <;>
  · refine implements_straight 60 ?_
    rintro rs m h
    simp [asm, pairOf_true] at h
    simp [asm, h, WeakCasSpec, weakMons, -BitVec.or_eq_zero_iff, pair_cmp, ofPair_true, join_word]
    intro m h1 m' ha
    rw [load_congr (w := 64) rfl ha]
    exact ⟨rfl, h1⟩

end Verif.Arm
