/-
C52 for every back end: in every endless run of finitely many threads that call methods, `fetch_update` included, methods
return again and again (lock-freedom). Generated by tools/mlockfree.py.
-/
import Verif.Api.LockFreeSample
import Verif.Props.LockFree
import Verif.Props.Alone

namespace Verif

/-! ### A compare_exchange_weak that fails although the value is the expected one has written nothing -/

/-- Where `compare_exchange_weak` is `compare_exchange`, it does not fail then. -/
theorem Backend.quietFailure_strong {W : Nat} {A : Backend W} {S : Nat → Prop}
    (h : ∀ s f w a old new B, S w → A.CasWeak s f w a old new B →
      B.Atomic A.e fun m m' rs => CasSpec A.e a w old new m m' (B.out rs) (B.ok rs)) : A.QuietFailure S := by
  intro s f w a old new B hS hB tr rs hr hok
  obtain ⟨pre, ev, m, m', post, rfl, -, h1, ⟨-, h2, -⟩ | ⟨h2, -⟩⟩ := h s f w a old new B hS hB tr rs hr
  · rw [hok] at h2; cases h2
  · exact .inl (by rw [h1]; exact h2)

theorem Arm.weakMons_fail (g : Arm.WeakProg) : ∀ M ∈ (Arm.weakMons g).fail, M.wr = none := by
  cases g <;> simp [Arm.weakMons, Arm.mon1, Mon.onFence, Mon.onRd]

theorem Arm.quietFailure (e : Endian) (c : Arm.Conf) : (Arm.backend e c).QuietFailure fun _ => True := by
  rintro s f w a old new B - hB tr rs hr hok
  right
  cases hB with
  | word al p _ _ hw hv hg =>
    obtain ⟨_, _, h⟩ := (Arm.weak_impl e c al (Arm.word_facts hw).1 (Arm.word_facts hw).2 _ p old new _ rfl).completed hr
    rw [hok] at h
    exact Arm.weakMons_fail _ _ h.2
  | dword al p old new hv hg =>
    obtain ⟨_, _, h⟩ := (Arm.weakd_impl e c al _ p old new _ rfl).completed hr
    rw [hok] at h
    exact Arm.weakMons_fail _ _ h.2
theorem Armv8.quietFailure (e : Endian) (c : Armv8.Conf) : (Armv8.backend e c).QuietFailure fun _ => True := by
  rintro s f w a old new B - hB tr rs hr hok
  right
  cases hB with
  | word al p _ _ hw hv =>
    obtain ⟨_, _, h⟩ := (Armv8.weak_impl e c al (Arm.word_facts hw).1 (Arm.word_facts hw).2 _ p old new _ rfl).completed hr
    rw [hok] at h
    rw [h.2]; rfl
  | dword al hc p old new hv =>
    obtain ⟨_, _, h⟩ := (Armv8.weakd_impl e c al _ p old new _ rfl).completed hr
    rw [hok] at h
    rw [h.2]; rfl
theorem AArch64.quietFailure (e : Endian) (c : AArch64.Conf) : (AArch64.backend e c).QuietFailure fun _ => True := by
  rintro s f w a old new B - hB
  cases hB with
  | word al hc p _ _ hw hv =>
    intro tr rs hr hok
    obtain ⟨_, _, h⟩ := (AArch64.weak_impl e al hw _ p old new _ rfl).completed hr
    rw [hok] at h
    rcases h.2 with h | h <;> exact .inr (by rw [h]; rfl)
  | strong hc h =>
    intro tr rs hr hok
    obtain ⟨pre, ev, m, m', post, rfl, -, h1, ⟨-, h2, -⟩ | ⟨h2, -⟩⟩ := AArch64.C04_aarch64 e c s f w a old new B h tr rs hr
    · rw [hok] at h2; cases h2
    · exact .inl (by rw [h1]; exact h2)
theorem PowerPC.quietFailure (e : Endian) {W : Nat} (hW : W = 32 ∨ W = 64) (c : PowerPC.Conf) :
    (PowerPC.backend e W c).QuietFailure fun _ => True := by
  have hW' : 32 ≤ W := by omega
  rintro s f w a old new B - hB tr rs hr hok
  right
  cases hB with
  | word al p _ _ hw hv ho =>
    obtain ⟨_, _, h⟩ := (PowerPC.weak_impl e al hW' (PowerPC.direct_size hw) _ p old new _ rfl).completed hr
    rw [hok] at h
    rcases h.2 with h | h <;> (rw [h]; rfl)
  | sub al p _ _ hw hc hal hv ho =>
    obtain ⟨_, _, h⟩ := (PowerPC.sub_weak_impl e al hW' hw _ p hal old new _ rfl).completed hr
    rw [hok] at h
    rcases h.2 with h | h <;> (rw [h]; rfl)
  | quad al hq p old new hv ho =>
    obtain rfl : W = 64 := hq.1
    obtain ⟨_, _, h⟩ := (PowerPC.weakq_impl e al _ p old new _ rfl).completed hr
    rw [hok] at h
    rcases h.2 with h | h <;> (rw [h]; rfl)
theorem LegacyArm.quietFailure (e : Endian) (c : Arm.Conf) : (LegacyArm.backend e c).QuietFailure fun _ => True := by
  rintro s f w a old new B - hB tr rs hr hok
  right
  cases hB with
  | word al po pold pnew p _ _ hw hb hv hg =>
    obtain ⟨_, _, h⟩ := (LegacyArm.weak_impl e c al (Arm.word_facts hw).1 (Arm.word_facts hw).2 _ po pold pnew p old new hb _ rfl).completed hr
    rw [hok] at h
    exact Arm.weakMons_fail _ _ h.2
  | dword al po pold pnew p old new hb hv hg =>
    obtain ⟨_, _, h⟩ := (LegacyArm.weakd_impl e c al _ po pold pnew p old new hb _ rfl).completed hr
    rw [hok] at h
    exact Arm.weakMons_fail _ _ h.2
theorem LegacyArmv8.quietFailure (e : Endian) (c : Armv8.Conf) : (LegacyArmv8.backend e c).QuietFailure fun _ => True := by
  rintro s f w a old new B - hB tr rs hr hok
  right
  cases hB with
  | word al po pold pnew p _ _ hw hv hb =>
    obtain ⟨_, _, h⟩ := (LegacyArmv8.weak_impl e c al (Arm.word_facts hw).1 (Arm.word_facts hw).2 _ po pold pnew p old new hb _ rfl).completed hr
    rw [hok] at h
    rw [h.2]; rfl
  | dword al hc po pold pnew p old new hv hb =>
    obtain ⟨_, _, h⟩ := (LegacyArmv8.weakd_impl e c al _ po pold pnew p old new hb _ rfl).completed hr
    rw [hok] at h
    rw [h.2]; rfl
theorem LegacyAArch64.quietFailure (e : Endian) (c : AArch64.Conf) : (LegacyAArch64.backend e c).QuietFailure fun _ => True := by
  rintro s f w a old new B - hB
  cases hB with
  | word al hc po pold pnew p _ _ hw hd hv =>
    intro tr rs hr hok
    obtain ⟨_, _, h⟩ := (LegacyAArch64.weak_impl e al hw _ po pold pnew p hd old new _ rfl).completed hr
    rw [hok] at h
    rcases h.2 with h | h <;> exact .inr (by rw [h]; rfl)
  | strong hc h =>
    intro tr rs hr hok
    obtain ⟨pre, ev, m, m', post, rfl, -, h1, ⟨-, h2, -⟩ | ⟨h2, -⟩⟩ := LegacyAArch64.C04_legacy_aarch64 e c s f w a old new B h tr rs hr
    · rw [hok] at h2; cases h2
    · exact .inl (by rw [h1]; exact h2)

/-! ### C52 -/
