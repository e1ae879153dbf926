/-
C44 without multi-copy atomicity: message passing on Armv7 meets its hypotheses, and with relaxed operations the machine allows
what C44 excludes.
-/
import Verif.Props.NonMCASync
import Verif.Props.NonMCALitmus

namespace Verif
namespace IRIW

/-- thread 0 stores the data and releases the flag, thread 1 acquires the flag and loads the data -/
def mpItems : Nat → List (Item 32)
  | 0 => [.op (stDone .relaxed (.none, .none) 0x1000), .op (stDone .release (.none, .full) 0x2000)]
  | 1 => [.op (ldDone .acquire .full 0x2000 (after (.none, .full) 0x2000)), .op (ldDone .relaxed .none 0x1000 (after (.none, .none) 0x1000))]
  | _ => []
def mpTest : LTest :=
  [ [.tau, .fence false, .wr 0 1, .tau, .fence false, .tau, .fence true, .wr 1 2, .tau, .fence false],
    [.rd 1 (some (0, 7)), .tau, .fence true, .rd 0 (some (0, 2)), .tau, .fence false] ]
def mpShape : AxShape 32 := ⟨fun t => (mpItems t).flatMap Item.code, zero, mpTest.rank⟩
theorem mp_matches : mpTest.Matches mpShape := by
  refine .mk' rfl fun t => ?_
  match t with
  | 0 => exact .append (fits_st (.none, .none) (p := 0x1000) 1 rfl) (fits_st (.none, .full) (p := 0x2000) 2 rfl)
  | 1 => exact .append (fits_ld (X := mpShape) (src := some (0, 7)) .full (p := 0x2000) rfl ⟨_, rfl, rfl⟩) (fits_ld (X := mpShape) (src := some (0, 2)) .none (p := 0x1000) rfl ⟨_, rfl, rfl⟩)
  | _ + 2 => trivial

/-- the place of the write of a store -/
theorem st_last (f : Pairs × Pairs) (p : BitVec 32) : LastAccess ((owns (evs (stOwns f p))).map Own.ev) .wr 2 := by
  rw [owns_evs]
  refine ⟨⟨.wr .plain, rfl, trivial⟩, ?_⟩
  rintro j hj ⟨ev, h1, h2⟩
  match j, hj with
  | 3, _ => cases h1; exact h2
  | 4, _ => cases h1; exact h2
  | j + 5, _ => simp [stOwns] at h1
/-- the place of the read of a load -/
theorem ld_last (f : Pairs) (p : BitVec 32) (m : Mem) : LastAccess ((owns (evs (ldOwns f p m))).map Own.ev) .rd 0 := by
  rw [owns_evs]
  refine ⟨⟨.rd .plain, rfl, trivial⟩, ?_⟩
  rintro j hj ⟨ev, h1, h2⟩
  match j, hj with
  | 1, _ => cases h1; exact h2
  | 2, _ => cases h1; exact h2
  | j + 3, _ => simp [ldOwns] at h1

/-- The hypotheses of C44 can be met: thread 0's release store synchronizes with thread 1's acquire load, and thread 1's
load of the data, after it, reads what thread 0 stored before. -/
theorem C44_nonmca_example : ∃ (X : AxShape 32) (rf : Node → Nat → Option Node) (items : Nat → List (Item 32)), RAExec armv7.imp X rf ∧
    (∀ t, X.po t = (items t).flatMap Item.code) ∧
    (∀ t d, Item.op d ∈ items t → d.OK armv7 ∧ True ∧ IsSize d.call.width ∧ d.call.addr % (d.call.width / 8) = 0) ∧
    NSync X rf items 0 1 1 0 ∧
    (∃ o o', X.At ⟨0, 2, .wr⟩ o ∧ 2 < off (items 0) 1 ∧ X.At ⟨1, 3, .rd⟩ o' ∧ off (items 1) 1 ≤ 3 ∧ o.writes 0x1000 ∧ o'.reads 0x1000) ∧
    (opsOf (items 0)).map (fun d => (d.call, d.ret)) = [(.store .relaxed 32 0x1000 1, .unit), (.store .release 32 0x2000 1, .unit)] ∧
    (opsOf (items 1)).map (fun d => (d.call, d.ret)) = [(.load .acquire 32 0x2000, .bits 32 1), (.load .relaxed 32 0x1000, .bits 32 1)] := by
  refine ⟨mpShape, mpTest.rf, mpItems, mp_matches.raExec (h := fun t p => 10 * t + p) (by decide) (by decide), fun _ => rfl, ?_, ?_, ?_, ?_, ?_⟩
  · intro t d hd
    match t with
    | 0 =>
      rcases List.mem_cons.1 hd with h | hd
      · cases h; exact ⟨stDone_ok rfl _, trivial, .inr (.inr (.inl rfl)), rfl⟩
      · cases List.mem_singleton.1 hd; exact ⟨stDone_ok rfl _, trivial, .inr (.inr (.inl rfl)), rfl⟩
    | 1 =>
      rcases List.mem_cons.1 hd with h | hd
      · cases h; exact ⟨ldDone_ok rfl _ _, trivial, .inr (.inr (.inl rfl)), rfl⟩
      · cases List.mem_singleton.1 hd; exact ⟨ldDone_ok rfl _ _, trivial, .inr (.inr (.inl rfl)), rfl⟩
    | _ + 2 => cases hd
  · refine .direct (d := stDone .release (.none, .full) 0x2000) (d' := ldDone .acquire .full 0x2000 (after (.none, .full) 0x2000))
      (w := ⟨0, 7, .wr⟩) (r := ⟨1, 0, .rd⟩) (x := 0x2000) rfl rfl
      (.own (k' := 1) (Nat.le_refl _) ⟨_, 2, rfl, st_last _ _, rfl⟩ ⟨rfl, _, ⟨rfl, trivial⟩, ⟨rfl, ?_, ?_⟩, rfl⟩) rfl rfl
      ⟨_, 0, rfl, ld_last _ _ _, rfl⟩ ⟨rfl, trivial⟩ ⟨?_, ?_⟩ rfl (by decide)
    all_goals simp [Arm.str, Arm.ldr, Instr.wrFoot, Instr.rdFoot, Arm.ea, stReg, ldReg]
  · refine ⟨_, _, ⟨rfl, trivial⟩, by decide, ⟨rfl, trivial⟩, by decide, ⟨rfl, ?_, ?_⟩, ?_, ?_⟩ <;>
      simp [Arm.str, Arm.ldr, Instr.wrFoot, Instr.rdFoot, Arm.ea, stReg, ldReg]
  · rfl
  · simp only [mpItems, opsOf, List.filterMap_cons, List.filterMap_nil, List.map_cons, List.map_nil, ldDone_ret, after_eq]
    rw [load_store (by decide), load_store (by decide)]
    rfl

/-! ### All relaxed -/
def rlxItems : Nat → List (Item 32)
  | 0 => [.op (stDone .relaxed (.none, .none) 0x1000), .op (stDone .relaxed (.none, .none) 0x2000)]
  | 1 => [.op (ldDone .relaxed .none 0x2000 (after (.none, .none) 0x2000)), .op (ldDone .relaxed .none 0x1000 zero)]
  | _ => []
def rlxTest : LTest :=
  [ [.tau, .fence false, .wr 0 1, .tau, .fence false, .tau, .fence false, .wr 1 2, .tau, .fence false],
    [.rd 1 (some (0, 7)), .tau, .fence false, .rd 0 none, .tau, .fence false] ]
def rlxShape : AxShape 32 := ⟨fun t => (rlxItems t).flatMap Item.code, zero, rlxTest.rank⟩
theorem rlx_matches : rlxTest.Matches rlxShape := by
  refine .mk' rfl fun t => ?_
  match t with
  | 0 => exact .append (fits_st (.none, .none) (p := 0x1000) 1 rfl) (fits_st (.none, .none) (p := 0x2000) 2 rfl)
  | 1 => exact .append (fits_ld (X := rlxShape) (src := some (0, 7)) .none (p := 0x2000) rfl ⟨_, rfl, rfl⟩) (fits_ld (X := rlxShape) (src := none) (k := 0) .none (p := 0x1000) rfl rfl)
  | _ + 2 => trivial

/-- With relaxed operations the machine allows thread 1 to read the new flag and then the old data: C44 needs the barriers. -/
theorem C44_relaxed_allows_stale : ∃ (X : AxShape 32) (rf : Node → Nat → Option Node) (items : Nat → List (Item 32)), RAExec armv7.imp X rf ∧
    (∀ t, X.po t = (items t).flatMap Item.code) ∧ (∀ t d, Item.op d ∈ items t → d.OK armv7) ∧
    (opsOf (items 0)).map (fun d => (d.call, d.ret)) = [(.store .relaxed 32 0x1000 1, .unit), (.store .relaxed 32 0x2000 1, .unit)] ∧
    (opsOf (items 1)).map (fun d => (d.call, d.ret)) = [(.load .relaxed 32 0x2000, .bits 32 1), (.load .relaxed 32 0x1000, .bits 32 0)] := by
  refine ⟨rlxShape, rlxTest.rf, rlxItems, rlx_matches.raExec (h := fun t p => if t = 0 then if p = 2 then 5 else 1 else if p = 0 then 2 else 3)
    (by decide) (by decide), fun _ => rfl, ?_, ?_, ?_⟩
  · intro t d hd
    match t with
    | 0 =>
      rcases List.mem_cons.1 hd with h | hd
      · cases h; exact stDone_ok rfl _
      · cases List.mem_singleton.1 hd; exact stDone_ok rfl _
    | 1 =>
      rcases List.mem_cons.1 hd with h | hd
      · cases h; exact ldDone_ok rfl _ _
      · cases List.mem_singleton.1 hd; exact ldDone_ok rfl _ _
    | _ + 2 => cases hd
  · rfl
  · simp only [rlxItems, opsOf, List.filterMap_cons, List.filterMap_nil, List.map_cons, List.map_nil, ldDone_ret, after_eq, zero_load]
    rw [load_store (by decide)]
    rfl

end IRIW
end Verif
