/-
C55: its hypotheses can be met, with a flag stored and loaded with Relaxed ordering and fences, on Armv7: thread 1 finds the flag set and reads
the data that thread 0 wrote, with ordinary accesses, and there is no data race.
-/
import Verif.Props.LatestFence
import Verif.Props.FenceLitmus

namespace Verif
namespace IRIW
open DRFSample (write read)

abbrev rs0 : RS 32 := regs (ldB .none 0)
/-- the data is 7 -/
abbrev n1 : Mem := store .little zero 0x2000 32 7#32
/-- and the flag is set -/
abbrev n2 : Mem := put (.none, .none) 0x1000 n1
def sflag : Done 32 := putDone .relaxed (.none, .none) 0x1000 n1
def ssee : Done 32 := ldDone .relaxed .none 0x1000 n2
def wdata : Own 32 := write 32 .little rs0 zero
def rdata : Own 32 := read 32 rs0 n2
/-- thread 0 writes the data, executes a fence and sets the flag; thread 1 loads the flag, executes a fence and reads the data -/
def shared : List (Nat × Item 32) :=
  [(0, .other wdata), (0, .other (dmb n1)), (0, .op sflag), (1, .op ssee), (1, .other (dmb n2)), (1, .other rdata)]

theorem shared_mixed : Mixed armv7 zero shared n2 := by
  refine ⟨rfl, fun x hx => (store_outside (e := .little) (m := zero) (a := 0x2000) (w := 32) (v := 7#32) ?_ : Verif.store _ _ _ _ _ _ = _), rfl,
    rfl, fun _ _ => rfl, rfl, n2, putDone_alone rfl _ _, n2, ldDone_alone rfl _ _, rfl, fun _ _ => rfl, rfl, rfl, fun _ _ => rfl, rfl, rfl⟩
  rcases Nat.lt_or_ge x 0x2000 with hlt | hge
  · exact .inl hlt
  · exact .inr (Nat.le_of_not_lt fun hlt => hx ⟨rfl, hge, hlt⟩)

theorem shared_items {t : Nat} {it : Item 32} (h : it ∈ mixedItems shared t) :
    (t = 0 ∧ (it = .other wdata ∨ it = .other (dmb n1) ∨ it = .op sflag)) ∨ (t = 1 ∧ (it = .op ssee ∨ it = .other (dmb n2) ∨ it = .other rdata)) := by
  match t with
  | 0 =>
    left
    have : it ∈ [Item.other wdata, .other (dmb n1), .op sflag] := h
    simpa using this
  | 1 =>
    right
    have : it ∈ [Item.op ssee, .other (dmb n2), .other rdata] := h
    simpa using this
  | t + 2 =>
    have : it ∈ ([] : List (Item 32)) := h
    cases this

abbrev sX : AxShape 32 := interleaved zero (mixedCode shared)
noncomputable abbrev srf : Node → Nat → Option Node := readFrom zero (mixedCode shared)

theorem sflag_written : sX.WritesByte ⟨0, 4, .wr⟩ 0x1000 (n2 0x1000) := by
  refine ⟨rfl, (putOwns (.none, .none) 0x1000 n1)[2], ⟨rfl, trivial⟩, ⟨rfl, ?_, ?_⟩, rfl⟩ <;>
    simp [putOwns, Arm.str, Instr.wrFoot, Arm.ea, stReg]
theorem sflag_at : sX.At ⟨1, 0, .rd⟩ (ldOwns .none 0x1000 n2)[0] := ⟨rfl, trivial⟩
theorem sflag_read : (ldOwns .none 0x1000 n2)[0].reads 0x1000 := by
  refine ⟨?_, ?_⟩ <;> simp [ldOwns, Arm.ldr, Instr.rdFoot, Arm.ea, ldReg]
theorem sflag_seen : srf ⟨1, 0, .rd⟩ 0x1000 = some ⟨0, 4, .wr⟩ := by
  refine readFrom_iff.2 ⟨⟨_, sflag_written⟩, by decide, fun w v hw hlt => ?_⟩
  obtain ⟨o, g1, g2, _, g4⟩ := writes_at hw
  rw [g4] at hlt ⊢
  have hlt : 2 * place (mixedCode shared) w.thread w.pos + 1 < 14 := hlt
  show _ ≤ 9
  generalize place (mixedCode shared) w.thread w.pos = j at *
  rcases (by omega : j ≤ 4 ∨ j = 5 ∨ j = 6) with h | rfl | rfl
  · omega
  · have : o.ev.isWrite = false := by
      have g1 := congrArg (Option.map fun z => z.2.ev.isWrite) g1
      exact (Option.some.inj g1).symm
    exact absurd g2.1 (by simp [this])
  · have : o.ev.isWrite = false := by
      have g1 := congrArg (Option.map fun z => z.2.ev.isWrite) g1
      exact (Option.some.inj g1).symm
    exact absurd g2.1 (by simp [this])

/-- the fences synchronize -/
theorem shared_sync : FSync armv7.imp sX (mixedItems shared) 0 1 1 1 ∧ NFSync sX srf (mixedItems shared) 0 1 1 1 := by
  have con := shared_mixed.consistent armv7.imp
  have lw : IsLast (mixedItems shared) 0 2 .wr ⟨0, 4, .wr⟩ := ⟨sflag, 2, rfl, put_last _ _ _, rfl⟩
  have lr : IsLast (mixedItems shared) 1 0 .rd ⟨1, 0, .rd⟩ := ⟨ssee, 0, rfl, ld_last _ _ _, rfl⟩
  have from_ : sX.From ⟨0, 4, .wr⟩ ⟨1, 0, .rd⟩ 0x1000 :=
    (con.readsFrom ⟨1, 0, .rd⟩ _ 0x1000 ⟨0, 4, .wr⟩ ⟨sflag_at, rfl, ⟨0x1000, 32, by simp [ldOwns, Arm.ldr, Instr.access, Arm.ea, ldReg], .inr (.inr (.inl rfl)), rfl⟩, sflag_read⟩).1 sflag_seen
  constructor
  · exact .direct (by decide) (.inr ⟨by decide, fun kd => .inr ⟨dmb n1, .full, rfl, rfl, by cases kd <;> rfl⟩⟩) lw sflag_written
      (.inr ⟨by decide, fun kd => .inr ⟨dmb n2, .full, rfl, rfl, by cases kd <;> rfl⟩, ssee, rfl, trivial⟩) lr from_ (Nat.le_refl _)
      (.inl (by decide))
  · exact .direct (.inr ⟨dmb n1, .full, rfl, rfl, rfl, rfl⟩) (.own (k' := 2) (by decide) lw sflag_written)
      (.inr ⟨by decide, dmb n2, .full, rfl, rfl, rfl, rfl⟩) lr sflag_at sflag_read sflag_seen (by decide)

theorem shared_run : DataRun armv7 (fun _ => True) sX 2 (mixedItems shared) where
  threads t ht := by match t, ht with | t + 2, _ => rfl
  code := mixed_code shared
  ops t d hd := by
    rcases shared_items hd with ⟨_, h | h | h⟩ | ⟨_, h | h | h⟩ <;> cases h
    · exact ⟨(putDone_alone rfl _ _).ok, trivial, .inr (.inr (.inl rfl)), rfl⟩
    · exact ⟨(ldDone_alone rfl _ _).ok, trivial, .inr (.inr (.inl rfl)), rfl⟩
  objects t d t' d' hd hd' := by
    rcases shared_items hd with ⟨_, h | h | h⟩ | ⟨_, h | h | h⟩ <;> cases h <;>
      rcases shared_items hd' with ⟨_, h | h | h⟩ | ⟨_, h | h | h⟩ <;> cases h <;> exact .inl ⟨rfl, rfl⟩
  natural t o ho hac := by
    rcases shared_items ho with ⟨_, h | h | h⟩ | ⟨_, h | h | h⟩ <;> cases h
    · exact ⟨0x2000, 32, rfl, .inr (.inr (.inl rfl)), rfl⟩
    · cases hac
    · cases hac
    · exact ⟨0x2000, 32, rfl, .inr (.inr (.inl rfl)), rfl⟩
  apart t o t' d x ho hd hx := by
    have hx' : 0x2000 ≤ x := by
      rcases shared_items ho with ⟨_, h | h | h⟩ | ⟨_, h | h | h⟩ <;> cases h <;> rcases hx with hx | hx
      · have := hx.2; simp [wdata, write, Instr.rdFoot] at this
      · exact hx.2.1
      · cases hx.2
      · cases hx.1
      · cases hx.2
      · cases hx.1
      · exact hx.1
      · cases hx.1
    rintro ⟨_, h2⟩
    rcases shared_items hd with ⟨_, h | h | h⟩ | ⟨_, h | h | h⟩ <;> cases h
    · have h2 : x < 0x1000 + 32 / 8 := h2; omega
    · have h2 : x < 0x1000 + 32 / 8 := h2; omega

/-- an ordinary access of thread 0 happens before one of thread 1 -/
theorem shared_before {R : (i k j l : Nat) → Prop} (hR : R 0 1 1 1) {a b : Node} {oa ob : Own 32}
    (ha : DataAt (mixedItems shared) a oa) (hb : DataAt (mixedItems shared) b ob) (h0 : a.thread = 0) (h1 : b.thread = 1) :
    HappensBefore R (mixedItems shared) a b := by
  obtain ⟨ta, pa, ka⟩ := a
  obtain ⟨tb, pb, kb⟩ := b
  simp only at h0 h1
  subst h0 h1
  obtain ⟨k, k1, k2, k3⟩ := ha
  obtain ⟨l, l1, l2, l3⟩ := hb
  simp only at k1 k2 k3 l1 l2 l3
  refine .inr ⟨1, 1, hR, ?_, ?_⟩
  · match k, k1 with
    | 0, _ => rw [k2]; exact (by decide : 0 < 1)
    | 1, k1 => cases k1; exact absurd k3 (by cases ka <;> exact fun h => h)
    | 2, k1 => cases k1
    | k + 3, k1 => cases k1
  · match l, l1 with
    | 0, l1 => cases l1
    | 1, l1 => cases l1; exact absurd l3 (by cases kb <;> exact fun h => h)
    | 2, _ => rw [l2]; exact Nat.le_refl _
    | l + 3, l1 => cases l1

theorem shared_noRaces {R : (i k j l : Nat) → Prop} (hR : R 0 1 1 1) : NoRaces R (mixedItems shared) := by
  intro a b oa ob x ha hb hne _ _ _
  have two : ∀ {n o}, DataAt (mixedItems shared) n o → n.thread = 0 ∨ n.thread = 1 := by
    rintro n o ⟨k, k1, _⟩
    rcases shared_items (List.mem_of_getElem? k1) with ⟨h, _⟩ | ⟨h, _⟩
    · exact .inl h
    · exact .inr h
  rcases two ha with h | h <;> rcases two hb with h' | h'
  · omega
  · exact .inl (shared_before hR ha hb h h')
  · exact .inr (shared_before hR hb ha h' h)
  · omega

/-- The hypotheses of C55 (both versions) can be met: there is no data race, thread 1 finds the flag set (Relaxed) and then the data. -/
theorem C55_example : ∃ (X : AxShape 32) (rf : Node → Nat → Option Node) (items : Nat → List (Item 32)) (o1 o2 : Own 32),
    FullyConsistent armv7.imp X rf ∧ DataRun armv7 (fun _ => True) X 2 items ∧ NoRaces (FSync armv7.imp X items) items ∧
    NoRaces (NFSync X rf items) items ∧ Item.other o1 ∈ items 0 ∧ Item.other o2 ∈ items 1 ∧
    (opsOf (items 0)).map (fun d => (d.call, d.ret)) = [(.store .relaxed 32 0x1000 1, .unit)] ∧
    (opsOf (items 1)).map (fun d => (d.call, d.ret)) = [(.load .relaxed 32 0x1000, .bits 32 1)] ∧
    o1.writes 0x2000 ∧ o2.reads 0x2000 ∧ load .little o2.m 0x2000 32 = 7#32 := by
  refine ⟨sX, srf, mixedItems shared, wdata, rdata, shared_mixed.consistent _, shared_run, shared_noRaces shared_sync.1, shared_noRaces shared_sync.2,
    List.mem_of_getElem? (i := 0) rfl, List.mem_of_getElem? (i := 2) rfl, rfl, ?_, ⟨rfl, by exact (by decide : 0x2000 ≤ 0x2000 ∧ 0x2000 < 0x2004)⟩,
    by exact (by decide : 0x2000 ≤ 0x2000 ∧ 0x2000 < 0x2004), ?_⟩
  · show [(ssee.call, ssee.ret)] = _
    simp only [ssee, ldDone_ret, put_eq]
    rw [load_store (by decide)]
    rfl
  · show load .little (put (.none, .none) 0x1000 n1) 0x2000 32 = _
    rw [put_eq, load_store_disjoint (by decide) (.inr (by decide)), load_store (by decide)]

end IRIW
end Verif
