/-
C60: its hypotheses can be met: the execution of C55_example (Armv7, a flag stored and loaded with Relaxed ordering, and fences), in which the
data is an object of this crate that both threads access with ordinary instructions (`get_mut`).
-/
import Verif.Props.MixedFence
import Verif.Props.LatestFenceLitmus

namespace Verif
namespace IRIW

/-- The hypotheses of C60 (both versions) can be met: thread 0 writes 7 into the object at 0x2000, which comes before thread 1's read of it
because of the fences; and it finds 7. -/
theorem C60_example : ∃ (X : AxShape 32) (rf : Node → Nat → Option Node) (items : Nat → List (Item 32)) (o1 o2 : Own 32),
    FullyConsistent armv7.imp X rf ∧ MixedRun armv7 (fun _ => True) X 2 items 32 0x2000 ∧
    (items 0)[0]? = some (.other o1) ∧ (items 1)[2]? = some (.other o2) ∧ o1.WritesAll 32 0x2000 ∧ o2.ReadsAll 32 0x2000 ∧
    ItemBefore (FSync armv7.imp X items) 0 0 1 2 ∧ ItemBefore (NFSync X rf items) 0 0 1 2 ∧ load .little o2.m 0x2000 32 = 7#32 := by
  have w1 : wdata.WritesAll 32 0x2000 := ⟨_, _, _, rfl, rfl, rfl⟩
  refine ⟨sX, srf, mixedItems shared, wdata, rdata, shared_mixed.consistent _, ⟨.inr (.inr (.inl rfl)), rfl, shared_run.threads, mixed_code shared, ?_, ?_⟩,
    rfl, rfl, w1, ⟨_, _, _, rfl, rfl, rfl⟩, .inr ⟨1, 1, shared_sync.1, by decide, by decide⟩, .inr ⟨1, 1, shared_sync.2, by decide, by decide⟩, ?_⟩
  · intro t d hd
    refine ⟨(shared_run.ops t d hd).1, trivial, (shared_run.ops t d hd).2.2.1, (shared_run.ops t d hd).2.2.2, .inr ?_⟩
    rcases shared_items hd with ⟨_, h | h | h⟩ | ⟨_, h | h | h⟩ <;> cases h
    · exact .inl (by decide : 0x1000 + 32 / 8 ≤ 0x2000)
    · exact .inl (by decide : 0x1000 + 32 / 8 ≤ 0x2000)
  · intro t o x ho _ _ hx
    rcases shared_items ho with ⟨_, h | h | h⟩ | ⟨_, h | h | h⟩ <;> cases h
    · exact w1
    · exact absurd hx.1 (by simp [dmb, Ev.isWrite])
    · exact absurd hx.1 (by simp [dmb, Ev.isWrite])
    · exact absurd hx.1 (by simp [rdata, DRFSample.read, Ev.isWrite])
  · show load .little (put (.none, .none) 0x1000 n1) 0x2000 32 = _
    rw [put_eq, load_store_disjoint (by decide) (.inr (by decide)), load_store (by decide)]

end IRIW
end Verif
