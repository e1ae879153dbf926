/-
C31 and C36 on weak memory for the back ends whose strong 32-bit compare_exchange may fail spuriously (see
Verif/Lin/Weaken.lean).
-/
import Verif.Lin.Weaken
import Verif.Weak.Conserve
import Verif.Weak.CoherenceProof

namespace Verif
variable {W : Nat}

theorem Backend.weakened_accesses {A : Backend W} {st sw cas : Nat} (h : A.AccessesOK (gran st sw cas)) :
    A.weakened.AccessesOK (gran st sw cas) := by
  intro c B hB hal
  cases c with
  | load o w a => exact h (.load o w a) B hB hal
  | store o w a v => exact h (.store o w a v) B hB hal
  | swap o w a v => exact h (.swap o w a v) B hB hal
  | cas s f w a old new => exact hB.elim
  | casWeak s f w a old new =>
    rcases hB with hB | hB
    · exact h (.cas s f w a old new) B hB hal
    · exact h (.casWeak s f w a old new) B hB hal

/-- C42 of a back end whose `compare_exchange` is only weak. -/
theorem Good.coherent_weakened {A : Backend W} {sc : List Mon} (h : Good A sc) {st sw cas : Nat}
    (hacc : A.AccessesOK (gran st sw cas)) : A.weakened.Coherent fun _ => True :=
  h.weakened.coherent (fun _ _ _ _ _ _ _ hB => hB.elim) (Backend.weakened_accesses hacc)

/-- C41 of a back end whose `compare_exchange` is only weak. -/
theorem Good.scOnWeak_weakened {A : Backend W} {sc : List Mon} (h : Good A sc) : A.weakened.SCOnWeak Call.SeqCstOnly :=
  h.weakened.scOnWeak (fun _ _ _ _ _ _ _ hB => hB.elim)
    (Backend.orderingsOK h.weakened.acquireOK h.weakened.releaseOK h.weakened.seqCstOK h.weakened.failureOK)

/-- The operation, regarded as a weak one if it is a strong compare_exchange. -/
def Done.weaken : Done W → Done W
  | ⟨.cas s f w a old new, B, tr, rs⟩ => ⟨.casWeak s f w a old new, B, tr, rs⟩
  | d => d
def Item.weaken : Item W → Item W
  | .op d => .op d.weaken
  | .other o => .other o

theorem Done.weaken_call (d : Done W) : d.weaken.call = d.call.weaken := by
  obtain ⟨c, B, tr, rs⟩ := d; cases c <;> rfl
theorem Done.weaken_tr (d : Done W) : d.weaken.tr = d.tr := by
  obtain ⟨c, B, tr, rs⟩ := d; cases c <;> rfl
theorem Done.weaken_ret (d : Done W) : d.weaken.ret = d.ret := by
  obtain ⟨c, B, tr, rs⟩ := d; cases c <;> rfl
theorem Done.weaken_ok {A : Backend W} {d : Done W} (h : d.OK A) : d.weaken.OK A.weakened := by
  obtain ⟨c, B, tr, rs⟩ := d
  obtain ⟨hB, h⟩ := h
  cases c with
  | cas => exact ⟨.inl hB, h⟩
  | casWeak => exact ⟨.inr hB, h⟩
  | _ => exact ⟨hB, h⟩
theorem Item.weaken_code (z : Item W) : z.weaken.code = z.code := by
  cases z with
  | op d => simp only [Item.weaken, Item.code, Done.weaken_tr]
  | other o => rfl

theorem opsOf_weaken (l : List (Item W)) : opsOf (l.map Item.weaken) = (opsOf l).map Done.weaken := by
  induction l with
  | nil => rfl
  | cons z t ih =>
    cases z with
    | op d => show d.weaken :: opsOf (t.map Item.weaken) = d.weaken :: (opsOf t).map Done.weaken; rw [ih]
    | other o => exact ih

theorem allOps_weaken (N : Nat) (items : Nat → List (Item W)) :
    allOps N (fun t => (items t).map Item.weaken) = (allOps N items).map fun z => (z.1, z.2.1.weaken, z.2.2) := by
  simp only [allOps, opsOf_weaken, List.map_map, List.map_flatMap]
  apply flatMap_congr_mem
  intro t _
  apply List.map_congr_left
  intro d _
  simp only [Function.comp, Done.weaken_call, Done.weaken_ret]

theorem CohRun.weaken {A : Backend W} {P : Call → Prop} {Q Q' : Nat → Call → Prop} {w a : Nat} {X : AxShape W}
    {rf : Node → Nat → Option Node} {N : Nat} {items : Nat → List (Item W)} (hQ : ∀ i c, Q i c → Q' i c.weaken)
    (h : CohRun A P Q w a X rf N items) :
    CohRun A.weakened (fun _ => True) Q' w a X rf N fun t => (items t).map Item.weaken where
  coh := h.coh
  size := h.size
  aligned := h.aligned
  threads t ht := by simp only [h.threads t ht]; rfl
  code t := by
    rw [h.code, List.flatMap_map]
    apply flatMap_congr_mem
    intro z _
    exact (Item.weaken_code z).symm
  ops t d hd := by
    obtain ⟨z, hz, he⟩ := List.mem_map.1 hd
    cases z with
    | other => cases he
    | op d' =>
      injection he with he
      subst he
      obtain ⟨h1, _, h2, h3⟩ := h.ops t d' hz
      refine ⟨Done.weaken_ok h1, trivial, ?_, ?_⟩
      · rw [Done.weaken_call]
        generalize d'.call = c at h2
        cases c <;> exact h2
      · rw [Done.weaken_call, on_weaken]
        exact fun ho => hQ _ _ (h3 ho)
  others t o x ho := by
    obtain ⟨z, hz, he⟩ := List.mem_map.1 ho
    cases z with
    | op => cases he
    | other o' => injection he with he; subst he; exact h.others t o' x hz

/-- C36 on weak memory for a back end whose `compare_exchange` is only weak. -/
theorem Backend.swapConservesWeak_of_weakened {A : Backend W} (h : A.weakened.SwapConservesWeak fun _ => True) (P : Call → Prop) :
    A.SwapConservesWeak P := by
  intro w a X rf N items hr
  have := h w a X rf N _ (hr.weaken (Q' := LoadOrSwap) fun i c hc => by cases c <;> first | exact hc | cases hc)
  rw [allOps_weaken, List.flatMap_map, List.flatMap_map] at this
  simp only [swapIn_weaken, swapOut_weaken] at this
  exact this

/-- C31 on weak memory for a back end whose `compare_exchange` is only weak. -/
theorem Backend.noLostUpdatesWeak_of_weakened {A : Backend W} (h : A.weakened.NoLostUpdatesWeak fun _ => True) (P : Call → Prop) :
    A.NoLostUpdatesWeak P := by
  intro w a f X rf N items hr
  have := h w a f X rf N _ (hr.weaken (Q' := UpdateBy f) fun i c hc => by cases c <;> first | exact hc | cases hc)
  rw [allOps_weaken, List.flatMap_map] at this
  simp only [casOk_weaken] at this
  exact this

end Verif
