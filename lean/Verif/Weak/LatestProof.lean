/- Proof of C50. -/
import Verif.Weak.Latest
import Verif.Weak.DRFProof

namespace Verif
variable {W : Nat}

section
variable {A : Backend W} {X : AxShape W} {rf : Node → Nat → Option Node} {items : Nat → List (Item W)} {N : Nat} {P : Call → Prop}
  {R : (i k j l : Nat) → Prop}

/-- two ordinary accesses, one of them a write, are ordered -/
theorem NoRaces.total (hR : NoRaces R items) {a b : Node} {oa ob : Own W} {x : Nat} (ha : DataAt items a oa) (hb : DataAt items b ob)
    (hxa : oa.touches a.kind x) (hxb : ob.touches b.kind x) (hw : a.kind = .wr ∨ b.kind = .wr) (hne : a ≠ b) :
    HappensBefore R items a b ∨ HappensBefore R items b a := by
  by_cases ht : a.thread = b.thread
  · rcases Nat.lt_trichotomy a.pos b.pos with h | h | h
    · exact .inl (.inl ⟨ht, .inl h⟩)
    · obtain ⟨ta, pa, ka⟩ := a
      obtain ⟨tb, pb, kb⟩ := b
      simp only at ht h hw
      subst ht h
      cases ka <;> cases kb
      · rcases hw with h | h <;> cases h
      · exact .inl (.inl ⟨rfl, .inr ⟨rfl, rfl, rfl⟩⟩)
      · exact .inr (.inl ⟨rfl, .inr ⟨rfl, rfl, rfl⟩⟩)
      · exact absurd rfl hne
    · exact .inr (.inl ⟨ht.symm, .inl h⟩)
  · exact hR a b oa ob x ha hb ht hxa hxb hw

/-- what happens before is not newer -/
theorem DBase.precedes (H : DBase A X rf items N P)
    (hp : ∀ a b oa ob, X.At a oa → X.At b ob → (∃ k l, R a.thread k b.thread l ∧ a.pos < off (items a.thread) k ∧
      off (items b.thread) (l + 1) ≤ b.pos) → X.Precedes rf a b)
    {a b : Node} {oa ob : Own W} {x : Nat} (h : HappensBefore R items a b) :
    (X.Wr a oa x → X.Wr b ob x → X.rank a < X.rank b) ∧
    (X.Wr a oa x → X.Rd b ob x → ∃ w, rf b x = some w ∧ X.rank a ≤ X.rank w) ∧
    (∀ w ow, X.Rd a oa x → rf a x = some w → X.Wr w ow x → X.Wr b ob x → X.rank w < X.rank b) := by
  rcases h with ⟨ht, h | ⟨h, h1, h2⟩⟩ | h
  · exact ⟨fun ha hb => H.coh.coWW a b oa ob x ht h ha hb, fun ha hb => H.coh.coWR a b oa ob x ht h ha hb,
      fun w ow ha hw _ hb => H.coh.coRW a b oa ob x w ht h ha hb hw⟩
  · refine ⟨fun ha _ => ?_, fun ha _ => ?_, fun w ow ha hw _ hb => ?_⟩
    · rw [ha.2.1] at h1; cases h1
    · rw [ha.2.1] at h1; cases h1
    · have : oa = ob := by
        have e := ha.1.1
        rw [ht, h, hb.1.1] at e
        exact (Option.some.inj e).symm
      subst this
      exact (H.coh.rmw a b oa x ht h ha hb).1 w hw
  · refine ⟨fun ha hb => ?_, fun ha hb => ?_, fun w ow ha hw how hb => ?_⟩
    · exact (hp a b oa ob ha.1 hb.1 h oa ob x).1 ha hb
    · exact (hp a b oa ob ha.1 hb.1 h oa ob x).2.1 ha hb
    · exact (hp a b oa ob ha.1 hb.1 h oa ob x).2.2.1 w ow ha hw how hb

theorem DBase.readsLatest (H : DBase A X rf items N P)
    (hp : ∀ a b oa ob, X.At a oa → X.At b ob → (∃ k l, R a.thread k b.thread l ∧ a.pos < off (items a.thread) k ∧
      off (items b.thread) (l + 1) ≤ b.pos) → X.Precedes rf a b) (hR : NoRaces R items) : ReadsLatest R items X.m0 := by
  rintro ⟨j, pr, kr⟩ o x hdr hkr hx
  simp only at hkr
  subst hkr
  have hdr' := hdr
  obtain ⟨l, hj, hpos, hhas⟩ := hdr'
  simp only at hj hpos hhas
  subst hpos
  obtain ⟨b1, _⟩ := H.at_data hj hhas
  have hRd : X.Rd ⟨j, off (items j) l, .rd⟩ o x := ⟨b1, rfl, H.nat hj hhas, hx⟩
  obtain ⟨val1, val2⟩ := H.coh.value _ o x b1 rfl hx
  -- ordinary writes
  have wr : ∀ {w v}, DataWrite items w x v → ∃ t k ow, (items t)[k]? = some (.other ow) ∧ ow.writes x ∧ w = ⟨t, off (items t) k, .wr⟩ ∧
      DataAt items w ow ∧ X.Wr w ow x := by
    rintro ⟨t, p, kd⟩ v ⟨hk, ow, hd, hw, _⟩
    have hd' := hd
    obtain ⟨k, h1, h2, h3⟩ := hd'
    simp only at hk h1 h2 h3
    subst hk h2
    exact ⟨t, k, ow, h1, hw, rfl, hd, H.wr h1 hw⟩
  have total : ∀ {w v}, DataWrite items w x v → HappensBefore R items w ⟨j, off (items j) l, .rd⟩ ∨ HappensBefore R items ⟨j, off (items j) l, .rd⟩ w := by
    intro w v hw
    obtain ⟨t, k, ow, _, hwx, rfl, hd, _⟩ := wr hw
    exact hR.total hd hdr hwx hx (.inl rfl) (by simp)
  have early : ∀ {w v}, DataWrite items w x v → HappensBefore R items w ⟨j, off (items j) l, .rd⟩ →
      ∃ s, rf ⟨j, off (items j) l, .rd⟩ x = some s ∧ X.rank w ≤ X.rank s := by
    intro w v hw hb
    obtain ⟨t, k, ow, _, hwx, rfl, hd, hWr⟩ := wr hw
    exact (H.precedes hp hb).2.1 hWr hRd
  cases hs : rf ⟨j, off (items j) l, .rd⟩ x with
  | none =>
    refine .inr ⟨val2 hs, fun w' v' hw' => ?_⟩
    rcases total hw' with h | h
    · obtain ⟨s, h1, _⟩ := early hw' h
      rw [hs] at h1; cases h1
    · exact h
  | some s =>
    have hwb := val1 s hs
    obtain ⟨os, hsW⟩ := H.isWr hwb
    have early' : ∀ {w v}, DataWrite items w x v → HappensBefore R items w ⟨j, off (items j) l, .rd⟩ → X.rank w ≤ X.rank s := by
      intro w v hw hb
      obtain ⟨s', h1, h2⟩ := early hw hb
      rw [hs] at h1
      cases h1
      exact h2
    rcases H.origin ⟨j, o, List.mem_of_getElem? hj, .inl hx⟩ (X.rank s + 1) s _ (Nat.lt_succ_self _) hwb with ⟨t0, k0, ow, g1, g3, g4, g5, g6⟩ | ⟨g1, g2⟩
    · have hd0 : DataWrite items ⟨t0, off (items t0) k0, .wr⟩ x (o.m x) :=
        ⟨rfl, ow, (H.at_data g1 (Ev.has_wr_of g3.1)).2, g3, g4⟩
      refine .inl ⟨_, hd0, ?_, fun w' v' hw' => ?_⟩
      · rcases total hd0 with h | h
        · exact h
        · have := (H.precedes hp h).2.2 s os hRd hs hsW (H.wr g1 g3)
          omega
      · rcases total hw' with h | h
        · have hle := early' hw' h
          obtain ⟨t', k', ow', e1, e2, rfl, e4, e5⟩ := wr hw'
          have hle' := g6 t' k' ow' e1 e2 hle
          by_cases he : (⟨t', off (items t') k', .wr⟩ : Node) = ⟨t0, off (items t0) k0, .wr⟩
          · exact .inl he
          · rcases hR.total e4 (H.at_data g1 (Ev.has_wr_of g3.1)).2 e2 g3 (.inl rfl) he with h | h
            · exact .inr (.inl h)
            · have := (H.precedes hp h).1 (H.wr g1 g3) e5
              omega
        · exact .inr (.inr h)
    · refine .inr ⟨g2, fun w' v' hw' => ?_⟩
      rcases total hw' with h | h
      · have hle := early' hw' h
        obtain ⟨t', k', ow', e1, e2, rfl, e4, e5⟩ := wr hw'
        have := g1 t' k' ow' e1 e2
        omega
      · exact h

/-- with a global memory order, it is enough to compare places in it -/
theorem AxShape.precedes_of_rank (ax : AxExec A.imp X) (hrf : X.ReadsFrom rf) {i p j q K : Nat} {kd kd' : AKind} {oa : Own W} (ha : X.At ⟨i, p, kd⟩ oa)
    (hpK : p < K) (lt : ∀ p' kd1 o1, X.At ⟨i, p', kd1⟩ o1 → p' < K → X.rank ⟨i, p', kd1⟩ < X.rank ⟨j, q, kd'⟩) :
    X.Precedes rf ⟨i, p, kd⟩ ⟨j, q, kd'⟩ := by
  have hlt := lt _ _ _ ha hpK
  have src : ∀ {w : Node} {oa : Own W} {x : Nat}, X.Rd ⟨i, p, kd⟩ oa x → rf ⟨i, p, kd⟩ x = some w →
      X.rank w < X.rank ⟨j, q, kd'⟩ ∧ ∃ v, X.WritesByte w x v := by
    intro w oa x hR hs
    obtain ⟨_, ⟨v, hv⟩, hvis, _⟩ := (hrf _ oa x w hR).1 hs
    refine ⟨?_, v, hv⟩
    rcases hvis with h | ⟨e1, e2⟩
    · omega
    · obtain ⟨wt, wp, wk⟩ := w
      obtain ⟨_, ow, how, _⟩ := hv
      simp only at e1 e2
      subst e1
      exact lt _ _ _ how (by omega)
  intro oa' ob' x
  refine ⟨fun _ _ => hlt, fun hw hr => ?_, fun w ow hr hs _ _ => (src hr hs).1, fun w ow hr hs _ hr' => ?_⟩
  · exact hrf.newest ax hr ⟨hw.2.1, oa', hw.1, hw.2.2.2, rfl⟩ (.inl hlt)
  · obtain ⟨g1, v, g2⟩ := src hr hs
    exact hrf.newest ax hr' g2 (.inl g1)

/-! ### Reading compare_exchange as compare_exchange_weak -/

theorem dataAt_weaken {n : Node} {o : Own W} : DataAt (fun t => (items t).map Item.weaken) n o ↔ DataAt items n o := by
  have key : ∀ k : Nat, ((items n.thread).map Item.weaken)[k]? = some (Item.other o : Item W) ↔ (items n.thread)[k]? = some (Item.other o : Item W) := by
    intro k
    rw [List.getElem?_map]
    cases h : (items n.thread)[k]? with
    | none => simp
    | some it => cases it <;> simp [Item.weaken]
  constructor
  · rintro ⟨k, h1, h2, h3⟩
    exact ⟨k, (key k).1 h1, by rw [h2]; exact offset_weaken _ _, h3⟩
  · rintro ⟨k, h1, h2, h3⟩
    exact ⟨k, (key k).2 h1, by rw [h2]; exact (offset_weaken _ _).symm, h3⟩
theorem happensBefore_weaken {a b : Node} : HappensBefore R (fun t => (items t).map Item.weaken) a b ↔ HappensBefore R items a b := by
  unfold HappensBefore
  simp only [offset_weaken]
theorem noRaces_weaken : NoRaces R (fun t => (items t).map Item.weaken) ↔ NoRaces R items := by
  unfold NoRaces
  simp only [dataAt_weaken, happensBefore_weaken]
theorem readsLatest_weaken {m0 : Mem} : ReadsLatest R (fun t => (items t).map Item.weaken) m0 ↔ ReadsLatest R items m0 := by
  unfold ReadsLatest DataWrite
  simp only [dataAt_weaken, happensBefore_weaken]

theorem DataRun.weaken (h : DataRun A P X N items) : DataRun A.weakened (fun _ => True) X N fun t => (items t).map Item.weaken where
  threads t ht := by simp only [h.threads t ht]; rfl
  code t := by
    rw [h.code, List.flatMap_map]
    apply flatMap_congr_mem
    intro z _
    exact (Item.weaken_code z).symm
  ops t d hd := by
    obtain ⟨d', hd', rfl⟩ := mem_of_weaken hd
    obtain ⟨h1, _, h2⟩ := h.ops t d' hd'
    refine ⟨Done.weaken_ok h1, trivial, ?_⟩
    rw [Done.weaken_call]
    generalize d'.call = c at h2
    cases c <;> exact h2
  objects t d t' d' hd hd' := by
    obtain ⟨d1, hd1, rfl⟩ := mem_of_weaken hd
    obtain ⟨d2, hd2, rfl⟩ := mem_of_weaken hd'
    have := h.objects t d1 t' d2 hd1 hd2
    rw [Done.weaken_call, Done.weaken_call]
    generalize d1.call = c1 at this
    generalize d2.call = c2 at this
    cases c1 <;> cases c2 <;> exact this
  natural t o ho := by
    obtain ⟨z, hz, he⟩ := List.mem_map.1 ho
    cases z with
    | op => cases he
    | other o' => injection he with he; subst he; exact h.natural t o' hz
  apart t o t' d x ho hd := by
    obtain ⟨z, hz, he⟩ := List.mem_map.1 ho
    obtain ⟨d', hd', rfl⟩ := mem_of_weaken hd
    rw [Done.weaken_call]
    cases z with
    | op => cases he
    | other o' =>
      injection he with he
      subst he
      have := h.apart t o' t' d' x hz hd'
      generalize d'.call = c at this
      cases c <;> exact this
end

/-- The form used for the back ends. -/
theorem Good.raceFreeReads {A : Backend W} {sc : List Mon} {st sw cas : Nat} (h : Good A sc) (hpair : A.Paired)
    (hacc : A.AccessesOK (gran st sw cas)) : A.RaceFreeReads fun _ => True := by
  intro X rf N items ax hfwd hX hrf hD hrace
  have H := hD.weaken.base (h.weakened.localOps (P := fun _ => True) fun _ _ _ _ _ _ _ _ hB => hB.elim) (Backend.weakened_accesses hacc) hX
  have hsync := h.synchronizes hpair X items ax hfwd hD.code fun t d hd => ⟨(hD.ops t d hd).1, trivial, (hD.ops t d hd).2.2.1⟩
  refine readsLatest_weaken.1 (H.readsLatest ?_ (noRaces_weaken.2 hrace))
  rintro ⟨i, p, kd⟩ ⟨j, q, kd'⟩ oa ob ha hb ⟨k, l, h1, h2, h3⟩
  simp only [offset_weaken] at h1 h2 h3
  exact AxShape.precedes_of_rank (A := A) ax hrf ha h2 fun p' kd1 o1 g1 g2 => (hsync i k j l h1 p' q kd1 kd' o1 ob g1 g2 hb h3).1

theorem Good.raceFreeReadsNonMCA {A : Backend W} {sc : List Mon} {st sw cas : Nat} (h : Good A sc) (hpair : A.Paired)
    (hacc : A.AccessesOK (gran st sw cas)) (hb : A.BarriersOnly) (himp : A.imp.ww = false) : A.RaceFreeReadsNonMCA fun _ => True := by
  intro X rf N items hX hD hrace
  have H := hD.weaken.base (h.weakened.localOps (P := fun _ => True) fun _ _ _ _ _ _ _ _ hB => hB.elim) (Backend.weakened_accesses hacc) hX.toCohExec
  have hsync := h.syncOnNonMCA hpair hacc hb himp X rf items hX hD.code hD.ops
  refine readsLatest_weaken.1 (H.readsLatest ?_ (noRaces_weaken.2 hrace))
  rintro ⟨i, p, kd⟩ ⟨j, q, kd'⟩ oa ob ha hb ⟨k, l, h1, h2, h3⟩
  simp only [offset_weaken] at h1 h2 h3
  exact hsync i k j l h1 p q kd kd' oa ob ha h2 hb h3

end Verif
