/-
Proof of C53 without multi-copy atomicity (Weak/Fence.lean).
-/
import Verif.Weak.Fence
import Verif.Weak.NonMCASyncProof

namespace Verif
variable {W : Nat} {A : Backend W} {X : AxShape W} {rf : Node → Nat → Option Node} {items : Nat → List (Item W)}

section
variable (H : RSetup A X rf items)
include H

/-- the write of an operation that carries what an item released, from that item on -/
theorem RSetup.publish {t f k' : Nat} {w : Node} (h : NPublishes items t f) (hk : f ≤ k') (hw : IsLast items t k' .wr w) :
    ∃ w0 o0, X.At w0 o0 ∧ w0.thread = t ∧ w0.kind = .wr ∧ (IsLast items t f .wr w0 ∨ off (items t) (f + 1) ≤ w0.pos) ∧
      (∀ p kd o, X.At ⟨t, p, kd⟩ o → p < off (items t) f → X.Cumul ⟨t, p, kd⟩ w0) ∧ Star (X.Hb A.imp rf) w0 w := by
  rcases h with ⟨d, hd, hr⟩ | ⟨of, pf, hf, hev, h1, h2⟩
  · exact H.release hd hr hk hw
  obtain ⟨ow, hat, _, hkw⟩ := H.isLast hw
  obtain ⟨ht, _, hge, _⟩ := hw.node
  have hlt : f < k' := by
    rcases Nat.lt_or_eq_of_le hk with h | rfl
    · exact h
    · obtain ⟨d, _, hd, _⟩ := hw
      rw [hf] at hd; cases hd
  have hoff := off_mono (items t) (show f + 1 ≤ k' from hlt)
  have hsucc := off_succ hf
  simp only [Item.code, List.length_singleton] at hsucc
  refine ⟨w, ow, hat, ht, hkw, .inr (by omega), fun p kd o hp hpf => ?_, .refl _⟩
  refine ⟨ht.symm, by simp only; omega, o, ow, hp, hat, .inl ⟨off (items t) f, of, pf, by simp only; omega, by omega, ?_, hev, h1, h2, ?_⟩⟩
  · show (X.po t)[_]? = _
    rw [H.po]
    have := item_get hf (it := .other of) (q := 0) (o := of) rfl
    rwa [Nat.add_zero] at this
  · rw [hkw]; cases kd
    · exact h1
    · exact h2

/-- a release sequence -/
theorem RSetup.fcarries {i f x : Nat} {w : Node} (h : NPublishes items i f) (hc : Carries X rf items i f x w) :
    (∃ o, X.Wr w o x) ∧ ∃ w0 o0, X.At w0 o0 ∧ w0.thread = i ∧ w0.kind = .wr ∧
      (IsLast items i f .wr w0 ∨ off (items i) (f + 1) ≤ w0.pos) ∧
      (∀ p kd o, X.At ⟨i, p, kd⟩ o → p < off (items i) f → X.Cumul ⟨i, p, kd⟩ w0) ∧ Star (X.Hb A.imp rf) w0 w := by
  induction hc with
  | own hk hw hx => exact ⟨H.isLast_Wr hw hx, H.publish h hk hw⟩
  | @update w r w' t u du o v _ hd hU hr ho hx hrf ht hw' hx' ih =>
    obtain ⟨⟨ow, hW⟩, w0, o0, h1, h2, h3, h4, h5, h6⟩ := ih
    refine ⟨H.isLast_Wr hw' hx', w0, o0, h1, h2, h3, h4, h5, (h6.tail (.inr (.inl ⟨?_, ow, o, x, hW, H.isLast_Rd hr ho hx, hrf⟩))).tail
      (.inr (.inr (H.readWrite hd hr hw' (.inr ⟨x, v, hx', hU⟩))))⟩
    rw [hr.node.1]; exact ht

/-- what is received happens before everything later -/
theorem RSetup.receive {t l g : Nat} {r : Node} (h : NReceives items t l g) (hr : IsLast items t l .rd r) {q : Nat} {kd : AKind}
    {o : Own W} (hq : X.At ⟨t, q, kd⟩ o) (hle : off (items t) (g + 1) ≤ q) : X.Hb A.imp rf r ⟨t, q, kd⟩ := by
  rcases h with ⟨rfl, d, hd, ha⟩ | ⟨hlg, of, pf, hf, hev, h1, h2⟩
  · exact H.acquire hd ha hr hq hle
  obtain ⟨or, hor, _, hkr⟩ := H.isLast hr
  obtain ⟨ht, _, _, hlt⟩ := hr.node
  have hoff := off_mono (items t) (show l + 1 ≤ g from hlg)
  have hsucc := off_succ hf
  simp only [Item.code, List.length_singleton] at hsucc
  obtain ⟨tr, pr, kr⟩ := r
  simp only at ht hkr hlt
  subst ht hkr
  refine .inl ⟨rfl, by simp only; omega, or.ev, o.ev, by rw [List.getElem?_map, hor.1]; rfl, by rw [List.getElem?_map, hq.1]; rfl, hor.2, hq.2,
    .inr (.inl ⟨off (items tr) g, pf, by simp only; omega, by simp only; omega, ?_, ?_⟩)⟩
  · rw [List.getElem?_map, H.po, ← hev]
    have := item_get hf (it := .other of) (q := 0) (o := of) rfl
    rw [Nat.add_zero] at this
    rw [this]; rfl
  · cases kd
    · exact h1
    · exact h2

/-- what synchronization gives -/
theorem RSetup.fsync {i f j g : Nat} (h : NFSync X rf items i f j g) : ∃ w0 o0, NPublishes items i f ∧
    X.At w0 o0 ∧ w0.thread = i ∧ w0.kind = .wr ∧ (IsLast items i f .wr w0 ∨ off (items i) (f + 1) ≤ w0.pos) ∧
    (∀ p kd o, X.At ⟨i, p, kd⟩ o → p < off (items i) f → X.Cumul ⟨i, p, kd⟩ w0) ∧
    (∀ q kd o, X.At ⟨j, q, kd⟩ o → off (items j) (g + 1) ≤ q → Plus (X.Hb A.imp rf) w0 ⟨j, q, kd⟩) ∧
    ∀ n', NPublishes items j g → IsLast items j g .wr n' → Plus (X.Hb A.imp rf) w0 n' := by
  induction h with
  | @direct i f j l g w r o x hrel hw hacq hr ho hx hrf hj =>
    obtain ⟨⟨ow, hW⟩, w0, o0, h1, h2, h3, h4, h5, h6⟩ := H.fcarries hrel hw
    have hwr : Plus (X.Hb A.imp rf) w0 r := h6.plus (.inr (.inl ⟨by rw [hr.node.1]; exact hj, ow, o, x, hW, H.isLast_Rd hr ho hx, hrf⟩))
    refine ⟨w0, o0, hrel, h1, h2, h3, h4, h5, fun q kd oq hq hle => hwr.tail (H.receive hacq hr hq hle), ?_⟩
    intro n' hp hn'
    have hn2 := hn'
    obtain ⟨dn, _, hdn, _⟩ := hn2
    rcases hp with ⟨d, hd, hrel'⟩ | ⟨_, _, hf, _⟩
    · rcases hacq with ⟨rfl, d', hd', ha⟩ | ⟨_, _, _, hf, _⟩
      · obtain rfl : d = d' := by simpa using hd.symm.trans hd'
        exact hwr.tail (.inr (.inr (H.readWrite hd' hr hn' (.inl (Done.updates_of ha hrel')))))
      · rw [hdn] at hf; cases hf
    · rw [hdn] at hf; cases hf
  | @trans i f j g m t n _ hlm _ ih ih' =>
    obtain ⟨w0, o0, h2, h3, h4, h5, h6, h7, h8, h9⟩ := ih
    obtain ⟨w1, o1, g2, g3, g4, g5, g6, g7, g8, g9⟩ := ih'
    have hw : Plus (X.Hb A.imp rf) w0 w1 := by
      have later : off (items j) (g + 1) ≤ w1.pos → Plus (X.Hb A.imp rf) w0 w1 := by
        intro hle
        obtain ⟨t1, p1, k1⟩ := w1
        simp only at g4
        subst g4
        exact h8 p1 k1 o1 g3 hle
      rcases Nat.lt_or_eq_of_le hlm with hlt | rfl
      · refine later ?_
        have h1 := off_mono (items j) (show g + 1 ≤ m from hlt)
        have h2 := off_mono (items j) (Nat.le_succ m)
        rcases g6 with g6 | g6
        · have := g6.node.2.2.1; omega
        · simp only [Nat.succ_eq_add_one] at h2; omega
      · rcases g6 with g6 | g6
        · exact h9 w1 g2 g6
        · exact later g6
    exact ⟨w0, o0, h2, h3, h4, h5, h6, h7, fun q kd o hq hle => hw.trans (g8 q kd o hq hle),
      fun n' hr hn => hw.trans (g9 n' hr hn)⟩

theorem RSetup.fconclude {i f j g : Nat} (h : NFSync X rf items i f j g) (p q : Nat) (kd kd' : AKind) (o o' : Own W)
    (hp : X.At ⟨i, p, kd⟩ o) (hpk : p < off (items i) f) (hq : X.At ⟨j, q, kd'⟩ o') (hql : off (items j) (g + 1) ≤ q) :
    X.Precedes rf ⟨i, p, kd⟩ ⟨j, q, kd'⟩ := by
  obtain ⟨w0, o0, _, _, _, hk0, _, hcum, hpost, _⟩ := H.fsync h
  exact H.precedes hk0 hcum hpost p q kd kd' o o' hp hpk hq hql
end

/-- C53 without multi-copy atomicity, from the local specification of the operations, their orderings, accesses and the shape of their
code. -/
theorem Backend.fencesSyncOnNonMCA {P : Call → Prop} {g : Call → Nat} (hloc : A.LocalOps P) (hord : A.OrderingsOK)
    (hpair : A.Paired) (hacc : A.AccessesOK g) (hb : A.BarriersOnly) (himp : A.imp.ww = false) : A.FencesSyncOnNonMCA P := by
  intro X rf items hX hpo hops i k j l h
  exact RSetup.fconclude ⟨⟨hpo, fun t d h => exists_point hloc (hops t d h).1 (hops t d h).2.1⟩, hX, fun t d h => (hops t d h).1,
    fun t d h => (hops t d h).2.2.1, fun t d o h ho ha => Done.natural hacc (hops t d h).1 (hops t d h).2.2.2 ho ha, hord, hpair, hb, himp⟩ h

theorem NPublishes.weaken {t f : Nat} (h : NPublishes items t f) : NPublishes (fun t => (items t).map Item.weaken) t f := by
  rcases h with ⟨d, hd, hr⟩ | ⟨o, p, h1, h2⟩
  · refine .inl ⟨d.weaken, get_weaken hd, ?_⟩
    obtain ⟨c, B, tr, rs⟩ := d; cases c <;> exact hr
  · exact .inr ⟨o, p, by rw [List.getElem?_map, h1]; rfl, h2⟩
theorem NReceives.weaken {t l g : Nat} (h : NReceives items t l g) : NReceives (fun t => (items t).map Item.weaken) t l g := by
  rcases h with ⟨h, d, hd, hr⟩ | ⟨h, o, p, h1, h2⟩
  · refine .inl ⟨h, d.weaken, get_weaken hd, ?_⟩
    obtain ⟨c, B, tr, rs⟩ := d; cases c <;> exact hr
  · exact .inr ⟨h, o, p, by rw [List.getElem?_map, h1]; rfl, h2⟩
theorem NFSync.weaken {i f j g : Nat} (h : NFSync X rf items i f j g) : NFSync X rf (fun t => (items t).map Item.weaken) i f j g := by
  induction h with
  | trans _ hlm _ ih ih' => exact ih.trans hlm ih'
  | direct hrel hw hacq hr ho hx hrf hj => exact .direct hrel.weaken hw.weaken hacq.weaken hr.weaken ho hx hrf hj

/-- The form used for the back ends. -/
theorem Good.fencesSyncOnNonMCA {sc : List Mon} {st sw cas : Nat} (h : Good A sc) (hpair : A.Paired)
    (hacc : A.AccessesOK (gran st sw cas))
    (hb : A.BarriersOnly) (himp : A.imp.ww = false) : A.FencesSyncOnNonMCA fun _ => True := by
  have hw : A.weakened.FencesSyncOnNonMCA fun _ => True :=
    Backend.fencesSyncOnNonMCA (h.weakened.localOps (P := fun _ => True) fun _ _ _ _ _ _ _ _ hB => hB.elim)
      (Backend.orderingsOK h.weakened.acquireOK h.weakened.releaseOK h.weakened.seqCstOK h.weakened.failureOK) hpair.weakened
      (Backend.weakened_accesses hacc) hb.weakened himp
  intro X rf items hX hpo hops i k j l hs p q kd kd' o o' hp hpk hq hql
  refine hw X rf (fun t => (items t).map Item.weaken) hX ?_ ?_ i k j l hs.weaken p q kd kd' o o' hp ?_ hq ?_
  · intro t
    rw [hpo, List.flatMap_map]
    apply flatMap_congr_mem
    intro z _
    exact (Item.weaken_code z).symm
  · intro t d hd
    obtain ⟨z, hz, he⟩ := List.mem_map.1 hd
    cases z with
    | other => cases he
    | op d' =>
      injection he with he
      subst he
      obtain ⟨h1, _, h2⟩ := hops t d' hz
      refine ⟨Done.weaken_ok h1, trivial, ?_⟩
      rw [Done.weaken_call]
      generalize d'.call = c at h2
      cases c <;> exact h2
  · rw [offset_weaken]; exact hpk
  · rw [offset_weaken]; exact hql

end Verif
