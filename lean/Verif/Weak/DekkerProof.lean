/- Proof of C62. -/
import Verif.Weak.Dekker
import Verif.Weak.SeqlockProof
import Verif.Weak.FenceSCProof

namespace Verif
variable {W : Nat}

section
variable {A : Backend W} {X : AxShape W} {rf : Node → Nat → Option Node} {items : Nat → List (Item W)}

/-- Points with a full fence between them are in order. -/
theorem Prog.fenceRank (HP : Prog A X items) (hX : AxExec A.imp X) {t k f k' : Nat} {d d' : Done W} {n n' : Node} {o o' : Own W}
    (h1 : k < f) (h2 : f < k') (hF : SeqCstFence A.imp items t f) (h : IsPt A.e items t k d n o) (h' : IsPt A.e items t k' d' n' o') :
    X.rank n < X.rank n' := by
  have ha := HP.isPt_at h
  have ha' := HP.isPt_at h'
  obtain ⟨p, hp, rfl⟩ := h.pt
  obtain ⟨p', hp', rfl⟩ := h'.pt
  have hlen := (List.getElem?_eq_some_iff.1 hp.get).1
  have o1 := off_mono (items t) (show k + 1 ≤ f from h1)
  have o2 := off_mono (items t) (show f + 1 ≤ k' from h2)
  rw [off_succ h.item] at o1
  simp only [Item.code] at o1
  exact hX.ppo _ _ _ _ _ (HP.fence (hF _ _) ha ha' (by omega) (by omega))

theorem Prog.fenceFenced (HP : Prog A X items) {t k f k' : Nat} {d d' : Done W} {n n' : Node} {o o' : Own W}
    (h1 : k < f) (h2 : f < k') (hF : ∃ of p, (items t)[f]? = some (.other of) ∧ of.ev = .fence p ∧ p.wr = true)
    (h : IsPt A.e items t k d n o) (h' : IsPt A.e items t k' d' n' o') : X.Fenced n n' := by
  obtain ⟨of, pf, h3, h4, h5⟩ := hF
  have ha := HP.isPt_at h
  have ha' := HP.isPt_at h'
  obtain ⟨p, hp, rfl⟩ := h.pt
  obtain ⟨p', hp', rfl⟩ := h'.pt
  have hlen := (List.getElem?_eq_some_iff.1 hp.get).1
  have o1 := off_mono (items t) (show k + 1 ≤ f from h1)
  have o2 := off_mono (items t) (show f + 1 ≤ k' from h2)
  rw [off_succ h.item] at o1
  rw [off_succ h3] at o2
  simp only [Item.code, List.length_singleton] at o1 o2
  refine ⟨rfl, by simp only; omega, o, o', ha, ha', .inl ⟨off (items t) f, of, pf, by simp only; omega, by simp only; omega, ?_, h4, h5⟩⟩
  rw [HP.po]
  have := item_get h3 (it := .other of) (q := 0) (o := of) rfl
  rwa [Nat.add_zero] at this

variable {w a : Nat} (H : CSetup A X rf items w a)
include H

/-- what comes earlier in the global memory order is seen -/
theorem CSetup.seesRank (ax : AxExec A.imp X) (hrf : X.ReadsFrom rf) {i k j l : Nat} {d d' : Done W} {n n' : Node} {o o' : Own W}
    (h : IsPt A.e items i k d n o) (hw : o.ev.isWrite = true) (hon : d.call.On w a) (h' : IsPt A.e items j l d' n' o')
    (hon' : d'.call.On w a) (hlt : X.rank n < X.rank n') : Sees A X rf items a i k j l := by
  have hpos := H.size.pos
  have W0 := (H.touch h hon (Nat.le_refl a) (by omega)).1 hw
  intro d1 n1 o1 d2 n2 o2 g1 g2
  obtain ⟨rfl, rfl, rfl⟩ := g1.unique h
  obtain ⟨rfl, rfl, rfl⟩ := g2.unique h'
  unfold keyOf
  rw [hw]
  cases hwl : o2.ev.isWrite with
  | true => simp only; omega
  | false =>
    have hR := (H.touch g2 hon' (Nat.le_refl a) (by omega)).2 hwl
    obtain ⟨s, hs, hle⟩ := hrf.newest ax hR ⟨W0.2.1, o1, W0.1, W0.2.2.2, rfl⟩ (.inl hlt)
    rw [hs]
    simp only
    omega

/-- what is not seen comes later -/
theorem CSetup.unseenCom {i k j l : Nat} {d d' : Done W} {n n' : Node} {o o' : Own W} (hij : i ≠ j)
    (h : IsPt A.e items i k d n o) (hw : o.ev.isWrite = true) (hon : d.call.On w a) (h' : IsPt A.e items j l d' n' o')
    (hon' : d'.call.On w a) (hno : ¬ Sees A X rf items a i k j l) : X.Com rf n' n := by
  have hpos := H.size.pos
  have W0 := (H.touch h hon (Nat.le_refl a) (by omega)).1 hw
  have hle : keyOf X rf a n' o'.ev ≤ keyOf X rf a n o.ev := by
    refine Nat.le_of_not_lt fun hlt => hno ?_
    intro d1 n1 o1 d2 n2 o2 g1 g2
    obtain ⟨rfl, rfl, rfl⟩ := g1.unique h
    obtain ⟨rfl, rfl, rfl⟩ := g2.unique h'
    exact hlt
  unfold keyOf at hle
  rw [hw] at hle
  cases hwl : o'.ev.isWrite with
  | true =>
    rw [hwl] at hle
    simp only at hle
    have W1 := (H.touch h' hon' (Nat.le_refl a) (by omega)).1 hwl
    refine ⟨o', o, a, .inr (.inl ⟨W1, W0, Nat.lt_of_le_of_ne (by omega) fun he => ?_⟩)⟩
    have := H.ax.inj _ _ _ _ _ _ W1 W0 he
    have e1 := h.pos.1
    rw [← this, h'.pos.1] at e1
    exact hij e1.symm
  | false =>
    have hR := (H.touch h' hon' (Nat.le_refl a) (by omega)).2 hwl
    rw [hwl] at hle
    refine ⟨o', o, a, .inr (.inr ⟨hR, W0, fun s hs => ?_⟩)⟩
    rw [hs] at hle
    simp only at hle
    omega

/-- what a load returns that sees a store -/
theorem CSetup.gets {N : Nat} (hN : ∀ t, N ≤ t → items t = []) {i j k l : Nat} (hij : j ≠ i)
    (hwr : ∀ t d, Item.op d ∈ items t → d.call.On w a → (∃ o, d.call = .load o w a) ∨ t = i ∧ ∃ o v, d.call = .store o w a v)
    (hst : ∀ k v, StoresAt items i w a k v → ∃ n, IsLast items i k .wr n) {o : Ordering} {u v : BitVec w} (hl : LoadsAt items j w a l o u)
    (hk : StoresAt items i w a k v) (hs : Sees A X rf items a i k j l) : ∃ q, k ≤ q ∧ StoresAt items i w a q u := by
  rcases H.seen hN hij hwr hst hl with ⟨q, q1, _, q3⟩ | ⟨_, hno⟩
  · exact ⟨q, q3 k v hk hs, q1⟩
  · exact absurd hs (hno k v hk)
end

theorem OneWriter.csetup {A : Backend W} {P : Call → Prop} {g : Call → Nat} {X : AxShape W} {rf : Node → Nat → Option Node} {N : Nat}
    {items : Nat → List (Item W)} {w a i : Nat} (h : OneWriter A P X N items w a i) (hloc : A.LocalOps P) (hacc : A.AccessesOK g)
    (hX : CohExec X rf) : CSetup A X rf items w a :=
  Backend.csetup hloc hacc hX h.size h.aligned h.code h.ops h.others

theorem OneWriter.written {A : Backend W} {P : Call → Prop} {X : AxShape W} {N : Nat}
    {items : Nat → List (Item W)} {w a i : Nat} (h : OneWriter A P X N items w a i) (hst : A.StoresWrite) :
    ∀ k v, StoresAt items i w a k v → ∃ n, IsLast items i k .wr n :=
  fun _ _ hk => hst.isLast (fun d hd => (h.ops i d hd).1) hk

/-- C62, from the local specification of the operations and their accesses. -/
theorem Backend.fencedStoresSeen {A : Backend W} {P : Call → Prop} {g : Call → Nat} (hloc : A.LocalOps P) (hacc : A.AccessesOK g)
    (hst : A.StoresWrite) : A.FencedStoresSeen P := by
  intro X rf N items w a w' a' i j ax hX hrf hij hx hy k f l k' f' l' v u' v' u o o' h1 h2 hk hf hl h3 h4 hk' hf' hl'
  have cx := hx.csetup hloc hacc hX
  have cy := hy.csetup hloc hacc hX
  obtain ⟨_, n1⟩ := hx.written hst k v hk
  obtain ⟨d1, o1, p1, w1⟩ := cx.isLast_wr n1
  obtain ⟨_, n2⟩ := hy.written hst k' v' hk'
  obtain ⟨d2, o2, p2, w2⟩ := cy.isLast_wr n2
  obtain ⟨d3, g3, c3, _⟩ := id hl
  obtain ⟨_, _, p3⟩ := cy.exists_isPt g3
  obtain ⟨d4, g4, c4, _⟩ := id hl'
  obtain ⟨_, _, p4⟩ := cx.exists_isPt g4
  have on1 : d1.call.On w a := by
    obtain ⟨ds, os, hs, hc⟩ := id hk
    obtain rfl : ds = d1 := by simpa using hs.symm.trans p1.item
    rw [hc]; exact ⟨rfl, rfl⟩
  have on2 : d2.call.On w' a' := by
    obtain ⟨ds, os, hs, hc⟩ := id hk'
    obtain rfl : ds = d2 := by simpa using hs.symm.trans p2.item
    rw [hc]; exact ⟨rfl, rfl⟩
  have r1 := cx.toProg.fenceRank ax h1 h2 hf p1 p3
  have r2 := cx.toProg.fenceRank ax h3 h4 hf' p2 p4
  rcases Nat.lt_or_ge (X.rank _) (X.rank _) with hlt | hge
  · exact .inr (cx.gets hx.threads (Ne.symm hij) hx.writer (hx.written hst) hl' hk
      (cx.seesRank ax hrf p1 w1 on1 p4 (by rw [c4]; exact ⟨rfl, rfl⟩) hlt))
  · exact .inl (cy.gets hy.threads hij hy.writer (hy.written hst) hl hk'
      (cy.seesRank ax hrf p2 w2 on2 p3 (by rw [c3]; exact ⟨rfl, rfl⟩) (by omega)))

/-- C62 without multi-copy atomicity. -/
theorem Backend.fencedStoresSeenNonMCA {A : Backend W} {P : Call → Prop} {g : Call → Nat} (hloc : A.LocalOps P) (hacc : A.AccessesOK g)
    (hst : A.StoresWrite) : A.FencedStoresSeenNonMCA P := by
  intro X rf N items w a w' a' i j hX hij hx hy k f l k' f' l' v u' v' u o o' h1 h2 hk hf hl h3 h4 hk' hf' hl'
  have cx := hx.csetup hloc hacc hX.toCohExec
  have cy := hy.csetup hloc hacc hX.toCohExec
  obtain ⟨_, n1⟩ := hx.written hst k v hk
  obtain ⟨d1, o1, p1, w1⟩ := cx.isLast_wr n1
  obtain ⟨_, n2⟩ := hy.written hst k' v' hk'
  obtain ⟨d2, o2, p2, w2⟩ := cy.isLast_wr n2
  obtain ⟨d3, g3, c3, _⟩ := id hl
  obtain ⟨_, _, p3⟩ := cy.exists_isPt g3
  obtain ⟨d4, g4, c4, _⟩ := id hl'
  obtain ⟨_, _, p4⟩ := cx.exists_isPt g4
  have on1 : d1.call.On w a := by
    obtain ⟨ds, os, hs, hc⟩ := id hk
    obtain rfl : ds = d1 := by simpa using hs.symm.trans p1.item
    rw [hc]; exact ⟨rfl, rfl⟩
  have on2 : d2.call.On w' a' := by
    obtain ⟨ds, os, hs, hc⟩ := id hk'
    obtain rfl : ds = d2 := by simpa using hs.symm.trans p2.item
    rw [hc]; exact ⟨rfl, rfl⟩
  by_cases s1 : Sees A X rf items a i k j l'
  · exact .inr (cx.gets hx.threads (Ne.symm hij) hx.writer (hx.written hst) hl' hk s1)
  by_cases s2 : Sees A X rf items a' j k' i l
  · exact .inl (cy.gets hy.threads hij hy.writer (hy.written hst) hl hk' s2)
  exfalso
  have m1 := cx.unseenCom hij p1 w1 on1 p4 (by rw [c4]; exact ⟨rfl, rfl⟩) s1
  have m2 := cy.unseenCom (Ne.symm hij) p2 w2 on2 p3 (by rw [c3]; exact ⟨rfl, rfl⟩) s2
  have f1 := cx.toProg.fenceFenced h1 h2 hf p1 p3
  have f2 := cx.toProg.fenceFenced h3 h4 hf' p2 p4
  exact hX.propagation _ (.tail (.one ⟨_, .tail (.refl _) m1, f1⟩) ⟨_, .tail (.refl _) m2, f2⟩)

section
variable {A : Backend W} {sc : List Mon} {st sw cas : Nat}

theorem Good.fencedStoresSeen {P : Call → Prop} (h : Good A sc) (hloc : A.LocalOps P) (_ : A.Paired) (hacc : A.AccessesOK (gran st sw cas)) :
    A.FencedStoresSeen P := Backend.fencedStoresSeen hloc hacc h.storesWrite

theorem Good.fencedStoresSeenNonMCA {P : Call → Prop} (h : Good A sc) (hloc : A.LocalOps P) (_ : A.Paired) (hacc : A.AccessesOK (gran st sw cas))
    (_ : A.BarriersOnly) (_ : A.imp.ww = false) : A.FencedStoresSeenNonMCA P := Backend.fencedStoresSeenNonMCA hloc hacc h.storesWrite

theorem Good.fencedStoresSeenWeakened (h : Good A sc) (hpair : A.Paired) (hacc : A.AccessesOK (gran st sw cas)) :
    A.weakened.FencedStoresSeen fun _ => True :=
  h.weakened.fencedStoresSeen h.localOps_weakened hpair.weakened (Backend.weakened_accesses hacc)

theorem Good.fencedStoresSeenNonMCAWeakened (h : Good A sc) (hpair : A.Paired) (hacc : A.AccessesOK (gran st sw cas))
    (hb : A.BarriersOnly) (himp : A.imp.ww = false) : A.weakened.FencedStoresSeenNonMCA fun _ => True :=
  h.weakened.fencedStoresSeenNonMCA h.localOps_weakened hpair.weakened (Backend.weakened_accesses hacc) hb.weakened himp
end

end Verif
