/- Proof of C61. -/
import Verif.Weak.Seqlock
import Verif.Weak.MixedProof
import Verif.Weak.LatestFenceProof
import Verif.Weak.MixedFence

namespace Verif
variable {W : Nat}

theorem exists_last {Q : Nat → Prop} {N : Nat} (hN : ∀ n, Q n → n < N) (h : ∃ n, Q n) : ∃ n, Q n ∧ ∀ m, n < m → ¬ Q m := by
  induction N with
  | zero => obtain ⟨n, hn⟩ := h; exact absurd (hN n hn) (Nat.not_lt_zero n)
  | succ N ih =>
    by_cases hQ : Q N
    · exact ⟨N, hQ, fun m hm hq => by have := hN m hq; omega⟩
    · refine ih fun n hn => ?_
      rcases Nat.lt_or_eq_of_le (Nat.le_of_lt_succ (hN n hn)) with h | rfl
      · exact h
      · exact absurd hn hQ

/-- the value after a sequence of loads and stores of one object -/
theorem legal_last {e : Endian} {w a : Nat} (hw : w % 8 = 0) {S : List (Nat × Nat × Done W)} {m0 M : Mem}
    (hS : ∀ z ∈ S, (∃ o, z.2.2.call = .load o w a) ∨ ∃ o v, z.2.2.call = .store o w a v)
    (h : Legal e m0 (S.map fun e => (e.1, e.2.2.call, e.2.2.ret)) M) :
    (∃ P T z o v, S = P ++ z :: T ∧ z.2.2.call = .store o w a v ∧ (∀ y ∈ T, ∀ o v, y.2.2.call ≠ .store o w a v) ∧ load e M a w = v) ∨
    ((∀ y ∈ S, ∀ o v, y.2.2.call ≠ .store o w a v) ∧ load e M a w = load e m0 a w) := by
  induction S generalizing m0 with
  | nil => cases (show m0 = M from h); exact .inr ⟨fun _ h => (List.not_mem_nil h).elim, rfl⟩
  | cons z S ih =>
    obtain ⟨m1, hs, hl⟩ := h
    rcases ih (fun y hy => hS y (List.mem_cons_of_mem _ hy)) hl with ⟨P, T, y, o, v, h1, h2, h3, h4⟩ | ⟨h1, h2⟩
    · exact .inl ⟨z :: P, T, y, o, v, by rw [h1]; rfl, h2, h3, h4⟩
    · rcases hS z List.mem_cons_self with ⟨o, hc⟩ | ⟨o, v, hc⟩
      · right
        simp only [hc] at hs
        obtain ⟨x, ⟨_, rfl⟩, _⟩ := hs
        refine ⟨fun y hy o v => ?_, h2⟩
        rcases List.mem_cons.1 hy with rfl | hy
        · rw [hc]; exact fun h => nomatch h
        · exact h1 y hy o v
      · left
        simp only [hc] at hs
        refine ⟨[], S, z, o, v, rfl, hc, h1, ?_⟩
        have : m1 = store e m0 a w v := by
          have := hs
          simp only [Call.Sem, StoreSpec] at this
          exact this.1
        rw [h2, this, load_store hw]

section
variable {A : Backend W} {X : AxShape W} {rf : Node → Nat → Option Node} {items : Nat → List (Item W)}
  {w a : Nat} (H : CSetup A X rf items w a)
include H

/-- An operation of thread `t` on the object that writes comes before another one. -/
def Sees (A : Backend W) (X : AxShape W) (rf : Node → Nat → Option Node) (items : Nat → List (Item W)) (a i k j l : Nat) : Prop :=
  ∀ d n o d' n' o', IsPt A.e items i k d n o → IsPt A.e items j l d' n' o' → keyOf X rf a n o.ev < keyOf X rf a n' o'.ev

/-- what a load returns -/
theorem CSetup.seen {N : Nat} (hN : ∀ t, N ≤ t → items t = []) {i j l : Nat} (hij : j ≠ i)
    (hwr : ∀ t d, Item.op d ∈ items t → d.call.On w a → (∃ o, d.call = .load o w a) ∨ t = i ∧ ∃ o v, d.call = .store o w a v)
    (hst : ∀ k v, StoresAt items i w a k v → ∃ n, IsLast items i k .wr n) {o : Ordering} {u : BitVec w} (hl : LoadsAt items j w a l o u) :
    (∃ k, StoresAt items i w a k u ∧ Sees A X rf items a i k j l ∧ ∀ k' v', StoresAt items i w a k' v' → Sees A X rf items a i k' j l → k' ≤ k) ∨
    (u = load A.e X.m0 a w ∧ ∀ k' v', StoresAt items i w a k' v' → ¬ Sees A X rf items a i k' j l) := by
  obtain ⟨κ, S, M, _, hκ, hsort, hmem, hthread, hleg, _⟩ := H.ordered hN
  have hpos := H.size.pos
  obtain ⟨d, hd, hc, hr⟩ := hl
  have hon : d.call.On w a := by rw [hc]; exact ⟨rfl, rfl⟩
  have hin := (hmem j l d).2 ⟨hd, hon⟩
  obtain ⟨S1, S2, hS⟩ := List.append_of_mem hin
  have hthr : S.Pairwise fun x y => x.1 = y.1 → x.2.1 < y.2.1 := by
    refine pairwise_threads fun t => ?_
    rw [hthread]
    exact List.pairwise_map.2 (ents_sorted.imp fun h => h)
  have hleg' := hleg
  rw [hS, List.map_append, legal_append] at hleg'
  obtain ⟨M1, hleg1, M2, hsem, _⟩ := hleg'
  have hval : load A.e M1 a w = u := by
    simp only [hc, hr] at hsem
    obtain ⟨x, ⟨hx, _⟩, hx'⟩ := hsem
    simp only [Ret.bits.injEq, heq_eq_eq, true_and] at hx'
    rw [hx', ← hx]
  obtain ⟨nl, ol, hpl⟩ := H.exists_isPt hd
  -- seen is to be in the first part
  have iff : ∀ k v ds, (items i)[k]? = some (.op ds) → (∃ os, ds.call = .store os w a v) → (Sees A X rf items a i k j l ↔ (i, k, ds) ∈ S1) := by
    intro k v ds hk ⟨os, hcs⟩
    obtain ⟨n0, hn0⟩ := hst k v ⟨ds, os, hk, hcs⟩
    obtain ⟨ds', o0, hp0, hw0⟩ := H.isLast_wr hn0
    obtain rfl : ds = ds' := by simpa using hk.symm.trans hp0.item
    have ons : ds.call.On w a := by rw [hcs]; exact ⟨rfl, rfl⟩
    have W0 := (H.touch hp0 ons (Nat.le_refl a) (by omega)).1 hw0
    have hk0 : keyOf X rf a n0 o0.ev = 2 * X.rank n0 + 1 := by unfold keyOf; rw [hw0]
    have hne : keyOf X rf a n0 o0.ev ≠ keyOf X rf a nl ol.ev := by
      rw [hk0]
      unfold keyOf
      cases hwl : ol.ev.isWrite with
      | true =>
        intro hc'
        have Wl := (H.touch hpl hon (Nat.le_refl a) (by omega)).1 hwl
        have := H.ax.inj _ _ _ _ _ _ W0 Wl (by simp only at hc'; omega)
        have e1 := hp0.pos.1
        rw [this, hpl.pos.1] at e1
        exact hij e1
      | false =>
        cases rf nl a with
        | none => simp only; omega
        | some s => simp only; omega
    constructor
    · intro hs
      have hlt := hs _ _ _ _ _ _ hp0 hpl
      have hm := (hmem i k ds).2 ⟨hk, ons⟩
      rw [hS] at hm hsort
      rcases List.mem_append.1 hm with hm | hm
      · exact hm
      · exfalso
        rcases List.mem_cons.1 hm with he | hm
        · simp only [Prod.mk.injEq] at he
          exact hij he.1.symm
        · have := (List.pairwise_cons.1 (List.pairwise_append.1 hsort).2.1).1 _ hm
          rw [hκ _ _ _ _ _ hp0, hκ _ _ _ _ _ hpl] at this
          omega
    · intro hm d1 n1 o1 d2 n2 o2 h1 h2
      obtain ⟨_, rfl, rfl⟩ := h1.unique hp0
      obtain ⟨_, rfl, rfl⟩ := h2.unique hpl
      rw [hS] at hsort
      have := (List.pairwise_append.1 hsort).2.2 _ hm _ List.mem_cons_self
      rw [hκ _ _ _ _ _ hp0, hκ _ _ _ _ _ hpl] at this
      omega
  have sub : ∀ z ∈ S1, (items z.1)[z.2.1]? = some (.op z.2.2) ∧ z.2.2.call.On w a := fun z hz =>
    (hmem z.1 z.2.1 z.2.2).1 (by rw [hS]; exact List.mem_append_left _ hz)
  have cases' := legal_last H.size.mod8 (fun z hz => by
    obtain ⟨g1, g2⟩ := sub z hz
    rcases hwr z.1 z.2.2 (List.mem_of_getElem? g1) g2 with h | h
    · exact .inl h
    · exact .inr h.2) hleg1
  rcases cases' with ⟨P, T, z, os, v, h1, h2, h3, h4⟩ | ⟨h1, h2⟩
  · left
    have hz := sub z (by rw [h1]; simp)
    have hzi : z.1 = i := by
      rcases hwr z.1 z.2.2 (List.mem_of_getElem? hz.1) hz.2 with ⟨o', h⟩ | h
      · rw [h] at h2; cases h2
      · exact h.1
    obtain ⟨tz, kz, dz⟩ := z
    simp only at hzi hz h2
    subst hzi
    have huv : v = u := h4.symm.trans hval
    subst huv
    refine ⟨kz, ⟨dz, os, hz.1, h2⟩, (iff kz v dz hz.1 ⟨os, h2⟩).2 (by rw [h1]; simp), ?_⟩
    rintro k' v' ⟨d', o', g1, g2⟩ hs
    have hm := (iff k' v' d' g1 ⟨o', g2⟩).1 hs
    rw [h1] at hm
    rcases List.mem_append.1 hm with hm | hm
    · rw [hS, h1] at hthr
      have := (List.pairwise_append.1 (List.pairwise_append.1 hthr).1).2.2 _ hm _ List.mem_cons_self rfl
      exact Nat.le_of_lt this
    · rcases List.mem_cons.1 hm with he | hm
      · simp only [Prod.mk.injEq] at he
        omega
      · exact absurd g2 (h3 _ hm o' v')
  · right
    refine ⟨hval.symm.trans h2, ?_⟩
    rintro k' v' ⟨d', o', g1, g2⟩ hs
    exact h1 _ ((iff k' v' d' g1 ⟨o', g2⟩).1 hs) o' v' g2

/-- a load of an object has a last read, which reads what the load sees or something newer -/
theorem CSetup.readOf (hpair : A.Paired) {i k j l : Nat} {n0 : Node} {o0 : Own W} {d0 d : Done W} (h0 : IsPt A.e items i k d0 n0 o0)
    (hw0 : o0.ev.isWrite = true) (hon0 : d0.call.On w a) (hd : (items j)[l]? = some (.op d)) (hok : d.OK A) (hon : d.call.On w a)
    (hno : ∀ x, ¬ d.call.Overwrites x) (hs : Sees A X rf items a i k j l) :
    ∃ r lr s, IsLast items j l .rd r ∧ X.Rd r lr a ∧ rf r a = some s ∧ X.rank n0 ≤ X.rank s := by
  have hpos := H.size.pos
  obtain ⟨n, o, hp⟩ := H.exists_isPt hd
  have hlt := hs _ _ _ _ _ _ h0 hp
  have W0 := (H.touch h0 hon0 (Nat.le_refl a) (by omega)).1 hw0
  obtain ⟨p, hpt, hn⟩ := hp.pt
  cases hwr : o.ev.isWrite with
  | true =>
    unfold keyOf at hlt
    rw [hw0, hwr] at hlt
    simp only at hlt
    have hon' := hon
    obtain ⟨hw', ha'⟩ := hon'
    have hrd : o.reads a := hpt.reads_in (hno a) (by rw [hw']; exact H.size.mod8) (by rw [ha']; exact Nat.le_refl a) (by rw [hw', ha']; omega)
    obtain ⟨q0, lq, hq, hqr, _⟩ := H.follows hp (Nat.le_refl a) (by omega) hrd hwr
    obtain ⟨q, ⟨lq, hq, hqr⟩, hmax⟩ := exists_last (Q := fun q => ∃ lq, (owns d.tr)[q]? = some lq ∧ lq.ev.has .rd) (N := (owns d.tr).length)
      (fun q ⟨lq, h, _⟩ => by
        rcases Nat.lt_or_ge q (owns d.tr).length with h' | h'
        · exact h'
        · rw [List.getElem?_eq_none h'] at h; cases h) ⟨q0, lq, hq, hqr⟩
    have hr : IsLast items j l .rd ⟨j, off (items j) l + q, .rd⟩ := by
      refine ⟨d, q, hd, ⟨⟨lq.ev, by rw [List.getElem?_map, hq]; rfl, hqr⟩, ?_⟩, rfl⟩
      rintro q' hq' ⟨ev, h1, h2⟩
      rw [List.getElem?_map] at h1
      obtain ⟨lq', h3, rfl⟩ := Option.map_eq_some_iff.1 h1
      exact hmax q' hq' ⟨lq', h3, h2⟩
    obtain ⟨lr, hat, hnat, hsame, _, f2⟩ := H.lastRead hpair hp hok hon hno hwr hr
    obtain ⟨s, hs, hle⟩ := f2 n0 o0 trivial W0 (by omega)
    exact ⟨_, lr, s, hr, ⟨hat, rfl, hnat, (hsame a (Nat.le_refl a) (by omega)).1⟩, hs, hle⟩
  | false =>
    have hR := (H.touch hp hon (Nat.le_refl a) (by omega)).2 hwr
    unfold keyOf at hlt
    rw [hw0, hwr] at hlt
    simp only at hlt
    have hl := hpt.last
    rw [ownEvs_erase] at hl
    have hk : ptKind o.ev = .rd := by simp [ptKind, hwr]
    rw [hk] at hl hn
    cases hrf : rf n a with
    | none => rw [hrf] at hlt; simp only at hlt; omega
    | some s =>
      rw [hrf] at hlt
      simp only at hlt
      exact ⟨n, o, s, ⟨d, p, hd, hl, hn⟩, hR, hrf, by omega⟩

/-- what is seen synchronizes -/
theorem CSetup.seesSync (hpair : A.Paired) (hrf : X.ReadsFrom rf) {i k j l f g : Nat} (hij : j ≠ i) {v : BitVec w}
    (hwr : ∀ t d, Item.op d ∈ items t → d.call.On w a → (∃ o, d.call = .load o w a) ∨ t = i ∧ ∃ o v, d.call = .store o w a v)
    (hst : ∃ n, IsLast items i k .wr n) (hk : StoresAt items i w a k v) {d : Done W} (hd : (items j)[l]? = some (.op d)) (hok : d.OK A)
    {o : Ordering} (hc : d.call = .load o w a) (hs : Sees A X rf items a i k j l)
    (hrel : Publishes A.imp items i f k) (hacq : Receives A.imp items j l g) : FSync A.imp X items i f j g := by
  have hpos := H.size.pos
  obtain ⟨n0, hn0⟩ := hst
  obtain ⟨ds, os, hks, hcs⟩ := hk
  obtain ⟨d0, o0, h0, hw0⟩ := H.isLast_wr hn0
  obtain rfl : ds = d0 := by simpa using hks.symm.trans h0.item
  have hon0 : ds.call.On w a := by rw [hcs]; exact ⟨rfl, rfl⟩
  have hon : d.call.On w a := by rw [hc]; exact ⟨rfl, rfl⟩
  have W0 := (H.touch h0 hon0 (Nat.le_refl a) (by omega)).1 hw0
  obtain ⟨r, lr, s, hr, hR, hsrc, hle⟩ := H.readOf hpair h0 hw0 hon0 hd hok hon (by rw [hc]; exact fun _ h => h) hs
  have hfrom := (hrf r lr a s hR).1 hsrc
  refine .direct (w0 := n0) (w := s) (r := r) (x := a) (v := o0.m' a) (Ne.symm hij) hrel hn0 ⟨W0.2.1, o0, W0.1, W0.2.2.2, rfl⟩ hacq hr hfrom hle ?_
  by_cases hth : s.thread = j
  · right
    obtain ⟨v', hv⟩ := hfrom.2.1
    obtain ⟨k', d', os', hpt, hws, _⟩ := H.write hv (Nat.le_refl a) (by omega)
    rw [hth] at hpt
    refine ⟨k', d', hpt.item, fun hov => ?_, ?_⟩
    · have hm := List.mem_of_getElem? hpt.item
      have hon' : d'.call.On w a := by
        rcases (H.calls j d' hm).2.2 with h | h
        · exact h
        · exfalso
          unfold Call.Off at h
          generalize d'.call = c at hov h
          cases c with
          | store o w' a' v' =>
            obtain ⟨z1, z2⟩ := hov
            simp only [Call.width, Call.addr] at h
            omega
          | _ => exact hov
      rcases hwr j d' hm hon' with ⟨o', h⟩ | h
      · rw [h] at hov; exact hov
      · exact hij h.1
    · obtain ⟨p, hp, hnp⟩ := hpt.pt
      have hl := hp.last
      rw [ownEvs_erase] at hl
      have hk : ptKind os'.ev = .wr := by simp [ptKind, hws.1]
      rw [hk] at hl
      exact ⟨d', p, hpt.item, hl, by rw [hnp, hk]⟩
  · exact .inl hth

theorem CSetup.seesSyncNonMCA (hpair : A.Paired) {i k j l f g : Nat} (hij : j ≠ i) {v : BitVec w}
    (hsole : ∀ t d o x, Item.op d ∈ items t → o ∈ owns d.tr → a ≤ x → x < a + w / 8 → o.writes x → t = i)
    (hst : ∃ n, IsLast items i k .wr n) (hk : StoresAt items i w a k v) {d : Done W} (hd : (items j)[l]? = some (.op d)) (hok : d.OK A)
    {o : Ordering} (hc : d.call = .load o w a) (hs : Sees A X rf items a i k j l) (hfk : f ≤ k)
    (hrel : NPublishes items i f) (hacq : NReceives items j l g) : NFSync X rf items i f j g := by
  have hpos := H.size.pos
  obtain ⟨n0, hn0⟩ := hst
  obtain ⟨ds, os, hks, hcs⟩ := hk
  obtain ⟨d0, o0, h0, hw0⟩ := H.isLast_wr hn0
  obtain rfl : ds = d0 := by simpa using hks.symm.trans h0.item
  have hon0 : ds.call.On w a := by rw [hcs]; exact ⟨rfl, rfl⟩
  have hon : d.call.On w a := by rw [hc]; exact ⟨rfl, rfl⟩
  have W0 := (H.touch h0 hon0 (Nat.le_refl a) (by omega)).1 hw0
  obtain ⟨r, lr, s, hr, hR, hsrc, hle⟩ := H.readOf hpair h0 hw0 hon0 hd hok hon (by rw [hc]; exact fun _ h => h) hs
  have hv := (H.ax.value r lr a hR.1 hR.2.1 hR.2.2.2).1 s hsrc
  obtain ⟨k', d', os', hpt, hws, _⟩ := H.write hv (Nat.le_refl a) (by omega)
  obtain ⟨p, hp, hnp⟩ := hpt.pt
  have hth := hsole s.thread d' os' a (List.mem_of_getElem? hpt.item) (List.mem_of_getElem? hp.get) (Nat.le_refl a) (by omega) hws
  have hl := hp.last
  rw [ownEvs_erase] at hl
  have hk : ptKind os'.ev = .wr := by simp [ptKind, hws.1]
  rw [hk] at hl
  have lw : IsLast items i k' .wr s := ⟨d', p, hth ▸ hpt.item, hl, by rw [hnp, hk, hth]⟩
  have hkk : k ≤ k' := by
    refine Nat.le_of_not_lt fun hlt => ?_
    rw [hth] at hpt
    have hpos' := (hpt.eq_of_pos h0).2 hlt
    have := H.ax.coWW s n0 os' o0 a (by rw [hth, h0.pos.1]) hpos' (H.wr hpt hws) W0
    omega
  exact .direct hrel (.own (Nat.le_trans hfk hkk) lw hv) hacq hr hR.1 hR.2.2.2 hsrc (by rw [hth]; exact Ne.symm hij)

/-- what precedes is seen -/
theorem CSetup.seesOf {i k j l : Nat} (hij : j ≠ i) {v u : BitVec w} {o : Ordering} (hst : ∃ n, IsLast items i k .wr n)
    (hk : StoresAt items i w a k v) (hl : LoadsAt items j w a l o u)
    (hp : ∀ d n o d' n' o', IsPt A.e items i k d n o → IsPt A.e items j l d' n' o' → X.Precedes rf n n') : Sees A X rf items a i k j l := by
  have hpos := H.size.pos
  obtain ⟨n0, hn0⟩ := hst
  obtain ⟨ds, os, hks, hcs⟩ := hk
  obtain ⟨d, hd, hc, _⟩ := hl
  obtain ⟨d0, o0, h0, hw0⟩ := H.isLast_wr hn0
  obtain rfl : ds = d0 := by simpa using hks.symm.trans h0.item
  have hon0 : ds.call.On w a := by rw [hcs]; exact ⟨rfl, rfl⟩
  have hon : d.call.On w a := by rw [hc]; exact ⟨rfl, rfl⟩
  have W0 := (H.touch h0 hon0 (Nat.le_refl a) (by omega)).1 hw0
  intro d1 n1 o1 d2 n2 o2 h1 h2
  obtain ⟨rfl, rfl, rfl⟩ := h1.unique h0
  obtain rfl : d = d2 := by simpa using hd.symm.trans h2.item
  have hle := H.key_le h1 h2 hon0 hon (hp _ _ _ _ _ _ h1 h2)
  refine Nat.lt_of_le_of_ne hle ?_
  unfold keyOf
  rw [hw0]
  cases hwl : o2.ev.isWrite with
  | true =>
    intro hc'
    have Wl := (H.touch h2 hon (Nat.le_refl a) (by omega)).1 hwl
    have := H.ax.inj _ _ _ _ _ _ W0 Wl (by simp only at hc'; omega)
    have e1 := h0.pos.1
    rw [this, h2.pos.1] at e1
    exact hij e1
  | false =>
    cases rf n2 a with
    | none => simp only; omega
    | some s => simp only; omega
end

section
variable {A : Backend W} {P : Call → Prop} {X : AxShape W} {rf : Node → Nat → Option Node} {N : Nat} {items : Nat → List (Item W)}
  {wv av : Nat} {D : Nat → Nat → Prop} {stable : BitVec wv → Prop} {i : Nat} {rel : Nat → Prop}

theorem Backend.StoresWrite.isLast (h : A.StoresWrite) {t k w a : Nat} {v : BitVec w} (hok : ∀ d, Item.op d ∈ items t → d.OK A)
    (hk : StoresAt items t w a k v) : ∃ n, IsLast items t k .wr n := by
  obtain ⟨d, o, hd, hc⟩ := hk
  have hok := hok d (List.mem_of_getElem? hd)
  obtain ⟨call, B, tr, rs⟩ := d
  obtain ⟨hB, c0, c, h1, _, h3, h4, h5, h6⟩ := hok
  subst hc
  obtain ⟨n, hn⟩ := h _ _ _ _ _ hB _ _ ⟨c0, c, h1, h3, h4.run, h5, h6⟩
  rw [ownEvs_erase] at hn
  exact ⟨_, _, n, hd, hn, rfl⟩

/-- The heart of it, from what synchronization (`R`) means. -/
theorem SeqlockRun.snapshots (hL : SeqlockRun A P X N items wv av D stable i rel) (hst : A.StoresWrite)
    (cs : ∀ w a, (w = wv ∧ a = av ∨ D w a) → CSetup A X rf items w a) {R : (i f j g : Nat) → Prop} {j l g l' : Nat}
    (hR : ∀ w a, (w = wv ∧ a = av ∨ D w a) → ∀ f k m n v o u, StoresAt items i w a k v → LoadsAt items j w a m o u →
      Sees A X rf items a i k j m →
      (f = k ∧ (∃ d, (items i)[k]? = some (.op d) ∧ d.Releases) ∨ f ≤ k ∧ f ≠ k ∧ rel f) →
      (n = m ∧ (∃ d, (items j)[m]? = some (.op d) ∧ d.Acquires) ∨ n = g ∧ m < g) → R i f j n)
    (hS : ∀ f n, R i f j n → ∀ p q kd kd' o o', X.At ⟨i, p, kd⟩ o → p < off (items i) f → X.At ⟨j, q, kd'⟩ o' → off (items j) (n + 1) ≤ q →
      X.Precedes rf ⟨i, p, kd⟩ ⟨j, q, kd'⟩) {v : BitVec wv} {o o' : Ordering} (hij : j ≠ i) (hlg : l < g) (hgl : g < l')
    (hacq : o.acquires = true) (hsv : stable v) (h1 : LoadsAt items j wv av l o v) (h2 : LoadsAt items j wv av l' o' v) :
    Snapshots A.e X.m0 items wv av D i j l g v := by
  have Hv := cs wv av (.inl ⟨rfl, rfl⟩)
  have written : ∀ w a k (v : BitVec w), StoresAt items i w a k v → ∃ n, IsLast items i k .wr n := fun w a k v h =>
    hst.isLast (fun d hd => (hL.ops i d hd).1) h
  have sees : ∀ w a, (w = wv ∧ a = av ∨ D w a) → ∀ f n k m v o u, R i f j n → k < f → n < m → StoresAt items i w a k v → LoadsAt items j w a m o u →
      Sees A X rf items a i k j m := by
    intro w a hD f n k m v o u hr hk hm hks hls
    refine (cs w a hD).seesOf hij (written w a k v hks) hks hls fun d n' o d' n'' o' p1 p2 => ?_
    have e1 := p1.pos
    have e2 := p2.pos
    have a1 := Hv.isPt_at p1
    have a2 := Hv.isPt_at p2
    obtain ⟨t1, q1, k1⟩ := n'
    obtain ⟨t2, q2, k2⟩ := n''
    simp only at e1 e2
    obtain ⟨rfl, _, e1⟩ := e1
    obtain ⟨rfl, e2, _⟩ := e2
    have m1 := off_mono (items t1) (show k + 1 ≤ f from hk)
    have m2 := off_mono (items t2) (show n + 1 ≤ m from hm)
    exact hS f n hr _ _ _ _ _ _ a1 (by omega) a2 (by omega)
  -- data stored after what the second load of the version sees is not seen by the reader
  have late : ∀ w a k m u o v', D w a → StoresAt items i w a k v' → l < m → m < g → LoadsAt items j w a m o u → Sees A X rf items a i k j m →
      ∃ mk vk, mk < k ∧ StoresAt items i wv av mk vk ∧ ¬ stable vk ∧ Sees A X rf items av i mk j l' ∧
        ∀ k' v'', mk < k' → k' < k → ¬ StoresAt items i wv av k' v'' := by
    intro w a k m u o v' hD hk _ hm hl hs
    obtain ⟨mk, f, vk, g1, g2, g3, g4, g5, g6⟩ := hL.marked w a k v' hD hk
    have hr := hR w a (.inr hD) f k m g v' o u hk hl hs (.inr ⟨by omega, by omega, g5⟩) (.inr ⟨rfl, hm⟩)
    exact ⟨mk, vk, by omega, g3, g4, sees wv av (.inl ⟨rfl, rfl⟩) f g mk l' vk o' v hr g1 hgl g3 h2, g6⟩
  obtain ⟨dl, hdl, hcl, hrl⟩ := h1
  have hacqd : dl.Acquires := by unfold Done.Acquires; rw [hcl]; exact hacq
  have writer : ∀ w a, (w = wv ∧ a = av ∨ D w a) → ∀ t d, Item.op d ∈ items t → d.call.On w a →
      (∃ o, d.call = .load o w a) ∨ t = i ∧ ∃ o v, d.call = .store o w a v := fun w a hD t d h h' => hL.writer t d w a h hD h'
  have seen2 := Hv.seen hL.threads hij (writer _ _ (.inl ⟨rfl, rfl⟩)) (written _ _) h2
  have seen1 := Hv.seen hL.threads hij (writer _ _ (.inl ⟨rfl, rfl⟩)) (written _ _) ⟨dl, hdl, hcl, hrl⟩
  rcases seen1 with ⟨K, k1, k2, _⟩ | ⟨hinit, _⟩
  · -- stored by item `K`
    rcases seen2 with ⟨K', k1', _, k3'⟩ | ⟨hinit', _⟩
    rotate_left
    · exact absurd hinit' (hL.initial K v k1)
    obtain rfl : K = K' := hL.fresh K K' v k1 k1'
    obtain ⟨dK, oK, hdK, hcK⟩ := k1
    have hrelK : dK.Releases := by
      unfold Done.Releases; rw [hcK]; exact hL.releases dK oK v (List.mem_of_getElem? hdK) hcK hsv
    have hsync := hR wv av (.inl ⟨rfl, rfl⟩) K K l l v o v ⟨dK, oK, hdK, hcK⟩ ⟨dl, hdl, hcl, hrl⟩ k2 (.inl ⟨rfl, dK, hdK, hrelK⟩)
      (.inl ⟨rfl, dl, hdl, hacqd⟩)
    refine ⟨K + 1, .inl ⟨K, Nat.lt_succ_self K, ⟨dK, oK, hdK, hcK⟩, fun k' v' _ _ => by omega⟩, ?_⟩
    intro w a m om u hD hlm hmg hm
    -- data is not stored where the version is
    have notK : ∀ k v', StoresAt items i w a k v' → k ≠ K := by
      rintro k v' ⟨d', o', g1, g2⟩ rfl
      obtain rfl : d' = dK := by simpa using g1.symm.trans hdK
      rw [hcK] at g2
      simp only [Call.store.injEq] at g2
      exact hL.apart w a hD ⟨g2.2.1.symm, g2.2.2.1.symm⟩
    have early : ∀ k v', k < K → StoresAt items i w a k v' → Sees A X rf items a i k j m := fun k v' hk hks =>
      sees w a (.inr hD) K l k m v' om u hsync hk hlm hks hm
    rcases (cs w a (.inr hD)).seen hL.threads hij (writer _ _ (.inr hD)) (written _ _) hm with
      ⟨q, q1, q2, q3⟩ | ⟨hi, hn⟩
    · have hqK : q < K := by
        refine Nat.lt_of_not_le fun hge => ?_
        have hgt : K < q := Nat.lt_of_le_of_ne hge (Ne.symm (notK q u q1))
        obtain ⟨mk, vk, g1, g2, g3, g4, g5⟩ := late w a q m u om u hD q1 hlm hmg hm q2
        have hle := k3' mk vk g2 g4
        rcases Nat.lt_or_eq_of_le hle with h | h
        · exact g5 K v h hgt ⟨dK, oK, hdK, hcK⟩
        · subst h
          obtain ⟨d', o', e1, e2⟩ := g2
          obtain rfl : d' = dK := by simpa using e1.symm.trans hdK
          rw [hcK] at e2
          simp only [Call.store.injEq, heq_eq_eq, true_and] at e2
          exact g3 (e2.2 ▸ hsv)
      refine .inl ⟨q, by omega, q1, fun k' v' hqk hk hks => ?_⟩
      have hk' : k' < K := by have := notK k' v' hks; omega
      have := q3 k' v' hks (early k' v' hk' hks)
      omega
    · refine .inr ⟨hi, fun k' v' hk hks => ?_⟩
      have hk' : k' < K := by have := notK k' v' hks; omega
      exact hn k' v' hks (early k' v' hk' hks)
  · -- the initial version
    rcases seen2 with ⟨K', k1', _, _⟩ | ⟨_, hno⟩
    · exact absurd hinit (hL.initial K' v k1')
    refine ⟨0, .inr ⟨hinit, fun _ _ h => absurd h (Nat.not_lt_zero _)⟩, ?_⟩
    intro w a m om u hD hlm hmg hm
    rcases (cs w a (.inr hD)).seen hL.threads hij (writer _ _ (.inr hD)) (written _ _) hm with
      ⟨q, q1, q2, _⟩ | ⟨hi, _⟩
    · obtain ⟨mk, vk, _, g2, _, g4, _⟩ := late w a q m u om u hD q1 hlm hmg hm q2
      exact absurd g4 (hno mk vk g2)
    · exact .inr ⟨hi, fun _ _ h => absurd h (Nat.not_lt_zero _)⟩
end

theorem SeqlockRun.csetup {A : Backend W} {P : Call → Prop} {g : Call → Nat} {X : AxShape W} {rf : Node → Nat → Option Node} {N : Nat}
    {items : Nat → List (Item W)} {wv av : Nat} {D : Nat → Nat → Prop} {stable : BitVec wv → Prop} {i : Nat} {rel : Nat → Prop}
    (hL : SeqlockRun A P X N items wv av D stable i rel) (hloc : A.LocalOps P) (hacc : A.AccessesOK g) (hX : CohExec X rf) :
    ∀ w a, (w = wv ∧ a = av ∨ D w a) → CSetup A X rf items w a := by
  rintro w a (⟨rfl, rfl⟩ | hD)
  · exact Backend.csetup hloc hacc hX hL.size hL.aligned hL.code
      (fun t d h => ⟨(hL.ops t d h).1, (hL.ops t d h).2.1, (hL.ops t d h).2.2.1⟩)
      fun t o x h h1 h2 h3 => (hL.others t o x h h3).1 ⟨h1, h2⟩
  · exact Backend.csetup hloc hacc hX (hL.data w a hD).1 (hL.data w a hD).2 hL.code
      (fun t d h => ⟨(hL.ops t d h).1, (hL.ops t d h).2.1, (hL.ops t d h).2.2.2 w a hD⟩)
      fun t o x h h1 h2 h3 => (hL.others t o x h h3).2 w a hD ⟨h1, h2⟩

/-- C61, from the local specification of the operations, their orderings, accesses and the shape of their code. -/
theorem Backend.seqlockReads {A : Backend W} {P : Call → Prop} {g : Call → Nat} (hloc : A.LocalOps P) (hord : A.OrderingsOK)
    (hpair : A.Paired) (hacc : A.AccessesOK g) (hst : A.StoresWrite) : A.SeqlockReads P := by
  intro X rf N items wv av D stable i ax hfwd hX hrf hL j l g l' v o o' hij hlg hgl hacq hsv h1 hg h2
  have cs := hL.csetup hloc hacc hX
  have hsync := Backend.fencesSynchronize hloc hord hpair X items ax hfwd hL.code fun t d h =>
    ⟨(hL.ops t d h).1, (hL.ops t d h).2.1, (hL.ops t d h).2.2.1.1⟩
  refine hL.snapshots hst cs (R := FSync A.imp X items) (g := g) (l' := l') ?_ ?_ hij hlg hgl hacq hsv h1 h2
  · intro w a hD f k m n v o u hk ⟨d, hd, hc, _⟩ hs hrel hacq
    refine (cs w a hD).seesSync hpair hrf hij (fun t d h h' => hL.writer t d w a h hD h') (hst.isLast (fun d hd => (hL.ops i d hd).1) hk) hk hd
      (hL.ops j d (List.mem_of_getElem? hd)).1 hc hs ?_ ?_
    · rcases hrel with h | ⟨h, _, h'⟩
      · exact .inl h
      · exact .inr ⟨h, h'⟩
    · rcases hacq with h | ⟨rfl, h⟩
      · exact .inl h
      · exact .inr ⟨Nat.le_of_lt h, hg, d, hd, by rw [hc]; trivial⟩
  · intro f n h p q kd kd' o o' hp hpf hq hqn
    exact AxShape.precedes_of_rank (A := A) ax hrf hp hpf fun p' kd1 o1 g1 g2 => (hsync i f j n h p' q kd1 kd' o1 o' g1 g2 hq hqn).1

/-- C61 without multi-copy atomicity. -/
theorem Backend.seqlockReadsNonMCA {A : Backend W} {P : Call → Prop} {g : Call → Nat} (hloc : A.LocalOps P) (hord : A.OrderingsOK)
    (hpair : A.Paired) (hacc : A.AccessesOK g) (hb : A.BarriersOnly) (himp : A.imp.ww = false) (hst : A.StoresWrite) :
    A.SeqlockReadsNonMCA P := by
  intro X rf N items wv av D stable i hX hL hsole j l g l' v o o' hij hlg hgl hacq hsv h1 hg h2
  have cs := hL.csetup hloc hacc hX.toCohExec
  have hsync := Backend.fencesSyncOnNonMCA hloc hord hpair hacc hb himp X rf items hX hL.code fun t d h =>
    ⟨(hL.ops t d h).1, (hL.ops t d h).2.1, (hL.ops t d h).2.2.1.1, (hL.ops t d h).2.2.1.2.1⟩
  refine hL.snapshots hst cs (R := NFSync X rf items) (g := g) (l' := l') ?_ ?_ hij hlg hgl hacq hsv h1 h2
  · intro w a hD f k m n v o u hk ⟨d, hd, hc, _⟩ hs hrel hacq
    refine (cs w a hD).seesSyncNonMCA hpair hij (fun t d o x h h' g1 g2 g3 => hsole t d o w a x h h' hD g1 g2 g3)
      (hst.isLast (fun d hd => (hL.ops i d hd).1) hk) hk hd (hL.ops j d (List.mem_of_getElem? hd)).1 hc hs ?_ ?_ ?_
    · rcases hrel with ⟨rfl, h⟩ | h
      · exact Nat.le_refl _
      · exact h.1
    · rcases hrel with ⟨rfl, h⟩ | ⟨_, _, h⟩
      · exact .inl h
      · exact .inr h
    · rcases hacq with h | ⟨rfl, h⟩
      · exact .inl h
      · exact .inr ⟨h, hg⟩
  · intro f n h p q kd kd' o o' hp hpf hq hqn
    exact hsync i f j n h p q kd kd' o o' hp hpf hq hqn

theorem isSome_last {tr : List TEv} (h : (monOf tr).wr.isSome = true) : ∃ n, LastAccess (ownEvs tr) .wr n := by
  rw [monOf_ownEvs] at h
  obtain ⟨a, ha⟩ := Option.isSome_iff_exists.1 h
  obtain ⟨i, ev, _, _, h3, _⟩ := (monInv (ownEvs tr)).wr.isSome a ha
  exact ⟨i, h3⟩

section
variable {A : Backend W} {sc : List Mon} {st sw cas : Nat}

theorem Good.storesWrite (h : Good A sc) : A.StoresWrite := fun _ _ _ _ _ hB _ _ hr => by
  obtain ⟨_, _, hp⟩ := (h.store _ _ _ _ _ hB).completed hr
  exact isSome_last hp.2.2.2

theorem Good.seqlockReads {P : Call → Prop} (h : Good A sc) (hloc : A.LocalOps P) (hpair : A.Paired)
    (hacc : A.AccessesOK (gran st sw cas)) : A.SeqlockReads P :=
  Backend.seqlockReads hloc (Backend.orderingsOK h.acquireOK h.releaseOK h.seqCstOK h.failureOK) hpair hacc h.storesWrite

theorem Good.seqlockReadsNonMCA {P : Call → Prop} (h : Good A sc) (hloc : A.LocalOps P) (hpair : A.Paired)
    (hacc : A.AccessesOK (gran st sw cas)) (hb : A.BarriersOnly) (himp : A.imp.ww = false) : A.SeqlockReadsNonMCA P :=
  Backend.seqlockReadsNonMCA hloc (Backend.orderingsOK h.acquireOK h.releaseOK h.seqCstOK h.failureOK) hpair hacc hb himp h.storesWrite

theorem Good.seqlockReadsWeakened (h : Good A sc) (hpair : A.Paired) (hacc : A.AccessesOK (gran st sw cas)) :
    A.weakened.SeqlockReads fun _ => True :=
  h.weakened.seqlockReads h.localOps_weakened hpair.weakened (Backend.weakened_accesses hacc)

theorem Good.seqlockReadsNonMCAWeakened (h : Good A sc) (hpair : A.Paired) (hacc : A.AccessesOK (gran st sw cas))
    (hb : A.BarriersOnly) (himp : A.imp.ww = false) : A.weakened.SeqlockReadsNonMCA fun _ => True :=
  h.weakened.seqlockReadsNonMCA h.localOps_weakened hpair.weakened (Backend.weakened_accesses hacc) hb.weakened himp
end

end Verif
