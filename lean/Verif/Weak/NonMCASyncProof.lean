/-
Proof of C44 without multi-copy atomicity (Weak/NonMCASync.lean).
-/
import Verif.Weak.NonMCASync
import Verif.Weak.NonMCAProof
import Verif.Weak.SyncProof

namespace Verif
variable {W : Nat}

theorem Star.plus {α : Type} {R : α → α → Prop} {a b c : α} (h : Star R a b) (h' : R b c) : Plus R a c := by
  induction h generalizing c with
  | refl => exact .one h'
  | tail _ hs ih => exact (ih hs).tail h'
theorem Plus.star {α : Type} {R : α → α → Prop} {a b : α} (h : Plus R a b) : Star R a b := by
  induction h with
  | one hs => exact .tail (.refl _) hs
  | tail _ hs ih => exact ih.tail hs
theorem Star.plus_trans {α : Type} {R : α → α → Prop} {a b c : α} (h : Star R a b) (h' : Plus R b c) : Plus R a c := by
  induction h' with
  | one hs => exact h.plus hs
  | tail _ hs ih => exact ih.tail hs

theorem Step.barriersOnly {e : Endian} {i : Instr W} {c c' : Cfg W} {ev : Ev} (h : Step e i c ev c') (hb : i.barriersOnly = true) :
    (∀ p, ev = .fence p → p.ww = true → p.rw = true) ∧ ev.acc.rl = false := by
  cases h <;> simp_all [Instr.barriersOnly, Ev.acc]
  rcases hb with h | h
  · intro hh; rw [h] at hh; cases hh
  · exact fun _ => h

/-- the events of an operation -/
theorem Done.barriersOnly {A : Backend W} {d : Done W} (hA : A.BarriersOnly) (h : d.OK A) {o : Own W} (ho : o ∈ owns d.tr) :
    (∀ p, o.ev = .fence p → p.ww = true → p.rw = true) ∧ o.ev.acc.rl = false := by
  obtain ⟨hB, c0, c, _, _, _, hr, _, _⟩ := h
  obtain ⟨m1, c1, c2, hs⟩ := hr.mem_code _ _ _ _ _ (mem_owns ho)
  exact hs.barriersOnly (hA _ _ hB _ m1)

/-- a releasing operation: a cumulative barrier before its write -/
theorem WritesLast.why {A : Backend W} {d : Done W} (hA : A.BarriersOnly) (himp : A.imp.ww = false) (h : d.OK A)
    (hw : WritesLast A.imp (d.tr.map LEv.erase)) : ∃ n o, LastAccess ((owns d.tr).map Own.ev) .wr n ∧ (owns d.tr)[n]? = some o ∧
      (o.ev.acc.full = true ∨ ∃ f of p, f < n ∧ (owns d.tr)[f]? = some of ∧ of.ev = .fence p ∧ p.rw = true ∧ p.ww = true) := by
  obtain ⟨n, hn, hP⟩ := hw
  have := hP [.wr .plain] [] 0 .wr ⟨_, rfl, trivial⟩
  rw [ownEvs_erase] at hn this
  obtain ⟨_, x, y, hx, hy, _, _, h⟩ := this
  have hx : x = .wr .plain := by simpa using hx.symm
  subst hx
  rw [show [Ev.wr .plain].length + n = n + 1 by simp; omega, List.append_nil, List.singleton_append, List.getElem?_cons_succ] at hy
  rw [List.getElem?_map] at hy
  obtain ⟨o, ho, rfl⟩ := Option.map_eq_some_iff.1 hy
  refine ⟨n, o, hn, ho, ?_⟩
  have hb := Done.barriersOnly hA ‹_› (List.mem_of_getElem? ho)
  rcases h with h | ⟨m, p, h1, h2, h3, h4⟩ | h | h | ⟨h, _⟩ | ⟨_, h⟩ | ⟨_, h, _⟩
  · simp [Pairs.keeps, himp] at h
  · right
    obtain ⟨f, rfl⟩ := Nat.exists_eq_add_of_le (show 1 ≤ m by omega)
    rw [Nat.add_comm 1 f, List.append_nil, List.singleton_append, List.getElem?_cons_succ, List.getElem?_map] at h3
    obtain ⟨of, hof, hev⟩ := Option.map_eq_some_iff.1 h3
    refine ⟨f, of, p, ?_, hof, hev, (Done.barriersOnly hA ‹_› (List.mem_of_getElem? hof)).1 p hev h4, h4⟩
    simp only [List.length_cons, List.length_nil] at h2
    omega
  · cases h
  · exact .inl h
  · cases h
  · rw [hb.2] at h; cases h
  · cases h

/-- accesses of operations on aligned objects are natural -/
theorem Done.natural {A : Backend W} {d : Done W} {g : Call → Nat} (hacc : A.AccessesOK g) (h : d.OK A)
    (hal : d.call.addr % (d.call.width / 8) = 0) {o : Own W} (ho : o ∈ owns d.tr) (ha : o.ev.isAccess = true) : o.Natural := by
  obtain ⟨hB, c0, c, hpc, _, hpre, hr, _, _⟩ := h
  obtain ⟨pre, post, htr⟩ := List.append_of_mem (mem_owns ho)
  obtain ⟨c1, c2, hr1, hi, hs, hrs, _, _⟩ := hr.cut _ _ _ _ _ _ _ htr
  obtain ⟨x, b, hxb⟩ := hs.natural ha
  have := hacc d.call d.B hB hal c0 _ c1 _ x b hpc hpre hr1.run hi hxb
  rw [hrs] at hxb
  exact ⟨x, b, hxb, this.1, this.2.1⟩

/-- the hypotheses -/
structure RSetup (A : Backend W) (X : AxShape W) (rf : Node → Nat → Option Node) (items : Nat → List (Item W)) : Prop
    extends Prog A X items where
  ax : RAExec A.imp X rf
  ok : ∀ t d, Item.op d ∈ items t → d.OK A
  size : ∀ t d, Item.op d ∈ items t → IsSize d.call.width
  nat : ∀ t d o, Item.op d ∈ items t → o ∈ owns d.tr → o.ev.isAccess = true → o.Natural
  ord : A.OrderingsOK
  paired : A.Paired
  barriers : A.BarriersOnly
  imp : A.imp.ww = false

section
variable {A : Backend W} {X : AxShape W} {rf : Node → Nat → Option Node} {items : Nat → List (Item W)} (H : RSetup A X rf items)
include H

/-- the access of an operation -/
theorem RSetup.isLast {t k : Nat} {kd : AKind} {n : Node} (h : IsLast items t k kd n) : ∃ o, X.At n o ∧ o.Natural ∧ n.kind = kd := by
  obtain ⟨d, q, h1, h2, rfl⟩ := h
  obtain ⟨ev, hev, hk⟩ := h2.1
  rw [List.getElem?_map] at hev
  obtain ⟨o, ho, rfl⟩ := Option.map_eq_some_iff.1 hev
  exact ⟨o, H.at_pos h1 ho hk, H.nat t d o (List.mem_of_getElem? h1) (List.mem_of_getElem? ho) (Ev.has_access hk), rfl⟩

theorem RSetup.isLast_Wr {t k x : Nat} {n : Node} {v : BitVec 8} (h : IsLast items t k .wr n) (hx : X.WritesByte n x v) : ∃ o, X.Wr n o x := by
  obtain ⟨o, h1, h2, h3⟩ := H.isLast h
  obtain ⟨_, o', h4, h5, _⟩ := hx
  obtain rfl : o = o' := by simpa using h1.1.symm.trans h4.1
  exact ⟨o, h1, h3, h2, h5⟩
theorem RSetup.isLast_Rd {t k x : Nat} {n : Node} {o : Own W} (h : IsLast items t k .rd n) (ho : X.At n o) (hx : o.reads x) : X.Rd n o x := by
  obtain ⟨o', h1, h2, h3⟩ := H.isLast h
  obtain rfl : o = o' := by simpa using ho.1.symm.trans h1.1
  exact ⟨ho, h3, h2, hx⟩

/-- the read and the write of an operation that reads what it writes -/
theorem RSetup.readWrite {t k : Nat} {d : Done W} {r n : Node} (hd : (items t)[k]? = some (.op d)) (hr : IsLast items t k .rd r)
    (hn : IsLast items t k .wr n) (hc : d.call.Updates ∨ ∃ x v, X.WritesByte n x v ∧ ¬ d.call.Overwrites x) : X.ReadWrite r n := by
  obtain ⟨d', o, h, hw⟩ := H.isLast_wr hn
  obtain rfl : d = d' := by simpa using hd.symm.trans h.item
  have hm := List.mem_of_getElem? h.item
  obtain ⟨p, hp, hn⟩ := h.pt
  have hsz := H.size t d hm
  obtain ⟨y, hrd⟩ : ∃ y, o.reads y := by
    rcases hc with hc | ⟨x, v, ⟨_, o', ho', hx, _⟩, hc⟩
    · exact ⟨_, hp.reads_addr hc hsz⟩
    · obtain rfl : o' = o := by simpa using ho'.1.symm.trans (H.isPt_at h).1
      exact ⟨x, hp.reads_of hc hsz.mod8 hx⟩
  obtain ⟨q, lq, g1, g2, rfl, g3, g4⟩ : ∃ q lq, (owns d.tr)[q]? = some lq ∧ lq.ev.has .rd ∧ r = ⟨t, off (items t) k + q, .rd⟩ ∧
      q ≤ p ∧ ∀ j lj, q < j → (owns d.tr)[j]? = some lj → ¬ lj.ev.has .rd := by
    obtain ⟨d', q, g1, ⟨⟨ev, g2, g3⟩, g4⟩, rfl⟩ := hr
    obtain rfl : d' = d := by simpa using g1.symm.trans h.item
    rw [List.getElem?_map] at g2
    obtain ⟨lq, g5, rfl⟩ := Option.map_eq_some_iff.1 g2
    refine ⟨q, lq, g5, g3, rfl, ?_, fun j lj hj hlj hh => g4 j hj ⟨lj.ev, by rw [List.getElem?_map, hlj]; rfl, hh⟩⟩
    refine Nat.le_of_not_lt fun hq => ?_
    have := hp.after q lq hq g5
    rw [Ev.has_access g3] at this; cases this
  have hatq : X.At ⟨t, off (items t) k + q, .rd⟩ lq := H.at_pos h.item g1 g2
  have hn' : n = ⟨t, off (items t) k + p, .wr⟩ := by rw [hn]; simp [ptKind, hw]
  subst hn'
  have hatn : X.At ⟨t, off (items t) k + p, .wr⟩ o := H.isPt_at h
  refine ⟨rfl, rfl, rfl, lq, o, hatq, hatn, ?_⟩
  rcases hp.kinds with ⟨ac, hev⟩ | ⟨ac, hev⟩ | ⟨⟨ac, hev⟩, hno | ⟨hsc, i, l, acc, hi, hl, hll, hlev, hbetween, hsame⟩⟩
  · rw [hev] at hw; cases hw
  · left
    have : q = p := Nat.le_antisymm g3 (Nat.le_of_not_lt fun hq => g4 p o hq hp.get (by rw [hev]; trivial))
    rw [this]
  · exact absurd hrd (hno _)
  · right
    have hge : i ≤ q := Nat.le_of_not_lt fun hq => g4 i l hq hl (by rw [hlev]; trivial)
    have hne : q ≠ p := by
      rintro rfl
      obtain rfl : lq = o := by simpa using g1.symm.trans hp.get
      rw [hev] at g2; exact g2
    have hLL := Done.paired H.paired (H.ok t d hm) (List.mem_of_getElem? g1) (List.mem_of_getElem? hp.get) hsc g2
    have hbtw : ∀ q o', i < q → q < p → (owns d.tr)[q]? = some o' → o'.ins.isLL = false := hbetween
    have hqi : q = i := by
      rcases Nat.lt_or_eq_of_le hge with hlt | h
      · have := hbtw q lq hlt (by omega) g1
        rw [hLL] at this; cases this
      · exact h.symm
    subst hqi
    refine ⟨by simp only; omega, hLL, hsc, ?_⟩
    intro j o' hj hj' ho'
    simp only at hj hj' ho'
    obtain ⟨s, rfl⟩ := Nat.exists_eq_add_of_le (show off (items t) k ≤ j by omega)
    have hs : s < (owns d.tr).length := by
      have := (List.getElem?_eq_some_iff.1 hp.get).1; omega
    have hget := item_get h.item (it := .op d) (q := s) (o := (owns d.tr)[s]) (by simp [Item.code])
    rw [H.po] at ho'
    have : o' = (owns d.tr)[s] := by simpa using ho'.symm.trans hget
    subst this
    exact hbtw s _ (by omega) (by omega) (by simp)

/-- what an acquiring operation reads happens before everything later -/
theorem RSetup.acquire {t k : Nat} {d : Done W} {r : Node} (h : (items t)[k]? = some (.op d)) (ha : d.Acquires)
    (hr : IsLast items t k .rd r) {q : Nat} {kd : AKind} {o : Own W} (hq : X.At ⟨t, q, kd⟩ o) (hle : off (items t) (k + 1) ≤ q) :
    X.Hb A.imp rf r ⟨t, q, kd⟩ := by
  have hok := H.ok t d (List.mem_of_getElem? h)
  have hRF : ReadsFirst A.imp (d.tr.map LEv.erase) := by
    rcases Done.acquireRun hok ha with ha | ha
    · exact H.ord.acquire _ ha
    · exact H.ord.failure _ ha
  obtain ⟨pre, post, e1, e2, e3⟩ := H.around h
  obtain ⟨d', n, g1, g2, rfl⟩ := hr
  obtain rfl : d = d' := by simpa using h.symm.trans g1
  rw [← ownEvs_erase] at g2
  have hqe : (pre ++ ownEvs (d.tr.map LEv.erase) ++ post)[q]? = some o.ev := by
    rw [← e1, List.getElem?_map, hq.1]; rfl
  have hacc : Access post (q - off (items t) (k + 1)) kd := by
    refine ⟨o.ev, ?_, hq.2⟩
    rw [List.getElem?_append_right (by omega), e3] at hqe
    exact hqe
  obtain ⟨n', hn', hP⟩ := hRF
  obtain rfl := g2.unique hn'
  have := hP pre post _ kd hacc
  rw [← e1, e3, e2, Nat.add_sub_cancel' hle] at this
  exact .inl ⟨rfl, this⟩

omit H in
theorem Cumul.hb {a b : Node} (h : X.Cumul a b) {imp : Pairs} : X.Hb imp rf a b := by
  obtain ⟨h1, h2, oa, ob, ha, hb, h⟩ := h
  refine .inl ⟨h1, h2, oa.ev, ob.ev, by rw [List.getElem?_map, ha.1]; rfl, by rw [h1, List.getElem?_map, hb.1]; rfl, ha.2, hb.2, ?_⟩
  rcases h with ⟨q, o, p, g1, g2, g3, g4, _, _, g5⟩ | h | h
  · exact .inr (.inl ⟨q, p, g1, g2, by rw [List.getElem?_map, g3, ← g4]; rfl, g5⟩)
  · exact .inr (.inr (.inl h))
  · exact .inr (.inr (.inr (.inl h)))

/-- the write of a releasing operation, and those of later operations -/
theorem RSetup.release {t k : Nat} {d : Done W} (h : (items t)[k]? = some (.op d)) (ha : d.Releases) {k' : Nat} {w : Node} (hk : k ≤ k')
    (hw : IsLast items t k' .wr w) : ∃ w0 o0, X.At w0 o0 ∧ w0.thread = t ∧ w0.kind = .wr ∧
      (IsLast items t k .wr w0 ∨ off (items t) (k + 1) ≤ w0.pos) ∧
      (∀ p kd o, X.At ⟨t, p, kd⟩ o → p < off (items t) k → X.Cumul ⟨t, p, kd⟩ w0) ∧ Star (X.Hb A.imp rf) w0 w := by
  have hok := H.ok t d (List.mem_of_getElem? h)
  obtain ⟨n, o0, hn, ho0, hwhy⟩ := (H.ord.release _ (Done.releaseRun hok ha)).why H.barriers H.imp hok
  have hlast : IsLast items t k .wr ⟨t, off (items t) k + n, .wr⟩ := ⟨d, n, h, hn, rfl⟩
  obtain ⟨ow, hat, _, hkw⟩ := H.isLast hw
  obtain ⟨ht, _, hge, _⟩ := hw.node
  have hat0 : X.At ⟨t, off (items t) k + n, .wr⟩ o0 := by
    refine H.at_pos h ho0 ?_
    obtain ⟨ev, h1, h2⟩ := hn.1
    rw [List.getElem?_map, ho0] at h1
    cases h1
    exact h2
  have hend : off (items t) k + n < off (items t) (k + 1) := hlast.node.2.2.2
  rcases hwhy with hf | ⟨f, of, p, h1, h2, h3, h4, h5⟩
  · refine ⟨_, o0, hat0, rfl, rfl, .inl hlast, fun p kd o hp hpk => ?_, ?_⟩
    · exact ⟨rfl, by simp only; omega, o, o0, hp, hat0, .inr (.inr hf)⟩
    · rcases Nat.lt_or_eq_of_le hk with hlt | rfl
      · refine .tail (.refl _) (.inl ⟨ht.symm, ?_, o0.ev, ow.ev, by rw [List.getElem?_map, hat0.1]; rfl, ?_, hat0.2, hat.2, .inr (.inr (.inl hf))⟩)
        · have := off_mono (items t) (show k + 1 ≤ k' from hlt)
          simp only; omega
        · rw [List.getElem?_map]
          show Option.map _ (X.po t)[w.pos]? = _
          rw [← ht, hat.1]; rfl
      · rw [hlast.unique hw]; exact .refl _
  · have hpos : off (items t) k + f < w.pos := by
      rcases Nat.lt_or_eq_of_le hk with hlt | rfl
      · have := off_mono (items t) (show k + 1 ≤ k' from hlt)
        omega
      · rw [← hlast.unique hw]; simp only; omega
    refine ⟨w, ow, hat, ht, hkw, ?_, fun q kd o hq hqk => ?_, .refl _⟩
    · rcases Nat.lt_or_eq_of_le hk with hlt | rfl
      · have := off_mono (items t) (show k + 1 ≤ k' from hlt)
        exact .inr (by omega)
      · exact .inl hw
    · refine ⟨ht.symm, by simp only; omega, o, ow, hq, hat, .inl ⟨off (items t) k + f, of, p, by simp only; omega, hpos, ?_, h3, h4, h5, ?_⟩⟩
      · show (X.po t)[_]? = _
        rw [H.po]
        exact item_get h (it := .op d) h2
      · rw [hkw]; cases kd
        · exact h4
        · exact h5

/-- a release sequence -/
theorem RSetup.carries {i k x : Nat} {d : Done W} {w : Node} (h : (items i)[k]? = some (.op d)) (ha : d.Releases)
    (hc : Carries X rf items i k x w) : (∃ o, X.Wr w o x) ∧ ∃ w0 o0, X.At w0 o0 ∧ w0.thread = i ∧ w0.kind = .wr ∧
      (IsLast items i k .wr w0 ∨ off (items i) (k + 1) ≤ w0.pos) ∧
      (∀ p kd o, X.At ⟨i, p, kd⟩ o → p < off (items i) k → X.Cumul ⟨i, p, kd⟩ w0) ∧ Star (X.Hb A.imp rf) w0 w := by
  induction hc with
  | own hk hw hx => exact ⟨H.isLast_Wr hw hx, H.release h ha hk hw⟩
  | @update w r w' t u du o v _ hd hU hr ho hx hrf ht hw' hx' ih =>
    obtain ⟨⟨ow, hW⟩, w0, o0, h1, h2, h3, h4, h5, h6⟩ := ih
    refine ⟨H.isLast_Wr hw' hx', w0, o0, h1, h2, h3, h4, h5, (h6.tail (.inr (.inl ⟨?_, ow, o, x, hW, H.isLast_Rd hr ho hx, hrf⟩))).tail
      (.inr (.inr (H.readWrite hd hr hw' (.inr ⟨x, v, hx', hU⟩))))⟩
    rw [hr.node.1]; exact ht

/-- what synchronization gives -/
theorem RSetup.sync {i k j l : Nat} (h : NSync X rf items i k j l) : ∃ d w0 o0, (items i)[k]? = some (.op d) ∧ d.Releases ∧
    X.At w0 o0 ∧ w0.thread = i ∧ w0.kind = .wr ∧ (IsLast items i k .wr w0 ∨ off (items i) (k + 1) ≤ w0.pos) ∧
    (∀ p kd o, X.At ⟨i, p, kd⟩ o → p < off (items i) k → X.Cumul ⟨i, p, kd⟩ w0) ∧
    (∀ q kd o, X.At ⟨j, q, kd⟩ o → off (items j) (l + 1) ≤ q → Plus (X.Hb A.imp rf) w0 ⟨j, q, kd⟩) ∧
    ∀ d' n', (items j)[l]? = some (.op d') → d'.Releases → IsLast items j l .wr n' → Plus (X.Hb A.imp rf) w0 n' := by
  induction h with
  | @direct i k j l d d' w r o x hd hrel hw hd' hacq hr ho hx hrf hj =>
    obtain ⟨⟨ow, hW⟩, w0, o0, h1, h2, h3, h4, h5, h6⟩ := H.carries hd hrel hw
    have hwr : Plus (X.Hb A.imp rf) w0 r := h6.plus (.inr (.inl ⟨by rw [hr.node.1]; exact hj, ow, o, x, hW, H.isLast_Rd hr ho hx, hrf⟩))
    refine ⟨d, w0, o0, hd, hrel, h1, h2, h3, h4, h5, fun q kd oq hq hle => hwr.tail (H.acquire hd' hacq hr hq hle), ?_⟩
    intro d'' n' hd'' hrel' hn'
    obtain rfl : d' = d'' := by simpa using hd'.symm.trans hd''
    exact hwr.tail (.inr (.inr (H.readWrite hd' hr hn' (.inl (Done.updates_of hacq hrel')))))
  | @trans i k j l m t n _ hlm _ ih ih' =>
    obtain ⟨d, w0, o0, h1, h2, h3, h4, h5, h6, h7, h8, h9⟩ := ih
    obtain ⟨d1, w1, o1, g1, g2, g3, g4, g5, g6, g7, g8, g9⟩ := ih'
    have hw : Plus (X.Hb A.imp rf) w0 w1 := by
      have later : off (items j) (l + 1) ≤ w1.pos → Plus (X.Hb A.imp rf) w0 w1 := by
        intro hle
        obtain ⟨t1, p1, k1⟩ := w1
        simp only at g4
        subst g4
        exact h8 p1 k1 o1 g3 hle
      rcases Nat.lt_or_eq_of_le hlm with hlt | rfl
      · refine later ?_
        have h1 := off_mono (items j) (show l + 1 ≤ m from hlt)
        have h2 := off_mono (items j) (Nat.le_succ m)
        rcases g6 with g6 | g6
        · have := g6.node.2.2.1; omega
        · simp only [Nat.succ_eq_add_one] at h2; omega
      · rcases g6 with g6 | g6
        · exact h9 d1 w1 g1 g2 g6
        · exact later g6
    exact ⟨d, w0, o0, h1, h2, h3, h4, h5, h6, h7, fun q kd o hq hle => hw.trans (g8 q kd o hq hle),
      fun d' n' hd' hr hn => hw.trans (g9 d' n' hd' hr hn)⟩

/-- a write that a cumulative barrier separates from all that precedes it and that happens before all of the other thread -/
theorem RSetup.precedes {i k j l : Nat} {w0 : Node} (hk0 : w0.kind = .wr)
    (hcum : ∀ p kd o, X.At ⟨i, p, kd⟩ o → p < off (items i) k → X.Cumul ⟨i, p, kd⟩ w0)
    (hpost : ∀ q kd o, X.At ⟨j, q, kd⟩ o → off (items j) (l + 1) ≤ q → Plus (X.Hb A.imp rf) w0 ⟨j, q, kd⟩)
    (p q : Nat) (kd kd' : AKind) (o o' : Own W)
    (hp : X.At ⟨i, p, kd⟩ o) (hpk : p < off (items i) k) (hq : X.At ⟨j, q, kd'⟩ o') (hql : off (items j) (l + 1) ≤ q) :
    X.Precedes rf ⟨i, p, kd⟩ ⟨j, q, kd'⟩ := by
  have hab := hcum p kd o hp hpk
  have hb := hpost q kd' o' hq hql
  have noCycle : ∀ n, Plus (X.Hb A.imp rf) w0 n → X.Hb A.imp rf n w0 → False := fun n h1 h2 => H.ax.thinAir _ (h1.tail h2)
  intro oa ob x
  -- a write of the same thread that a read takes its value from precedes it
  have own : ∀ w ow, X.Rd ⟨i, p, kd⟩ oa x → rf ⟨i, p, kd⟩ x = some w → X.Wr w ow x → w.thread = i → w.pos < p := by
    intro w ow hr hrf hw ht
    rcases Nat.lt_trichotomy w.pos p with h | h | h
    · exact h
    · exfalso
      have ho : ow = oa := by
        have h1 := hw.1.1; have h2 := hr.1.1
        simp only at h2
        rw [ht, h, h2] at h1
        simpa using h1.symm
      subst ho
      have := (H.ax.rmw _ w ow x ht.symm h.symm hr hw).1 w hrf
      omega
    · exfalso
      have := H.ax.coRW _ w oa ow x w ht.symm h hr hw hrf
      omega
  -- what a read of thread `i` before the releasing operation has seen propagates before its write
  have prop : ∀ w ow, X.Rd ⟨i, p, kd⟩ oa x → rf ⟨i, p, kd⟩ x = some w → X.Wr w ow x → ∀ n, n.kind = .wr → Star (X.Hb A.imp rf) w0 n →
      X.Propagates A.imp rf w n := by
    intro w ow hr hrf hw n hn hs
    by_cases ht : w.thread = i
    · have hlt := own w ow hr hrf hw ht
      have hwk := hw.2.1
      obtain ⟨tw, pw, kw⟩ := w
      simp only at ht hwk hlt
      subst ht
      exact ⟨hwk, hn, _, w0, .inl rfl, hcum pw kw ow hw.1 (by omega), hs⟩
    · exact ⟨hw.2.1, hn, ⟨i, p, kd⟩, w0, .inr ⟨ht, ow, oa, x, hw, hr, hrf⟩, hab, hs⟩
  -- what is not newer
  have fr : ∀ w, (¬ ∃ w', rf ⟨j, q, kd'⟩ x = some w' ∧ X.rank w ≤ X.rank w') → ∀ w', rf ⟨j, q, kd'⟩ x = some w' → X.rank w' < X.rank w :=
    fun w hn w' hw' => Nat.lt_of_not_le fun hle => hn ⟨w', hw', hle⟩
  have co : ∀ a, X.Propagates A.imp rf a ⟨j, q, kd'⟩ → ∀ o o', X.Wr a o x → X.Wr ⟨j, q, kd'⟩ o' x → ¬ X.rank ⟨j, q, kd'⟩ < X.rank a :=
    fun a hpr o o' ha hb hlt => H.ax.propagation _ (.tail (.one (.inr hpr)) (.inl ⟨o', o, x, hb, ha, hlt⟩))
  by_cases hij : i = j
  · subst hij
    have hlt : p < q := Nat.lt_of_not_le fun hle => noCycle _ hb (Cumul.hb (hcum q kd' o' hq (by omega)))
    exact ⟨fun h1 h2 => H.ax.coWW _ _ _ _ x rfl hlt h1 h2, fun h1 h2 => H.ax.coWR _ _ _ _ x rfl hlt h1 h2,
      fun w ow h1 h2 h3 h4 => H.ax.coRW ⟨i, p, kd⟩ ⟨i, q, kd'⟩ _ _ x w rfl hlt h1 h4 h2, fun w ow h1 h2 h3 h4 => H.ax.coRR ⟨i, p, kd⟩ ⟨i, q, kd'⟩ _ _ x w rfl hlt h1 h4 h2⟩
  refine ⟨fun h1 h2 => ?_, fun h1 h2 => ?_, fun w ow h1 h2 h3 h4 => ?_, fun w ow h1 h2 h3 h4 => ?_⟩
  · rcases Nat.lt_trichotomy (X.rank ⟨i, p, kd⟩) (X.rank ⟨j, q, kd'⟩) with hl | hl | hl
    · exact hl
    · exact absurd (congrArg Node.thread (H.ax.inj _ _ _ _ _ _ h1 h2 hl)) hij
    · exact absurd hl (co _ ⟨h1.2.1, h2.2.1, _, w0, .inl rfl, hab, hb.star⟩ _ _ h1 h2)
  · refine Classical.byContradiction fun hn => ?_
    exact H.ax.observation _ _ w0 _ _ x h1 h2 (fun h => hij h.symm) (fr _ hn) ⟨h1.2.1, hk0, _, w0, .inl rfl, hab, .refl _⟩ hb.star
  · rcases Nat.lt_trichotomy (X.rank w) (X.rank ⟨j, q, kd'⟩) with hl | hl | hl
    · exact hl
    · exfalso
      obtain rfl := H.ax.inj _ _ _ _ _ _ h3 h4 hl
      refine H.ax.thinAir w0 ((hb.tail (c := ⟨i, p, kd⟩) (.inr (.inl ⟨fun h => hij h.symm, ow, oa, x, h3, h1, h2⟩))).tail (Cumul.hb hab))
    · exact absurd hl (co w (prop w ow h1 h2 h3 _ h4.2.1 hb.star) _ _ h3 h4)
  · refine Classical.byContradiction fun hn => ?_
    have hfr := fr w hn
    by_cases ht : w.thread = j
    · have hwi : w.thread ≠ i := fun h => hij (h.symm.trans ht)
      rcases Nat.lt_or_ge w.pos q with hlt | hge
      · obtain ⟨w', h5, h6⟩ := H.ax.coWR w ⟨j, q, kd'⟩ _ _ x ht hlt h3 h4
        exact hn ⟨w', h5, h6⟩
      · have hat := h3.1
        have hwp : Plus (X.Hb A.imp rf) w0 w := by
          obtain ⟨tw, pw, kw⟩ := w
          simp only at ht hge
          subst ht
          exact hpost pw kw ow hat (by omega)
        exact H.ax.thinAir w0 ((hwp.tail (c := ⟨i, p, kd⟩) (.inr (.inl ⟨hwi, ow, oa, x, h3, h1, h2⟩))).tail (Cumul.hb hab))
    · exact H.ax.observation w _ w0 _ _ x h3 h4 (fun h => ht h.symm) hfr (prop w ow h1 h2 h3 w0 hk0 (.refl _)) hb.star

theorem RSetup.conclude {i k j l : Nat} (h : NSync X rf items i k j l) (p q : Nat) (kd kd' : AKind) (o o' : Own W)
    (hp : X.At ⟨i, p, kd⟩ o) (hpk : p < off (items i) k) (hq : X.At ⟨j, q, kd'⟩ o') (hql : off (items j) (l + 1) ≤ q) :
    X.Precedes rf ⟨i, p, kd⟩ ⟨j, q, kd'⟩ := by
  obtain ⟨d, w0, o0, _, _, _, _, hk0, _, hcum, hpost, _⟩ := H.sync h
  exact H.precedes hk0 hcum hpost p q kd kd' o o' hp hpk hq hql
end

/-- C44 without multi-copy atomicity, from the local specification of the operations, their orderings, accesses and the shape of their
code. -/
theorem Backend.syncOnNonMCA {A : Backend W} {P : Call → Prop} {g : Call → Nat} (hloc : A.LocalOps P) (hord : A.OrderingsOK)
    (hpair : A.Paired) (hacc : A.AccessesOK g) (hb : A.BarriersOnly) (himp : A.imp.ww = false) : A.SyncOnNonMCA P := by
  intro X rf items hX hpo hops i k j l h
  exact RSetup.conclude ⟨⟨hpo, fun t d h => exists_point hloc (hops t d h).1 (hops t d h).2.1⟩, hX, fun t d h => (hops t d h).1,
    fun t d h => (hops t d h).2.2.1, fun t d o h ho ha => Done.natural hacc (hops t d h).1 (hops t d h).2.2.2 ho ha, hord, hpair, hb, himp⟩ h

theorem Carries.weaken {X : AxShape W} {rf : Node → Nat → Option Node} {items : Nat → List (Item W)} {i k x : Nat} {w : Node}
    (h : Carries X rf items i k x w) : Carries X rf (fun t => (items t).map Item.weaken) i k x w := by
  induction h with
  | own hk hw hx => exact .own hk hw.weaken hx
  | update _ hd hU hr ho hx hrf ht hw' hx' ih =>
    refine .update ih (get_weaken hd) ?_ hr.weaken ho hx hrf ht hw'.weaken hx'
    rename_i d _ _ _
    rw [Done.weaken_call]
    generalize d.call = c at hU
    cases c <;> exact hU
theorem NSync.weaken {X : AxShape W} {rf : Node → Nat → Option Node} {items : Nat → List (Item W)} {i k j l : Nat}
    (h : NSync X rf items i k j l) : NSync X rf (fun t => (items t).map Item.weaken) i k j l := by
  induction h with
  | trans _ hlm _ ih ih' => exact ih.trans hlm ih'
  | direct hd hrel hw hd' hacq hr ho hx hrf hj =>
    rename_i i k j l d d' w r o x
    refine .direct (get_weaken hd) ?_ hw.weaken (get_weaken hd') ?_ hr.weaken ho hx hrf hj
    · obtain ⟨c, B, tr, rs⟩ := d; cases c <;> exact hrel
    · obtain ⟨c, B, tr, rs⟩ := d'; cases c <;> exact hacq
theorem Backend.BarriersOnly.weakened {A : Backend W} (h : A.BarriersOnly) : A.weakened.BarriersOnly := by
  intro c B hB
  cases c with
  | load o w a => exact h (.load o w a) B hB
  | store o w a v => exact h (.store o w a v) B hB
  | swap o w a v => exact h (.swap o w a v) B hB
  | cas s f w a old new => exact hB.elim
  | casWeak s f w a old new =>
    rcases hB with hB | hB
    · exact h (.cas s f w a old new) B hB
    · exact h (.casWeak s f w a old new) B hB

/-- The form used for the back ends. -/
theorem Good.syncOnNonMCA {A : Backend W} {sc : List Mon} {st sw cas : Nat} (h : Good A sc) (hpair : A.Paired)
    (hacc : A.AccessesOK (gran st sw cas))
    (hb : A.BarriersOnly) (himp : A.imp.ww = false) : A.SyncOnNonMCA fun _ => True := by
  have hw : A.weakened.SyncOnNonMCA fun _ => True :=
    Backend.syncOnNonMCA (h.weakened.localOps (P := fun _ => True) fun _ _ _ _ _ _ _ _ hB => hB.elim)
      (Backend.orderingsOK h.weakened.acquireOK h.weakened.releaseOK h.weakened.seqCstOK h.weakened.failureOK) hpair.weakened
      (Backend.weakened_accesses hacc) hb.weakened himp
  intro X rf items hX hpo hops i k j l hs p q kd kd' o o' hp hpk hq hql
  refine hw X rf (fun t => (items t).map Item.weaken) hX ?_ ?_ i k j l hs.weaken p q kd kd' o o' hp ?_ hq ?_
  · intro t
    rw [hpo, List.flatMap_map]
    apply flatMap_congr_mem
    intro z _
    exact (Item.weaken_code z).symm
  · intro t d hd
    obtain ⟨z, hz, he⟩ := List.mem_map.1 hd
    cases z with
    | other => cases he
    | op d' =>
      injection he with he
      subst he
      obtain ⟨h1, _, h2⟩ := hops t d' hz
      refine ⟨Done.weaken_ok h1, trivial, ?_⟩
      rw [Done.weaken_call]
      generalize d'.call = c at h2
      cases c <;> exact h2
  · rw [offset_weaken]; exact hpk
  · rw [offset_weaken]; exact hql

end Verif
