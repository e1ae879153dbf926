/-
Proof of C44.
-/
import Verif.Weak.Sync
import Verif.Weak.Weaken

namespace Verif

/-! ### From the operation to the runs of Contract.lean -/
section
variable {W : Nat} {A : Backend W} {d : Done W}

theorem Done.releaseRun (h : d.OK A) (hr : d.Releases) : A.ReleaseRun (d.tr.map LEv.erase) := by
  obtain ⟨call, B, tr, rs⟩ := d
  obtain ⟨hB, c0, c, h1, _, h3, h4, h5, h6⟩ := h
  have hc : B.Completed A.e (tr.map LEv.erase) rs := ⟨c0, c, h1, h3, h4.run, h5, h6⟩
  cases call with
  | load o w a => exact hr.elim
  | store o w a v => exact .store hB hr hc
  | swap o w a v => exact .swap hB hr hc
  | cas s f w a old new => exact .cas (.inl hB) hr.2 hc hr.1
  | casWeak s f w a old new => exact .cas (.inr hB) hr.2 hc hr.1

theorem Done.acquireRun (h : d.OK A) (hr : d.Acquires) :
    A.AcquireRun (d.tr.map LEv.erase) ∨ A.FailAcquireRun (d.tr.map LEv.erase) := by
  obtain ⟨call, B, tr, rs⟩ := d
  obtain ⟨hB, c0, c, h1, _, h3, h4, h5, h6⟩ := h
  have hc : B.Completed A.e (tr.map LEv.erase) rs := ⟨c0, c, h1, h3, h4.run, h5, h6⟩
  cases call with
  | load o w a => exact .inl (.load hB hr hc)
  | store o w a v => exact hr.elim
  | swap o w a v => exact .inl (.swap hB hr hc)
  | cas s f w a old new =>
    have hr : (if B.ok rs then s else f).acquires = true := hr
    cases hok : B.ok rs with
    | true => rw [hok] at hr; exact .inl (.cas (.inl hB) hr hc hok)
    | false => rw [hok] at hr; exact .inr (.intro (.inl hB) hr hc hok)
  | casWeak s f w a old new =>
    have hr : (if B.ok rs then s else f).acquires = true := hr
    cases hok : B.ok rs with
    | true => rw [hok] at hr; exact .inl (.cas (.inr hB) hr hc hok)
    | false => rw [hok] at hr; exact .inr (.intro (.inr hB) hr hc hok)

theorem Done.updates_of (h1 : d.Acquires) (h2 : d.Releases) : d.call.Updates := by
  obtain ⟨call, B, tr, rs⟩ := d
  cases call <;> first | trivial | exact h1.elim | exact h2.elim

/-- executed instructions are instructions of the block -/
theorem LRun.mem_code {e : Endian} {P : List (Instr W)} {c0 c : Cfg W} {tr : List (LEv W)} (h : LRun e P c0 tr c) :
    ∀ ins rs ev m m', LEv.own ins rs ev m m' ∈ tr → ins ∈ P ∧ ∃ c1 c2, Step e ins c1 ev c2 := by
  induction h with
  | nil => intro ins rs ev m m' h; simp at h
  | own h hi hs ih =>
    intro ins rs ev m m' h
    rcases List.mem_append.1 h with h | h
    · exact ih _ _ _ _ _ h
    · simp only [List.mem_singleton, LEv.own.injEq] at h
      obtain ⟨rfl, rfl, rfl, rfl, rfl⟩ := h
      exact ⟨List.mem_of_getElem? hi, _, _, hs⟩
  | env h m1 r' hr ih =>
    intro ins rs ev m m' h
    rcases List.mem_append.1 h with h | h
    · exact ih _ _ _ _ _ h
    · simp at h

/-- In an operation that executes a store-conditional, every read is a load-linked. -/
theorem Done.paired (hp : A.Paired) (h : d.OK A) {o o' : Own W} (ho : o ∈ owns d.tr) (ho' : o' ∈ owns d.tr)
    (hsc : o'.ins.isSC = true) (hrd : o.ev.has .rd) : o.ins.isLL = true := by
  obtain ⟨hB, c0, c, _, _, _, hr, _, _⟩ := h
  obtain ⟨m1, c1, c2, hs⟩ := hr.mem_code _ _ _ _ _ (mem_owns ho)
  obtain ⟨m2, _⟩ := hr.mem_code _ _ _ _ _ (mem_owns ho')
  have hq := hp _ _ hB _ m1 _ m2 hsc
  obtain ⟨ins, rs, ev, m, m'⟩ := o
  cases hs <;> first | rfl | (cases hq; done) | exact False.elim hrd
end

/-- an acquiring operation: by annotation, or by what keeps every earlier read before every later access -/
theorem ReadsFirst.why {imp : Pairs} {tr : List TEv} (h : ReadsFirst imp tr) :
    ∃ n ev, LastAccess (ownEvs tr) .rd n ∧ (ownEvs tr)[n]? = some ev ∧
      ((ev.acc.aq = true ∨ ev.acc.full = true) ∨
        ∀ k, imp.keeps .rd k = true ∨ ∃ f p, n < f ∧ (ownEvs tr)[f]? = some (.fence p) ∧ p.keeps .rd k = true) := by
  obtain ⟨n, hl, h⟩ := h
  obtain ⟨ev, hev, hrd⟩ := hl.1
  have hn : n < (ownEvs tr).length := (List.getElem?_eq_some_iff.1 hev).1
  refine ⟨n, ev, hl, hev, ?_⟩
  by_cases ha : ev.acc.aq = true ∨ ev.acc.full = true
  · exact .inl ha
  refine .inr fun k => ?_
  obtain ⟨y, hy⟩ : ∃ y : Ev, y.has k ∧ y.acc = {} ∧ ∀ p, y ≠ .fence p := by
    cases k
    · exact ⟨.rd {}, trivial, rfl, by intro p hp; cases hp⟩
    · exact ⟨.wr {}, trivial, rfl, by intro p hp; cases hp⟩
  obtain ⟨_, x1, y1, hx1, hy1, _, _, hd⟩ := h [] [y] 0 k ⟨y, rfl, hy.1⟩
  simp only [List.nil_append, List.length_nil, Nat.zero_add, Nat.add_zero] at hx1 hy1 hd
  rw [List.getElem?_append_left hn, hev] at hx1
  rw [List.getElem?_append_right (Nat.le_refl _), Nat.sub_self] at hy1
  simp only [Option.some.injEq, List.getElem?_cons_zero] at hx1 hy1
  subst hx1 hy1
  rcases hd with hd | ⟨f, p, h1, h2, h3, h4⟩ | hd | hd | hd | hd | hd
  · exact .inl hd
  · rw [List.getElem?_append_left h2] at h3
    exact .inr ⟨f, p, h1, h3, h4⟩
  · exact absurd (.inr hd) ha
  · rw [hy.2.1] at hd; cases hd
  · exact absurd (.inl hd.2) ha
  · rw [hy.2.1] at hd; cases hd.2
  · cases hd.1

/-- an operation other than a store reads the object -/
theorem Call.Sem.reads {e : Endian} {c : Call} {m m' M M' : Mem} {r : Ret} {x : Nat} (hc : ¬ c.Overwrites x) (hw : c.width % 8 = 0)
    (h : c.Sem e m m' r) (h' : c.Sem e M M' r) (h1 : c.addr ≤ x) (h2 : x < c.addr + c.width / 8) : m x = M x := by
  cases c with
  | load o w a =>
    obtain ⟨y, ⟨g, _⟩, k⟩ := h
    obtain ⟨y', ⟨g', _⟩, k'⟩ := h'
    have := k.symm.trans k'
    simp only [Ret.bits.injEq, heq_eq_eq, true_and] at this
    exact load_inj (e := e) hw (show Verif.load e m a w = Verif.load e M a w by rw [← g, ← g', this]) h1 h2
  | store o w a v => exact absurd ⟨h1, h2⟩ hc
  | swap o w a v =>
    obtain ⟨y, ⟨g, _⟩, k⟩ := h
    obtain ⟨y', ⟨g', _⟩, k'⟩ := h'
    have := k.symm.trans k'
    simp only [Ret.bits.injEq, heq_eq_eq, true_and] at this
    exact load_inj (e := e) hw (show Verif.load e m a w = Verif.load e M a w by rw [← g, ← g', this]) h1 h2
  | cas s f w a old new =>
    obtain ⟨y, b, ⟨g, _⟩, k⟩ := h
    obtain ⟨y', b', ⟨g', _⟩, k'⟩ := h'
    have := k.symm.trans k'
    simp only [Ret.cas.injEq, heq_eq_eq, true_and] at this
    exact load_inj (e := e) hw (show Verif.load e m a w = Verif.load e M a w by rw [← g, ← g', this.1]) h1 h2
  | casWeak s f w a old new =>
    obtain ⟨y, b, ⟨g, _⟩, k⟩ := h
    obtain ⟨y', b', ⟨g', _⟩, k'⟩ := h'
    have := k.symm.trans k'
    simp only [Ret.cas.injEq, heq_eq_eq, true_and] at this
    exact load_inj (e := e) hw (show Verif.load e m a w = Verif.load e M a w by rw [← g, ← g', this.1]) h1 h2


section
variable {W : Nat} {A : Backend W} {X : AxShape W} {items : Nat → List (Item W)}

/-- an operation reads every byte it writes, except a store that of the object -/
theorem Point.reads_of {e : Endian} {d : Done W} {p : Nat} {o : Own W} (h : Point e d p o) {x : Nat} (hc : ¬ d.call.Overwrites x)
    (hw : d.call.width % 8 = 0) (hx : o.writes x) : o.reads x := by
  refine Classical.byContradiction fun hn => ?_
  by_cases hin : d.call.addr ≤ x ∧ x < d.call.addr + d.call.width / 8
  · have s1 := h.sem o.m (Agree.refl _ _ _)
    have s2 := h.sem (flip o.m x) (flip_agree hn)
    exact flip_ne o.m x (Call.Sem.reads hc hw s1 s2 hin.1 hin.2).symm
  · exact hn (h.rewrites (by omega) hx).1

/-- a read-modify-write operation reads the object -/
theorem Point.reads_addr {e : Endian} {d : Done W} {p : Nat} {o : Own W} (h : Point e d p o) (hc : d.call.Updates)
    (hw : IsSize d.call.width) : o.reads d.call.addr := by
  refine Classical.byContradiction fun hn => ?_
  have hno : ∀ x, ¬ d.call.Overwrites x := by
    intro x
    generalize d.call = c at hc
    cases c <;> first | exact False.elim hc | exact id
  have s1 := h.sem o.m (Agree.refl _ _ _)
  have s2 := h.sem (flip o.m d.call.addr) (flip_agree hn)
  exact flip_ne o.m _ (Call.Sem.reads (hno _) hw.mod8 s1 s2 (Nat.le_refl _) (by have := hw.pos; omega)).symm

/-- all that is used of an execution -/
structure SySetup (A : Backend W) (X : AxShape W) (items : Nat → List (Item W)) : Prop extends Prog A X items where
  ax : AxExec A.imp X
  fwd : X.LocalForward
  ok : ∀ t d, Item.op d ∈ items t → d.OK A
  size : ∀ t d, Item.op d ∈ items t → IsSize d.call.width
  ord : A.OrderingsOK
  paired : A.Paired

theorem IsLast.node {t k : Nat} {kd : AKind} {n : Node} (h : IsLast items t k kd n) : n.thread = t ∧ n.kind = kd ∧
    off (items t) k ≤ n.pos ∧ n.pos < off (items t) (k + 1) := by
  obtain ⟨d, q, h1, h2, rfl⟩ := h
  obtain ⟨ev, hev, _⟩ := h2.1
  have := (List.getElem?_eq_some_iff.1 hev).1
  rw [List.length_map] at this
  refine ⟨rfl, rfl, Nat.le_add_right _ _, ?_⟩
  rw [off_succ h1]
  simp only [Item.code]
  omega

theorem Prog.isLast_at (H : Prog A X items) {t k : Nat} {kd : AKind} {n : Node} (h : IsLast items t k kd n) : ∃ o, X.At n o := by
  obtain ⟨d, q, h1, h2, rfl⟩ := h
  obtain ⟨ev, hev, hk⟩ := h2.1
  rw [List.getElem?_map] at hev
  obtain ⟨o, ho, rfl⟩ := Option.map_eq_some_iff.1 hev
  exact ⟨o, H.at_pos h1 ho hk⟩

/-- the last write of an operation is where it takes effect -/
theorem Prog.isLast_wr (H : Prog A X items) {t k : Nat} {n : Node} (h : IsLast items t k .wr n) : ∃ d o, IsPt A.e items t k d n o ∧ o.ev.isWrite = true := by
  obtain ⟨d, q, h1, h2, rfl⟩ := h
  obtain ⟨ev, hev, hk⟩ := h2.1
  rw [List.getElem?_map] at hev
  obtain ⟨o, ho, rfl⟩ := Option.map_eq_some_iff.1 hev
  have hw := Ev.has_wr hk
  obtain ⟨p, o1, hp⟩ := H.point _ d (List.mem_of_getElem? h1)
  have hq : q = p := by
    rcases Nat.lt_trichotomy q p with hl | hl | hl
    · have := hp.before q o hl ho; rw [hw] at this; cases this
    · exact hl
    · have := Ev.write_access (hp.after q o hl ho); rw [hw] at this; cases this
  subst hq
  obtain rfl : o = o1 := by simpa using ho.symm.trans hp.get
  exact ⟨d, o, ⟨h1, q, hp, by simp [ptKind, hw]⟩, hw⟩

/-- the events of a thread around an operation -/
theorem Prog.around (H : Prog A X items) {t k : Nat} {d : Done W} (h : (items t)[k]? = some (.op d)) : ∃ pre post,
    (X.po t).map Own.ev = pre ++ ownEvs (d.tr.map LEv.erase) ++ post ∧ pre.length = off (items t) k ∧
      (pre ++ ownEvs (d.tr.map LEv.erase)).length = off (items t) (k + 1) := by
  refine ⟨(((items t).take k).flatMap Item.code).map Own.ev, (((items t).drop (k + 1)).flatMap Item.code).map Own.ev, ?_, ?_, ?_⟩
  · rw [H.po, ownEvs_erase]
    conv => lhs; rw [split_at h]
    simp [Item.code]
  · simp [off]
  · rw [off_succ h, ownEvs_erase]; simp [off, Item.code]

variable (H : SySetup A X items)
include H

/-- the read that belongs to the write of an operation that reads what it writes -/
theorem SySetup.link {t k : Nat} {d : Done W} {n : Node} {o : Own W} (h : IsPt A.e items t k d n o) (hw : o.ev.isWrite = true)
    {y : Nat} (hr : o.reads y) : ∃ (i : Nat) (l : Own W) (F : Nat → Prop), (owns d.tr)[i]? = some l ∧ l.ev.has .rd ∧
      off (items t) k + i ≤ n.pos ∧ (∀ x, o.writes x → o.reads x → F x) ∧ X.Uninterrupted F ⟨t, off (items t) k + i, .rd⟩ n ∧
      (∀ r, IsLast items t k .rd r → r = ⟨t, off (items t) k + i, .rd⟩) ∧
      ((∃ a, o.ev = .rmw a) ∨ o.ins.isSC = true) := by
  have hm := List.mem_of_getElem? h.item
  obtain ⟨p, hp, hn⟩ := h.pt
  have last : ∀ r, IsLast items t k .rd r → ∃ q lq, (owns d.tr)[q]? = some lq ∧ lq.ev.has .rd ∧ r = ⟨t, off (items t) k + q, .rd⟩ ∧
      q ≤ p ∧ ∀ j lj, q < j → (owns d.tr)[j]? = some lj → ¬ lj.ev.has .rd := by
    rintro r ⟨d', q, g1, ⟨⟨ev, g2, g3⟩, g4⟩, rfl⟩
    obtain rfl : d' = d := by simpa using g1.symm.trans h.item
    rw [List.getElem?_map] at g2
    obtain ⟨lq, g5, rfl⟩ := Option.map_eq_some_iff.1 g2
    refine ⟨q, lq, g5, g3, rfl, ?_, fun j lj hj hlj hh => g4 j hj ⟨lj.ev, by rw [List.getElem?_map, hlj]; rfl, hh⟩⟩
    refine Nat.le_of_not_lt fun hq => ?_
    have := hp.after q lq hq g5
    rw [Ev.has_access g3] at this; cases this
  rcases hp.kinds with ⟨ac, hev⟩ | ⟨ac, hev⟩ | ⟨⟨ac, hev⟩, hno | ⟨hsc, i, l, acc, hi, hl, hll, hlev, hbetween, hsame⟩⟩
  · rw [hev] at hw; cases hw
  · have hat : X.At ⟨t, off (items t) k + p, .rd⟩ o := H.at_pos h.item hp.get (by rw [hev]; trivial)
    have hat' : X.At ⟨t, off (items t) k + p, .wr⟩ o := H.at_pos h.item hp.get (by rw [hev]; trivial)
    have hn' : n = ⟨t, off (items t) k + p, .wr⟩ := by rw [hn]; simp [ptKind, hw]
    refine ⟨p, o, o.reads, hp.get, by rw [hev]; trivial, by rw [hn]; exact Nat.le_refl _, fun _ _ h => h, ?_, ?_, .inl ⟨ac, hev⟩⟩
    · rw [hn']; exact H.ax.rmw t _ o hat hat'
    · intro r hr
      obtain ⟨q, lq, g1, g2, rfl, g3, g4⟩ := last r hr
      have : q = p := Nat.le_antisymm g3 (Nat.le_of_not_lt fun hq => g4 p o hq hp.get (by rw [hev]; trivial))
      rw [this]
  · exact absurd hr (hno _)
  · have hat : X.At ⟨t, off (items t) k + i, .rd⟩ l := H.at_pos h.item hl (by rw [hlev]; trivial)
    have hat' : X.At ⟨t, off (items t) k + p, .wr⟩ o := H.at_pos h.item hp.get (by rw [hev]; trivial)
    have hn' : n = ⟨t, off (items t) k + p, .wr⟩ := by rw [hn]; simp [ptKind, hw]
    have hbtw : ∀ q o', i < q → q < p → (owns d.tr)[q]? = some o' → o'.ins.isLL = false := hbetween
    refine ⟨i, l, o.writes, hl, by rw [hlev]; trivial, by rw [hn]; simp only; omega, fun _ h _ => h, ?_, ?_, .inr hsc⟩
    · rw [hn']
      refine H.ax.llsc t _ _ l o (by omega) hat hat' hll hsc ?_
      intro q o' hq hq' ho'
      obtain ⟨j, rfl⟩ := Nat.exists_eq_add_of_le (show off (items t) k ≤ q by omega)
      have hj : j < (owns d.tr).length := by
        have := (List.getElem?_eq_some_iff.1 hp.get).1; omega
      have hget := item_get h.item (it := .op d) (q := j) (o := (owns d.tr)[j]) (by simp [Item.code])
      rw [H.po] at ho'
      have : o' = (owns d.tr)[j] := by simpa using ho'.symm.trans hget
      subst this
      exact hbtw j _ (by omega) (by omega) (by simp)
    · intro r hr
      obtain ⟨q, lq, g1, g2, rfl, g3, g4⟩ := last r hr
      have hge : i ≤ q := Nat.le_of_not_lt fun hq => g4 i l hq hl (by rw [hlev]; trivial)
      have hne : q ≠ p := by
        rintro rfl
        obtain rfl : lq = o := by simpa using g1.symm.trans hp.get
        rw [hev] at g2; exact g2
      have hLL := Done.paired H.paired (H.ok t d hm) (List.mem_of_getElem? g1) (List.mem_of_getElem? hp.get) hsc g2
      rcases Nat.lt_or_eq_of_le hge with hlt | rfl
      · have := hbtw q lq hlt (by omega) g1
        rw [hLL] at this; cases this
      · rfl

omit H in
theorem IsLast.unique {t k : Nat} {kd : AKind} {n n' : Node} (h : IsLast items t k kd n) (h' : IsLast items t k kd n') : n = n' := by
  obtain ⟨d, q, h1, h2, rfl⟩ := h
  obtain ⟨d', q', h1', h2', rfl⟩ := h'
  obtain rfl : d = d' := by simpa using h1.symm.trans h1'
  rw [h2.unique h2']

/-- what an acquiring operation reads precedes everything later -/
theorem SySetup.acquire {t k : Nat} {d : Done W} {r : Node} (h : (items t)[k]? = some (.op d)) (ha : d.Acquires)
    (hr : IsLast items t k .rd r) {q : Nat} {kd : AKind} {o : Own W} (hq : X.At ⟨t, q, kd⟩ o) (hle : off (items t) (k + 1) ≤ q) :
    X.rank r < X.rank ⟨t, q, kd⟩ ∧ ∀ o', X.At r o' → (o'.ev.acc.aq = true ∨ o'.ev.acc.full = true) ∨
      ∀ i oi, i ≤ r.pos → X.At ⟨t, i, .rd⟩ oi → X.rank ⟨t, i, .rd⟩ < X.rank ⟨t, q, kd⟩ := by
  have hok := H.ok t d (List.mem_of_getElem? h)
  have hRF : ReadsFirst A.imp (d.tr.map LEv.erase) := by
    rcases Done.acquireRun hok ha with ha | ha
    · exact H.ord.acquire _ ha
    · exact H.ord.failure _ ha
  obtain ⟨pre, post, e1, e2, e3⟩ := H.around h
  obtain ⟨d', n, g1, g2, rfl⟩ := hr
  obtain rfl : d = d' := by simpa using h.symm.trans g1
  rw [← ownEvs_erase] at g2
  have hqe : (pre ++ ownEvs (d.tr.map LEv.erase) ++ post)[q]? = some o.ev := by
    rw [← e1, List.getElem?_map, hq.1]; rfl
  have hacc : Access post (q - off (items t) (k + 1)) kd := by
    refine ⟨o.ev, ?_, hq.2⟩
    rw [List.getElem?_append_right (by omega), e3] at hqe
    exact hqe
  constructor
  · obtain ⟨n', hn', hP⟩ := hRF
    obtain rfl := g2.unique hn'
    have := hP pre post _ kd hacc
    rw [← e1, e3, e2, Nat.add_sub_cancel' hle] at this
    exact H.ax.ppo _ _ _ _ _ this
  · intro o' ho'
    obtain ⟨n', ev, hn', hev, hw⟩ := hRF.why
    obtain rfl := g2.unique hn'
    have hlen : n < (ownEvs (d.tr.map LEv.erase)).length := (List.getElem?_eq_some_iff.1 hev).1
    have : o'.ev = ev := by
      have h1 : (pre ++ ownEvs (d.tr.map LEv.erase) ++ post)[off (items t) k + n]? = some o'.ev := by
        rw [← e1, List.getElem?_map, ho'.1]; rfl
      rw [List.append_assoc, List.getElem?_append_right (by omega), e2, Nat.add_sub_cancel_left,
        List.getElem?_append_left hlen, hev] at h1
      simpa using h1.symm
    rw [this]
    refine hw.imp id fun hw i oi hi hoi => ?_
    simp only at hi
    refine H.ax.ppo _ _ _ _ _ ⟨?_, oi.ev, o.ev, ?_, ?_, hoi.2, hq.2, ?_⟩
    · have : off (items t) k + n < off (items t) (k + 1) := by rw [← e3, List.length_append, e2]; omega
      omega
    · rw [List.getElem?_map, hoi.1]; rfl
    · rw [List.getElem?_map, hq.1]; rfl
    · rcases hw kd with hw | ⟨f, p, h1, h2, h3⟩
      · exact .inl hw
      · have hf : f < (ownEvs (d.tr.map LEv.erase)).length := (List.getElem?_eq_some_iff.1 h2).1
        have : off (items t) k + f < off (items t) (k + 1) := by rw [← e3, List.length_append, e2]; omega
        refine .inr (.inl ⟨off (items t) k + f, p, by omega, by omega, ?_, h3⟩)
        rw [e1, List.append_assoc, List.getElem?_append_right (by omega), e2, Nat.add_sub_cancel_left,
          List.getElem?_append_left hf]
        exact h2

/-- the write of a releasing operation follows everything earlier -/
theorem SySetup.release {t k : Nat} {d : Done W} {w : Node} (h : (items t)[k]? = some (.op d)) (ha : d.Releases)
    (hw : IsLast items t k .wr w) {p : Nat} {kd : AKind} {o : Own W} (hp : X.At ⟨t, p, kd⟩ o) (hlt : p < off (items t) k) :
    X.rank ⟨t, p, kd⟩ < X.rank w := by
  have hok := H.ok t d (List.mem_of_getElem? h)
  obtain ⟨n', hn', hP⟩ := H.ord.release _ (Done.releaseRun hok ha)
  obtain ⟨pre, post, e1, e2, e3⟩ := H.around h
  obtain ⟨d', n, g1, g2, rfl⟩ := hw
  obtain rfl : d = d' := by simpa using h.symm.trans g1
  rw [← ownEvs_erase] at g2
  obtain rfl := g2.unique hn'
  have hpe : (pre ++ ownEvs (d.tr.map LEv.erase) ++ post)[p]? = some o.ev := by
    rw [← e1, List.getElem?_map, hp.1]; rfl
  have := hP pre post p kd ⟨o.ev, by
    rw [List.append_assoc, List.getElem?_append_left (by omega)] at hpe; exact hpe, hp.2⟩
  rw [← e1, e2] at this
  exact H.ax.ppo _ _ _ _ _ this

/-- what synchronization gives: the write of the releasing operation precedes everything after the acquiring one, and the
acquiring one's own write if it also releases -/
theorem SySetup.sync {i k j l : Nat} (h : Sync X items i k j l) : ∃ d w0, (items i)[k]? = some (.op d) ∧ d.Releases ∧
    IsLast items i k .wr w0 ∧
    (∀ q kd o, X.At ⟨j, q, kd⟩ o → off (items j) (l + 1) ≤ q → X.rank w0 < X.rank ⟨j, q, kd⟩) ∧
    ∀ d' n', (items j)[l]? = some (.op d') → d'.Releases → IsLast items j l .wr n' → X.rank w0 < X.rank n' := by
  induction h with
  | trans h hlm h' ih ih' =>
    rename_i i k j l m t n
    obtain ⟨d, w0, h1, h2, h3, h4, h5⟩ := ih
    obtain ⟨d', w1, h1', h2', h3', h4', h5'⟩ := ih'
    have hlt : X.rank w0 < X.rank w1 := by
      rcases Nat.lt_or_eq_of_le hlm with hlm | rfl
      · obtain ⟨o, ho⟩ := H.isLast_at h3'
        obtain ⟨e1, e2, e3, e4⟩ := h3'.node
        obtain ⟨t1, p1, k1⟩ := w1
        simp only at e1
        subst e1
        exact h4 _ _ o ho (Nat.le_trans (off_mono (items t1) hlm) e3)
      · exact h5 d' w1 h1' h2' h3'
    exact ⟨d, w0, h1, h2, h3, fun q kd o ho hq => Nat.lt_trans hlt (h4' q kd o ho hq),
      fun d2 n2 g1 g2 g3 => Nat.lt_trans hlt (h5' d2 n2 g1 g2 g3)⟩
  | direct hij hd hrel hw0 hx hd' hacq hr hf hle hown =>
    rename_i i k j l d d' w0 w r x v
    refine ⟨d, w0, hd, hrel, hw0, ?_⟩
    obtain ⟨er1, er2, er3, er4⟩ := hr.node
    -- performed before the read
    have near : X.rank w < X.rank r → (∀ q kd o, X.At ⟨j, q, kd⟩ o → off (items j) (l + 1) ≤ q → X.rank w0 < X.rank ⟨j, q, kd⟩) ∧
        ∀ d' n', (items j)[l]? = some (.op d') → d'.Releases → IsLast items j l .wr n' → X.rank w0 < X.rank n' := by
      intro hlt
      refine ⟨fun q kd o ho hq => Nat.lt_of_le_of_lt hle (Nat.lt_trans hlt (H.acquire hd' hacq hr ho hq).1), ?_⟩
      intro d2 n2 g1 g2 g3
      obtain rfl : d' = d2 := by simpa using hd'.symm.trans g1
      obtain ⟨d3, o3, hp3, hw3⟩ := H.isLast_wr g3
      obtain rfl : d' = d3 := by simpa using hd'.symm.trans hp3.item
      obtain ⟨p3, hpt3, _⟩ := hp3.pt
      have hup := hpt3.reads_addr (Done.updates_of hacq g2) (H.size _ _ (List.mem_of_getElem? hd'))
      obtain ⟨i3, l3, F, _, _, _, _, hu, hl3, _⟩ := H.link hp3 hw3 hup
      rw [hl3 r hr] at hlt
      exact Nat.lt_of_le_of_lt hle (Nat.lt_trans hlt hu.1)
    by_cases hth : w.thread = j
    case neg =>
      refine near ?_
      rcases hf.2.2.1 with h | h
      · exact h
      · exact absurd (h.1.trans er1) hth
    case pos =>
      rcases hown with hown | ⟨u, du, hu1, hu2, hu3⟩
      · exact absurd hth hown
      rcases hf.2.2.1 with hvis | hvis
      · exact near hvis
      obtain ⟨du', ou, hpu, hwu⟩ := H.isLast_wr hu3
      obtain rfl : du = du' := by simpa using hu1.symm.trans hpu.item
      have hatw := H.isPt_at hpu
      obtain ⟨vw, _, ow, how, hwx, _⟩ := hf.2.1
      obtain rfl : ow = ou := by simpa using how.1.symm.trans hatw.1
      have hxr : ow.reads x := by
        obtain ⟨pu, hptu, _⟩ := hpu.pt
        exact hptu.reads_of hu2 (H.size _ _ (List.mem_of_getElem? hu1)).mod8 hwx
      obtain ⟨iu, lu, F, gl, grd, gpos, gF, gU, _, gkind⟩ := H.link hpu hwu hxr
      have hpl := hu3.node
      have hul : u < l := by
        rcases Nat.lt_trichotomy u l with h | rfl | h
        · exact h
        · obtain ⟨p, hp, hn⟩ := hpu.pt
          obtain ⟨d2, q, g1, ⟨⟨ev, g2, g3⟩, _⟩, rfl⟩ := hr
          obtain rfl : du = d2 := by simpa using hu1.symm.trans g1
          rw [List.getElem?_map] at g2
          obtain ⟨lq, g5, rfl⟩ := Option.map_eq_some_iff.1 g2
          rw [hn] at hvis
          simp only at hvis
          have := hp.after q lq (by omega) g5
          rw [Ev.has_access g3] at this; cases this
        · have := off_mono (items j) (show l + 1 ≤ u from h)
          omega
      obtain ⟨o0, ho0⟩ := H.isLast_at hw0
      have ht0 := hw0.node.1
      have hne : X.rank w0 ≠ X.rank w := fun hc => by
        have := H.ax.inj _ _ _ _ ho0 hatw hc
        rw [this, hth] at ht0
        exact hij ht0.symm
      have hr0 : X.At ⟨j, off (items j) u + iu, .rd⟩ lu := H.at_pos hu1 gl grd
      have hlt0 : X.rank w0 < X.rank ⟨j, off (items j) u + iu, .rd⟩ := by
        have h1 := gU.2 w0 x v (by rw [ht0]; exact hij) (gF x hwx hxr) hx
        rcases Nat.lt_trichotomy (X.rank w0) (X.rank ⟨j, off (items j) u + iu, .rd⟩) with h | h | h
        · exact h
        · have := H.ax.inj _ _ _ _ ho0 hr0 h
          rw [this] at ht0
          exact absurd ht0.symm hij
        · exact absurd ⟨h, by omega⟩ h1
      obtain ⟨orr, horr⟩ := H.isLast_at hr
      by_cases haq : orr.ev.acc.aq = true ∨ orr.ev.acc.full = true
      · exact near (H.fwd w r x orr ow hf hvis.1 horr how gkind haq)
      refine ⟨fun q kd o ho hq => ?_, fun d2 n2 g1 g2 g3 => ?_⟩
      · have := ((H.acquire hd' hacq hr ho hq).2 orr horr).resolve_left haq _ lu (by omega) hr0
        exact Nat.lt_trans hlt0 this
      · obtain ⟨tw, pw, kw⟩ := w
        simp only at hth hpl
        subst hth
        refine Nat.lt_of_le_of_lt hle (H.release g1 g2 g3 hatw ?_)
        have := off_mono (items tw) (show u + 1 ≤ l from hul)
        omega

theorem sySetup_conclude {i k j l : Nat} (h : Sync X items i k j l) (p q : Nat) (kd kd' : AKind) (o o' : Own W)
    (hp : X.At ⟨i, p, kd⟩ o) (hpk : p < off (items i) k) (hq : X.At ⟨j, q, kd'⟩ o') (hql : off (items j) (l + 1) ≤ q) :
    X.rank ⟨i, p, kd⟩ < X.rank ⟨j, q, kd'⟩ ∧
      ∀ x v w, X.WritesByte ⟨i, p, kd⟩ x v → X.From w ⟨j, q, kd'⟩ x → X.rank ⟨i, p, kd⟩ ≤ X.rank w := by
  obtain ⟨d, w0, h1, h2, h3, h4, _⟩ := H.sync h
  have hlt := Nat.lt_trans (H.release h1 h2 h3 hp hpk) (h4 q kd' o' hq hql)
  exact ⟨hlt, fun x v w hw hf => hf.2.2.2 _ v (.inl hlt) hw⟩
end

/-- C44, from the local specification of the operations, their orderings and the shape of their code. -/
theorem Backend.synchronizes {W : Nat} {A : Backend W} {P : Call → Prop} (hloc : A.LocalOps P) (hord : A.OrderingsOK)
    (hpair : A.Paired) : A.Synchronizes P := by
  intro X items hX hf hpo hops i k j l h
  exact sySetup_conclude ⟨⟨hpo, fun t d h => exists_point hloc (hops t d h).1 (hops t d h).2.1⟩, hX, hf,
    fun t d h => (hops t d h).1, fun t d h => (hops t d h).2.2, hord, hpair⟩ h

/-! ### A strong compare_exchange that may fail spuriously will do -/
section
variable {W : Nat}
theorem offset_weaken (L : List (Item W)) (k : Nat) : off (L.map Item.weaken) k = off L k := by
  simp only [off, ← List.map_take, List.flatMap_map]
  congr 1
  apply flatMap_congr_mem
  intro z _
  exact Item.weaken_code z
theorem get_weaken {L : List (Item W)} {k : Nat} {d : Done W} (h : L[k]? = some (.op d)) :
    (L.map Item.weaken)[k]? = some (.op d.weaken) := by rw [List.getElem?_map, h]; rfl
theorem IsLast.weaken {items : Nat → List (Item W)} {t k : Nat} {kd : AKind} {n : Node} (h : IsLast items t k kd n) :
    IsLast (fun t => (items t).map Item.weaken) t k kd n := by
  obtain ⟨d, q, h1, h2, rfl⟩ := h
  refine ⟨d.weaken, q, get_weaken h1, ?_, by rw [offset_weaken]⟩
  rw [Done.weaken_tr]; exact h2
theorem Sync.weaken {X : AxShape W} {items : Nat → List (Item W)} {i k j l : Nat} (h : Sync X items i k j l) :
    Sync X (fun t => (items t).map Item.weaken) i k j l := by
  induction h with
  | trans _ hlm _ ih ih' => exact ih.trans hlm ih'
  | direct hij hd hrel hw0 hx hd' hacq hr hf hle hown =>
    rename_i i k j l d d' w0 w r x v
    refine .direct hij (get_weaken hd) ?_ hw0.weaken hx (get_weaken hd') ?_ hr.weaken hf hle (hown.imp id ?_)
    · obtain ⟨c, B, tr, rs⟩ := d; cases c <;> exact hrel
    · obtain ⟨c, B, tr, rs⟩ := d'; cases c <;> exact hacq
    · rintro ⟨u, du, h1, h2, h3⟩
      refine ⟨u, du.weaken, get_weaken h1, ?_, h3.weaken⟩
      rw [Done.weaken_call]
      generalize du.call = c at h2
      cases c <;> exact h2
theorem Backend.Paired.weakened {A : Backend W} (h : A.Paired) : A.weakened.Paired := by
  intro c B hB
  cases c with
  | load o w a => exact h (.load o w a) B hB
  | store o w a v => exact h (.store o w a v) B hB
  | swap o w a v => exact h (.swap o w a v) B hB
  | cas s f w a old new => exact hB.elim
  | casWeak s f w a old new =>
    rcases hB with hB | hB
    · exact h (.cas s f w a old new) B hB
    · exact h (.casWeak s f w a old new) B hB
end

/-- The form used for the back ends. -/
theorem Good.synchronizes {W : Nat} {A : Backend W} {sc : List Mon} (h : Good A sc) (hpair : A.Paired) :
    A.Synchronizes fun _ => True := by
  have hw : A.weakened.Synchronizes fun _ => True :=
    Backend.synchronizes (h.weakened.localOps (P := fun _ => True) fun _ _ _ _ _ _ _ _ hB => hB.elim)
      (Backend.orderingsOK h.weakened.acquireOK h.weakened.releaseOK h.weakened.seqCstOK h.weakened.failureOK) hpair.weakened
  intro X items hX hf hpo hops i k j l hs p q kd kd' o o' hp hpk hq hql
  refine hw X (fun t => (items t).map Item.weaken) hX hf ?_ ?_ i k j l hs.weaken p q kd kd' o o' hp ?_ hq ?_
  · intro t
    rw [hpo, List.flatMap_map]
    apply flatMap_congr_mem
    intro z _
    exact (Item.weaken_code z).symm
  · intro t d hd
    obtain ⟨z, hz, he⟩ := List.mem_map.1 hd
    cases z with
    | other => cases he
    | op d' =>
      injection he with he
      subst he
      obtain ⟨h1, _, h2⟩ := hops t d' hz
      refine ⟨Done.weaken_ok h1, trivial, ?_⟩
      rw [Done.weaken_call]
      generalize d'.call = c at h2
      cases c <;> exact h2
  · rw [offset_weaken]; exact hpk
  · rw [offset_weaken]; exact hql

end Verif
