/-
Proof of C53 (Weak/Fence.lean).
-/
import Verif.Weak.Fence

namespace Verif
section
variable {W : Nat} {A : Backend W} {X : AxShape W} {items : Nat → List (Item W)}

theorem Done.Acquires.reads {d : Done W} (h : d.Acquires) : d.call.Reads := by
  obtain ⟨c, B, tr, rs⟩ := d
  cases c <;> first | trivial | exact h.elim

theorem Call.Reads.not_overwrites {c : Call} (h : c.Reads) (x : Nat) : ¬ c.Overwrites x := by
  cases c <;> first | exact id | exact h.elim

/-- an operation that reads reads the object -/
theorem Point.reads_addr' {e : Endian} {d : Done W} {p : Nat} {o : Own W} (h : Point e d p o) (hc : d.call.Reads)
    (hw : IsSize d.call.width) : o.reads d.call.addr := by
  refine Classical.byContradiction fun hn => ?_
  have s1 := h.sem o.m (Agree.refl _ _ _)
  have s2 := h.sem (flip o.m d.call.addr) (flip_agree hn)
  exact flip_ne o.m _ (Call.Sem.reads (hc.not_overwrites _) hw.mod8 s1 s2 (Nat.le_refl _) (by have := hw.pos; omega)).symm

/-- a fence orders what is before it and what is after it -/
theorem Prog.fence (H : Prog A X items) {t f : Nat} {k k' : AKind} (h : FenceAt A.imp items t f k k') {p q : Nat}
    {o o' : Own W} (hp : X.At ⟨t, p, k⟩ o) (hq : X.At ⟨t, q, k'⟩ o') (hpf : p < off (items t) f) (hqf : off (items t) (f + 1) ≤ q) :
    Ppo A.imp ((X.po t).map Own.ev) p k q k' := by
  have hm := off_mono (items t) (show f ≤ f + 1 by omega)
  refine ⟨by omega, o.ev, o'.ev, by rw [List.getElem?_map, hp.1]; rfl, by rw [List.getElem?_map, hq.1]; rfl, hp.2, hq.2, ?_⟩
  rcases h with h | ⟨of, pf, h1, h2, h3⟩
  · exact .inl h
  · refine .inr (.inl ⟨off (items t) f, pf, hpf, ?_, ?_, h3⟩)
    · rw [off_succ h1] at hqf
      simp only [Item.code, List.length_singleton] at hqf
      omega
    · rw [List.getElem?_map, H.po, ← h2]
      have := item_get h1 (it := .other of) (q := 0) (o := of) rfl
      rw [Nat.add_zero] at this
      rw [this]; rfl

/-- at an operation there is no barrier instruction -/
theorem FenceAt.implied {imp : Pairs} {t f : Nat} {k k' : AKind} (h : FenceAt imp items t f k k') {d : Done W}
    (hd : (items t)[f]? = some (.op d)) : imp.keeps k k' = true := by
  rcases h with h | ⟨of, pf, h1, _⟩
  · exact h
  · rw [hd] at h1; cases h1

theorem ppo_implied {L : List (Own W)} {imp : Pairs} {k k' : AKind} (h : imp.keeps k k' = true) {p q : Nat} {o o' : Own W}
    (hp : L[p]? = some o) (hk : o.ev.has k) (hq : L[q]? = some o') (hk' : o'.ev.has k') (hpq : p < q) :
    Ppo imp (L.map Own.ev) p k q k' :=
  ⟨hpq, o.ev, o'.ev, by rw [List.getElem?_map, hp]; rfl, by rw [List.getElem?_map, hq]; rfl, hk, hk', .inl h⟩

variable (H : SySetup A X items)
include H

/-- the write of an operation that publishes follows everything before -/
theorem SySetup.publish {t f k : Nat} {w : Node} (h : Publishes A.imp items t f k) (hw : IsLast items t k .wr w) {p : Nat} {kd : AKind}
    {o : Own W} (hp : X.At ⟨t, p, kd⟩ o) (hlt : p < off (items t) f) : X.rank ⟨t, p, kd⟩ < X.rank w := by
  rcases h with ⟨rfl, d, hd, hr⟩ | ⟨hfk, hF⟩
  · exact H.release hd hr hw hp hlt
  obtain ⟨ow, how⟩ := H.isLast_at hw
  obtain ⟨e1, e2, e3, e4⟩ := hw.node
  obtain ⟨t', pw, kw⟩ := w
  simp only at e1 e2 e3 e4
  subst e1 e2
  rcases Nat.lt_or_eq_of_le hfk with hfk | rfl
  · have := off_mono (items t') (show f + 1 ≤ k from hfk)
    exact H.ax.ppo _ _ _ _ _ (H.fence (hF kd) hp how hlt (by omega))
  · obtain ⟨d, _, hd, _⟩ := hw
    exact H.ax.ppo _ _ _ _ _ (ppo_implied ((hF kd).implied hd) hp.1 hp.2 how.1 how.2 (by omega))

/-- what an operation that receives reads precedes everything after; the same holds for all reads before it, unless it is an
annotated read -/
theorem SySetup.receive {t l g : Nat} {r : Node} (h : Receives A.imp items t l g) (hr : IsLast items t l .rd r) {q : Nat} {kd : AKind}
    {o : Own W} (hq : X.At ⟨t, q, kd⟩ o) (hle : off (items t) (g + 1) ≤ q) :
    X.rank r < X.rank ⟨t, q, kd⟩ ∧ ∀ o', X.At r o' → (o'.ev.acc.aq = true ∨ o'.ev.acc.full = true) ∨
      ∀ i oi, i ≤ r.pos → X.At ⟨t, i, .rd⟩ oi → X.rank ⟨t, i, .rd⟩ < X.rank ⟨t, q, kd⟩ := by
  rcases h with ⟨rfl, d, hd, ha⟩ | ⟨hlg, hF, d, hd, _⟩
  · exact H.acquire hd ha hr hq hle
  obtain ⟨or, hor⟩ := H.isLast_at hr
  obtain ⟨e1, e2, e3, e4⟩ := hr.node
  have all : ∀ i oi, i ≤ r.pos → X.At ⟨t, i, .rd⟩ oi → X.rank ⟨t, i, .rd⟩ < X.rank ⟨t, q, kd⟩ := by
    intro i oi hi hoi
    rcases Nat.lt_or_eq_of_le hlg with hlg | rfl
    · have := off_mono (items t) (show l + 1 ≤ g from hlg)
      exact H.ax.ppo _ _ _ _ _ (H.fence (hF kd) hoi hq (by omega) hle)
    · exact H.ax.ppo _ _ _ _ _ (ppo_implied ((hF kd).implied hd) hoi.1 hoi.2 hq.1 hq.2 (by omega))
  refine ⟨?_, fun _ _ => .inr all⟩
  obtain ⟨tr, pr, kr⟩ := r
  simp only at e1 e2
  subst e1 e2
  exact all pr or (Nat.le_refl _) hor

/-- what synchronization gives: the write that publishes precedes everything after the other item, and the write of the operation
that item is if it also publishes -/
theorem SySetup.fsync {i f j g : Nat} (h : FSync A.imp X items i f j g) : ∃ k w0, Publishes A.imp items i f k ∧
    IsLast items i k .wr w0 ∧
    (∀ q kd o, X.At ⟨j, q, kd⟩ o → off (items j) (g + 1) ≤ q → X.rank w0 < X.rank ⟨j, q, kd⟩) ∧
    ∀ n', Publishes A.imp items j g g → IsLast items j g .wr n' → X.rank w0 < X.rank n' := by
  induction h with
  | trans h hgm h' ih ih' =>
    rename_i i f j g m t n
    obtain ⟨k, w0, h1, h2, h3, h4⟩ := ih
    obtain ⟨k', w1, h1', h2', h3', h4'⟩ := ih'
    have hmk : m ≤ k' := by rcases h1' with ⟨rfl, _⟩ | ⟨h, _⟩ <;> omega
    have hlt : X.rank w0 < X.rank w1 := by
      rcases Nat.lt_or_eq_of_le (Nat.le_trans hgm hmk) with hlm | rfl
      · obtain ⟨o, ho⟩ := H.isLast_at h2'
        obtain ⟨e1, e2, e3, e4⟩ := h2'.node
        obtain ⟨t1, p1, k1⟩ := w1
        simp only at e1
        subst e1
        exact h3 _ _ o ho (Nat.le_trans (off_mono (items t1) hlm) e3)
      · obtain rfl : m = g := by omega
        exact h4 w1 h1' h2'
    exact ⟨k, w0, h1, h2, fun q kd o ho hq => Nat.lt_trans hlt (h3' q kd o ho hq),
      fun n' a b => Nat.lt_trans hlt (h4' n' a b)⟩
  | direct hij hrel hw0 hx hacq hr hf hle hown =>
    rename_i i f k j l g w0 w r x v
    refine ⟨k, w0, hrel, hw0, ?_⟩
    obtain ⟨er1, er2, er3, er4⟩ := hr.node
    obtain ⟨orr, horr⟩ := H.isLast_at hr
    obtain ⟨dl, hdl, hrd⟩ : ∃ d, (items j)[l]? = some (.op d) ∧ d.call.Reads := by
      rcases hacq with ⟨_, d, hd, ha⟩ | ⟨_, _, d, hd, ha⟩
      · exact ⟨d, hd, ha.reads⟩
      · exact ⟨d, hd, ha⟩
    have hlg : l ≤ g := by rcases hacq with ⟨rfl, _⟩ | ⟨h, _⟩ <;> omega
    -- a later operation that is the receiving item: only where reads precede writes anyway
    have later : l < g → ∀ n', IsLast items j g .wr n' → ∀ p o, X.At ⟨j, p, .rd⟩ o → p ≤ r.pos → X.rank ⟨j, p, .rd⟩ < X.rank n' := by
      intro hlt n' hn' p o hp hpr
      rcases hacq with ⟨rfl, _⟩ | ⟨_, hF, _⟩
      · omega
      obtain ⟨on, hon⟩ := H.isLast_at hn'
      obtain ⟨f1, f2, f3, f4⟩ := hn'.node
      obtain ⟨dn, _, hdn, _⟩ := hn'
      obtain ⟨tn, pn, kn⟩ := n'
      simp only at f1 f2 f3
      subst f1 f2
      have := off_mono (items tn) (show l + 1 ≤ g from hlt)
      exact H.ax.ppo _ _ _ _ _ (ppo_implied ((hF .wr).implied hdn) hp.1 hp.2 hon.1 hon.2 (by omega))
    -- performed before the read
    have near : X.rank w < X.rank r → (∀ q kd o, X.At ⟨j, q, kd⟩ o → off (items j) (g + 1) ≤ q → X.rank w0 < X.rank ⟨j, q, kd⟩) ∧
        ∀ n', Publishes A.imp items j g g → IsLast items j g .wr n' → X.rank w0 < X.rank n' := by
      intro hlt
      refine ⟨fun q kd o ho hq => Nat.lt_of_le_of_lt hle (Nat.lt_trans hlt (H.receive hacq hr ho hq).1), ?_⟩
      intro n2 g2 g3
      rcases Nat.lt_or_eq_of_le hlg with hlg | rfl
      · refine Nat.lt_of_le_of_lt hle (Nat.lt_trans hlt ?_)
        have := later hlg n2 g3 r.pos orr (by rw [← er1, ← er2]; exact horr) (Nat.le_refl _)
        rw [← er1, ← er2] at this
        exact this
      obtain ⟨d3, o3, hp3, hw3⟩ := H.isLast_wr g3
      obtain rfl : dl = d3 := by simpa using hdl.symm.trans hp3.item
      obtain ⟨p3, hpt3, _⟩ := hp3.pt
      have hup := hpt3.reads_addr' hrd (H.size _ _ (List.mem_of_getElem? hdl))
      obtain ⟨i3, l3, F, _, _, _, _, hu, hl3, _⟩ := H.link hp3 hw3 hup
      rw [hl3 r hr] at hlt
      exact Nat.lt_of_le_of_lt hle (Nat.lt_trans hlt hu.1)
    by_cases hth : w.thread = j
    case neg =>
      refine near ?_
      rcases hf.2.2.1 with h | h
      · exact h
      · exact absurd (h.1.trans er1) hth
    case pos =>
      rcases hown with hown | ⟨u, du, hu1, hu2, hu3⟩
      · exact absurd hth hown
      rcases hf.2.2.1 with hvis | hvis
      · exact near hvis
      obtain ⟨du', ou, hpu, hwu⟩ := H.isLast_wr hu3
      obtain rfl : du = du' := by simpa using hu1.symm.trans hpu.item
      have hatw := H.isPt_at hpu
      obtain ⟨vw, _, ow, how, hwx, _⟩ := hf.2.1
      obtain rfl : ow = ou := by simpa using how.1.symm.trans hatw.1
      have hxr : ow.reads x := by
        obtain ⟨pu, hptu, _⟩ := hpu.pt
        exact hptu.reads_of hu2 (H.size _ _ (List.mem_of_getElem? hu1)).mod8 hwx
      obtain ⟨iu, lu, F, gl, grd, gpos, gF, gU, _, gkind⟩ := H.link hpu hwu hxr
      have hpl := hu3.node
      have hul : u < l := by
        rcases Nat.lt_trichotomy u l with h | rfl | h
        · exact h
        · obtain ⟨p, hp, hn⟩ := hpu.pt
          obtain ⟨d2, q, g1, ⟨⟨ev, g2, g3⟩, _⟩, rfl⟩ := hr
          obtain rfl : du = d2 := by simpa using hu1.symm.trans g1
          rw [List.getElem?_map] at g2
          obtain ⟨lq, g5, rfl⟩ := Option.map_eq_some_iff.1 g2
          rw [hn] at hvis
          simp only at hvis
          have := hp.after q lq (by omega) g5
          rw [Ev.has_access g3] at this; cases this
        · have := off_mono (items j) (show l + 1 ≤ u from h)
          omega
      obtain ⟨o0, ho0⟩ := H.isLast_at hw0
      have ht0 := hw0.node.1
      have hr0 : X.At ⟨j, off (items j) u + iu, .rd⟩ lu := H.at_pos hu1 gl grd
      have hlt0 : X.rank w0 < X.rank ⟨j, off (items j) u + iu, .rd⟩ := by
        have hne : X.rank w0 ≠ X.rank w := fun hc => by
          have := H.ax.inj _ _ _ _ ho0 hatw hc
          rw [this, hth] at ht0
          exact hij ht0.symm
        have h1 := gU.2 w0 x v (by rw [ht0]; exact hij) (gF x hwx hxr) hx
        rcases Nat.lt_trichotomy (X.rank w0) (X.rank ⟨j, off (items j) u + iu, .rd⟩) with h | h | h
        · exact h
        · have := H.ax.inj _ _ _ _ ho0 hr0 h
          rw [this] at ht0
          exact absurd ht0.symm hij
        · exact absurd ⟨h, by omega⟩ h1
      by_cases haq : orr.ev.acc.aq = true ∨ orr.ev.acc.full = true
      · exact near (H.fwd w r x orr ow hf hvis.1 horr how gkind haq)
      refine ⟨fun q kd o ho hq => ?_, fun n2 g2 g3 => ?_⟩
      · have := ((H.receive hacq hr ho hq).2 orr horr).resolve_left haq _ lu (by omega) hr0
        exact Nat.lt_trans hlt0 this
      · rcases Nat.lt_or_eq_of_le hlg with hlg | rfl
        · exact Nat.lt_trans hlt0 (later hlg n2 g3 _ lu hr0 (by omega))
        · obtain ⟨tw, pw, kw⟩ := w
          simp only at hth hpl
          subst hth
          refine Nat.lt_of_le_of_lt hle (H.publish g2 g3 hatw ?_)
          have := off_mono (items tw) (show u + 1 ≤ l from hul)
          omega

theorem SySetup.fconclude {i f j g : Nat} (h : FSync A.imp X items i f j g) (p q : Nat) (kd kd' : AKind) (o o' : Own W)
    (hp : X.At ⟨i, p, kd⟩ o) (hpk : p < off (items i) f) (hq : X.At ⟨j, q, kd'⟩ o') (hql : off (items j) (g + 1) ≤ q) :
    X.rank ⟨i, p, kd⟩ < X.rank ⟨j, q, kd'⟩ ∧
      ∀ x v w, X.WritesByte ⟨i, p, kd⟩ x v → X.From w ⟨j, q, kd'⟩ x → X.rank ⟨i, p, kd⟩ ≤ X.rank w := by
  obtain ⟨k, w0, h1, h2, h3, _⟩ := H.fsync h
  have hlt := Nat.lt_trans (H.publish h1 h2 hp hpk) (h3 q kd' o' hq hql)
  exact ⟨hlt, fun x v w hw hf => hf.2.2.2 _ v (.inl hlt) hw⟩
end

/-- C53, from the local specification of the operations, their orderings and the shape of their code. -/
theorem Backend.fencesSynchronize {W : Nat} {A : Backend W} {P : Call → Prop} (hloc : A.LocalOps P) (hord : A.OrderingsOK)
    (hpair : A.Paired) : A.FencesSynchronize P := by
  intro X items hX hf hpo hops i k j l h
  exact SySetup.fconclude ⟨⟨hpo, fun t d h => exists_point hloc (hops t d h).1 (hops t d h).2.1⟩, hX, hf,
    fun t d h => (hops t d h).1, fun t d h => (hops t d h).2.2, hord, hpair⟩ h

/-! ### A strong compare_exchange that may fail spuriously will do -/
section
variable {W : Nat} {imp : Pairs} {items : Nat → List (Item W)}
theorem Done.weaken_releases {d : Done W} (h : d.Releases) : d.weaken.Releases := by
  obtain ⟨c, B, tr, rs⟩ := d; cases c <;> exact h
theorem Done.weaken_acquires {d : Done W} (h : d.Acquires) : d.weaken.Acquires := by
  obtain ⟨c, B, tr, rs⟩ := d; cases c <;> exact h
theorem Done.weaken_reads {d : Done W} (h : d.call.Reads) : d.weaken.call.Reads := by
  obtain ⟨c, B, tr, rs⟩ := d; cases c <;> exact h
theorem FenceAt.weaken {t f : Nat} {k k' : AKind} (h : FenceAt imp items t f k k') :
    FenceAt imp (fun t => (items t).map Item.weaken) t f k k' := by
  refine h.imp id ?_
  rintro ⟨o, p, h1, h2, h3⟩
  exact ⟨o, p, by rw [List.getElem?_map, h1]; rfl, h2, h3⟩
theorem Publishes.weaken {t f k : Nat} (h : Publishes imp items t f k) : Publishes imp (fun t => (items t).map Item.weaken) t f k := by
  rcases h with ⟨h, d, hd, hr⟩ | ⟨h, hF⟩
  · exact .inl ⟨h, d.weaken, get_weaken hd, Done.weaken_releases hr⟩
  · exact .inr ⟨h, fun kd => (hF kd).weaken⟩
theorem Receives.weaken {t l g : Nat} (h : Receives imp items t l g) : Receives imp (fun t => (items t).map Item.weaken) t l g := by
  rcases h with ⟨h, d, hd, hr⟩ | ⟨h, hF, d, hd, hr⟩
  · exact .inl ⟨h, d.weaken, get_weaken hd, Done.weaken_acquires hr⟩
  · exact .inr ⟨h, fun kd => (hF kd).weaken, d.weaken, get_weaken hd, Done.weaken_reads hr⟩
theorem FSync.weaken {X : AxShape W} {i f j g : Nat} (h : FSync imp X items i f j g) :
    FSync imp X (fun t => (items t).map Item.weaken) i f j g := by
  induction h with
  | trans _ hlm _ ih ih' => exact ih.trans hlm ih'
  | direct hij hrel hw0 hx hacq hr hf hle hown =>
    refine .direct hij hrel.weaken hw0.weaken hx hacq.weaken hr.weaken hf hle (hown.imp id ?_)
    rintro ⟨u, du, h1, h2, h3⟩
    refine ⟨u, du.weaken, get_weaken h1, ?_, h3.weaken⟩
    rw [Done.weaken_call]
    generalize du.call = c at h2
    cases c <;> exact h2
end

/-- The form used for the back ends. -/
theorem Good.fencesSynchronize {W : Nat} {A : Backend W} {sc : List Mon} (h : Good A sc) (hpair : A.Paired) :
    A.FencesSynchronize fun _ => True := by
  have hw : A.weakened.FencesSynchronize fun _ => True :=
    Backend.fencesSynchronize (h.weakened.localOps (P := fun _ => True) fun _ _ _ _ _ _ _ _ hB => hB.elim)
      (Backend.orderingsOK h.weakened.acquireOK h.weakened.releaseOK h.weakened.seqCstOK h.weakened.failureOK) hpair.weakened
  intro X items hX hf hpo hops i k j l hs p q kd kd' o o' hp hpk hq hql
  refine hw X (fun t => (items t).map Item.weaken) hX hf ?_ ?_ i k j l hs.weaken p q kd kd' o o' hp ?_ hq ?_
  · intro t
    rw [hpo, List.flatMap_map]
    apply flatMap_congr_mem
    intro z _
    exact (Item.weaken_code z).symm
  · intro t d hd
    obtain ⟨z, hz, he⟩ := List.mem_map.1 hd
    cases z with
    | other => cases he
    | op d' =>
      injection he with he
      subst he
      obtain ⟨h1, _, h2⟩ := hops t d' hz
      refine ⟨Done.weaken_ok h1, trivial, ?_⟩
      rw [Done.weaken_call]
      generalize d'.call = c at h2
      cases c <;> exact h2
  · rw [offset_weaken]; exact hpk
  · rw [offset_weaken]; exact hql

end Verif
