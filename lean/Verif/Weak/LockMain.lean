/- Proof of C48, continued: from executions to sequences of operations on the lock. -/
import Verif.Weak.LockProof

namespace Verif
variable {W : Nat}

theorem pairwise_threads {α : Type} {R : Nat × α → Nat × α → Prop} : ∀ {l : List (Nat × α)}, (∀ t, (ofThread t l).Pairwise R) →
    l.Pairwise fun x y => x.1 = y.1 → R x y := by
  intro l
  induction l with
  | nil => intro _; exact .nil
  | cons x l ih =>
    intro h
    have sub : ∀ t, (ofThread t l).Sublist (ofThread t (x :: l)) := fun t => (List.sublist_cons_self x l).filter _
    refine List.pairwise_cons.2 ⟨fun y hy he => ?_, ih fun t => (h t).sublist (sub t)⟩
    have h1 := h x.1
    have h2 : ofThread x.1 (x :: l) = x :: ofThread x.1 l := by simp [ofThread]
    rw [h2] at h1
    exact (List.pairwise_cons.1 h1).1 y (List.mem_filter.2 ⟨hy, by simp [he]⟩)

/-- an operation other than a store reads its object -/
theorem Point.reads_in {e : Endian} {d : Done W} {p : Nat} {o : Own W} (h : Point e d p o) {x : Nat} (hc : ¬ d.call.Overwrites x)
    (hw : d.call.width % 8 = 0) (h1 : d.call.addr ≤ x) (h2 : x < d.call.addr + d.call.width / 8) : o.reads x := by
  refine Classical.byContradiction fun hn => ?_
  have s1 := h.sem o.m (Agree.refl _ _ _)
  have s2 := h.sem (flip o.m x) (flip_agree hn)
  exact flip_ne o.m x (Call.Sem.reads hc hw s1 s2 h1 h2).symm

/-- the lock is taken: it was free, now it is not -/
theorem Call.Sem.taken {e : Endian} {c : Call} {M M' : Mem} {r : Ret} {w a : Nat} (hw : w % 8 = 0) (h : c.Sem e M M' r) (hon : c.On w a)
    (h1 : c.TriesLock) (h2 : r.Taken) : Verif.load e M a w = 0 ∧ Verif.load e M' a w ≠ 0 := by
  obtain ⟨rfl, rfl⟩ := hon
  cases c with
  | load => exact h1.elim
  | store => exact h1.elim
  | swap o w a v =>
    obtain ⟨x, ⟨hx, rfl⟩, rfl⟩ := h
    refine ⟨hx.symm.trans h2, ?_⟩
    simp only [Call.width, Call.addr] at *
    rw [load_store hw]; exact h1.2
  | cas s f w a old new =>
    obtain ⟨x, ok, ⟨hx, hc⟩, rfl⟩ := h
    rcases hc with ⟨g, _, rfl⟩ | ⟨_, rfl, _⟩
    · refine ⟨g.trans h1.2.1, ?_⟩
      simp only [Call.width, Call.addr] at *
      rw [load_store hw]; exact h1.2.2
    · cases h2
  | casWeak s f w a old new =>
    obtain ⟨x, ok, ⟨hx, hc⟩, rfl⟩ := h
    rcases hc with ⟨g, _, rfl⟩ | ⟨rfl, _⟩
    · refine ⟨g.trans h1.2.1, ?_⟩
      simp only [Call.width, Call.addr] at *
      rw [load_store hw]; exact h1.2.2
    · cases h2

theorem Call.TriesLock.not_overwrites {c : Call} (h : c.TriesLock) (x : Nat) : ¬ c.Overwrites x := by
  cases c <;> first | exact False.elim h | exact id

theorem Done.acquires_of {d : Done W} (h1 : d.call.TriesLock) (h2 : d.ret.Taken) : d.Acquires := by
  obtain ⟨c, B, tr, rs⟩ := d
  cases c with
  | load => exact h1.elim
  | store => exact h1.elim
  | swap => exact h1.1
  | cas s f w a old new =>
    have h2 : B.ok rs = true := h2
    show (if B.ok rs then s else f).acquires = true
    rw [h2]; exact h1.1
  | casWeak s f w a old new =>
    have h2 : B.ok rs = true := h2
    show (if B.ok rs then s else f).acquires = true
    rw [h2]; exact h1.1
theorem Done.releases_of {d : Done W} (h1 : d.call.Unlocks) : d.Releases := by
  obtain ⟨c, B, tr, rs⟩ := d
  cases c <;> first | exact False.elim h1 | exact h1.1

/-- the accesses that matter exist -/
theorem isLast_wr_of {A : Backend W} (hord : A.OrderingsOK) {items : Nat → List (Item W)} {t k : Nat} {d : Done W} (hd : (items t)[k]? = some (.op d))
    (hok : d.OK A) (hr : d.Releases) : ∃ n, IsLast items t k .wr n := by
  obtain ⟨n, hn, _⟩ := hord.release _ (Done.releaseRun hok hr)
  rw [ownEvs_erase] at hn
  exact ⟨_, d, n, hd, hn, rfl⟩
theorem isLast_rd_of {A : Backend W} (hord : A.OrderingsOK) {items : Nat → List (Item W)} {t k : Nat} {d : Done W} (hd : (items t)[k]? = some (.op d))
    (hok : d.OK A) (hr : d.Acquires) : ∃ n, IsLast items t k .rd n := by
  have hRF : ReadsFirst A.imp (d.tr.map LEv.erase) := by
    rcases Done.acquireRun hok hr with ha | ha
    · exact hord.acquire _ ha
    · exact hord.failure _ ha
  obtain ⟨n, hn, _⟩ := hRF
  rw [ownEvs_erase] at hn
  exact ⟨_, d, n, hd, hn, rfl⟩

section
open Classical
variable {A : Backend W} {X : AxShape W} {rf : Node → Nat → Option Node} {items : Nat → List (Item W)}
  {w a : Nat} (H : CSetup A X rf items w a)
include H

/-- what an operation other than a store that writes has read -/
theorem CSetup.lastRead (hpair : A.Paired) {t k : Nat} {d : Done W} {n : Node} {o : Own W} (h : IsPt A.e items t k d n o) (hok : d.OK A)
    (hon : d.call.On w a) (hno : ∀ x, ¬ d.call.Overwrites x) (hwr : o.ev.isWrite = true) {r : Node} (hr : IsLast items t k .rd r) :
    ∃ l, X.At r l ∧ l.Natural ∧ (∀ y, a ≤ y → y < a + w / 8 → l.reads y ∧ l.m y = o.m y) ∧ X.Follows (fun _ => True) a (rf r a) n := by
  obtain ⟨p, hp, hn⟩ := h.pt
  have hw := H.size.mod8
  have hpos := H.size.pos
  have hon' := hon
  obtain ⟨hw', ha'⟩ := hon'
  have hrd : ∀ y, a ≤ y → y < a + w / 8 → o.reads y := fun y g1 g2 =>
    hp.reads_in (hno y) (by rw [hw']; exact hw) (by rw [ha']; exact g1) (by rw [hw', ha']; exact g2)
  obtain ⟨i, l, hl, hlrd, hnat, hsame, hF, hkind⟩ := H.follows h (Nat.le_refl a) (by omega) (hrd a (Nat.le_refl a) (by omega)) hwr
  obtain ⟨d', q, g1, ⟨⟨ev, g2, g3⟩, g4⟩, rfl⟩ := hr
  obtain rfl : d' = d := by simpa using g1.symm.trans h.item
  rw [List.getElem?_map] at g2
  obtain ⟨lq, g5, rfl⟩ := Option.map_eq_some_iff.1 g2
  have hq : q ≤ p := by
    refine Nat.le_of_not_lt fun hq => ?_
    have := hp.after q lq hq g5
    rw [Ev.has_access g3] at this; cases this
  have hge : i ≤ q := Nat.le_of_not_lt fun hq => g4 i hq ⟨l.ev, by rw [List.getElem?_map, hl]; rfl, hlrd⟩
  have hnp : n.pos = off (items t) k + p := by rw [hn]
  have hqi : q = i := by
    rcases hkind with ⟨_, hi⟩ | ⟨hsc, ⟨ac, hev⟩, hi, hbtw⟩
    · omega
    · rcases Nat.lt_or_eq_of_le hge with hlt | he
      · exfalso
        have hne : q ≠ p := by
          rintro rfl
          obtain rfl : lq = o := by simpa using g5.symm.trans hp.get
          rw [hev] at g3; exact g3
        have hLL := Done.paired hpair hok (List.mem_of_getElem? g5) (List.mem_of_getElem? hp.get) hsc g3
        have := hbtw q lq hlt (by omega) g5
        rw [hLL] at this; cases this
      · exact he.symm
  subst hqi
  exact ⟨l, H.at_pos h.item hl hlrd, hnat, fun y g1 g2 => hsame y (hrd y g1 g2), hF⟩

/-- what an operation that takes the lock reads -/
theorem CSetup.lockRead (hpair : A.Paired) {t k : Nat} {d : Done W} {n : Node} {o : Own W} (h : IsPt A.e items t k d n o) (hok : d.OK A)
    (hon : d.call.On w a) (h1 : d.call.TriesLock) (h2 : d.ret.Taken) : o.ev.isWrite = true ∧ ∀ r, IsLast items t k .rd r →
      ∃ l, X.At r l ∧ l.Natural ∧ (∀ y, a ≤ y → y < a + w / 8 → l.reads y) ∧ load A.e l.m a w = 0 ∧
        X.Follows (fun _ => True) a (rf r a) n := by
  obtain ⟨p, hp, hn⟩ := h.pt
  have hw := H.size.mod8
  have hsem := (hp.sem o.m (Agree.refl _ _ _)).taken hw hon h1 h2
  have hwr : o.ev.isWrite = true := by
    cases hc : o.ev.isWrite with
    | true => rfl
    | false =>
      have : afterAccess o.ins o.rs o.ev o.m' o.m = o.m := by simp [afterAccess, hc]
      rw [this] at hsem
      exact absurd hsem.1 hsem.2
  refine ⟨hwr, fun r hr => ?_⟩
  obtain ⟨l, e1, e2, e3, e4⟩ := H.lastRead hpair h hok hon h1.not_overwrites hwr hr
  refine ⟨l, e1, e2, fun y g1 g2 => (e3 y g1 g2).1, ?_, e4⟩
  rw [← hsem.1]
  exact load_congr hw fun y g1 g2 => (e3 y g1 g2).2

/-- between the writes of an operation that gives the lock back and of the next one that takes it there is no other such write -/
theorem CSetup.between {κ : Nat × Nat × Done W → Nat} {S : List (Nat × Nat × Done W)}
    (hκ : ∀ t k d n o, IsPt A.e items t k d n o → κ (t, k, d) = keyOf X rf a n o.ev) (hsort : S.Pairwise fun x y => κ x ≤ κ y)
    (hmem : ∀ t k d, (t, k, d) ∈ S ↔ (items t)[k]? = some (.op d) ∧ d.call.On w a) {P T S2 : List (Nat × Nat × Done W)}
    {t u j l : Nat} {du dj : Done W} (hS : S = P ++ (t, u, du) :: (T ++ (j, l, dj) :: S2)) (hT : T.filterMap mark = [])
    {n0 n s : Node} {o0 o os : Own W} (h0 : IsPt A.e items t u du n0 o0) (hw0 : o0.ev.isWrite = true) (h : IsPt A.e items j l dj n o)
    (hw : o.ev.isWrite = true) {k : Nat} {d : Done W} (hs : IsPt A.e items s.thread k d s os) (hws : os.writes a) (hon : d.call.On w a)
    (hle : X.rank n0 ≤ X.rank s) (hlt : X.rank s < X.rank n) (hm : mark (s.thread, k, d) ≠ none) : s = n0 := by
  have k0 : κ (t, u, du) = 2 * X.rank n0 + 1 := by rw [hκ _ _ _ _ _ h0]; unfold keyOf; rw [hw0]
  have k1 : κ (j, l, dj) = 2 * X.rank n + 1 := by rw [hκ _ _ _ _ _ h]; unfold keyOf; rw [hw]
  have k2 : κ (s.thread, k, d) = 2 * X.rank s + 1 := by rw [hκ _ _ _ _ _ hs]; unfold keyOf; rw [hws.1]
  have hin := (hmem s.thread k d).2 ⟨hs.item, hon⟩
  have hpos := H.size.pos
  rw [hS] at hin hsort
  obtain ⟨_, p1, p2⟩ := List.pairwise_append.1 hsort
  obtain ⟨p3, p4⟩ := List.pairwise_cons.1 p1
  obtain ⟨_, p5, _⟩ := List.pairwise_append.1 p4
  obtain ⟨p6, _⟩ := List.pairwise_cons.1 p5
  have hm0 := (hmem t u du).1 (by rw [hS]; simp)
  rcases List.mem_append.1 hin with hin | hin
  · have := p2 _ hin _ List.mem_cons_self
    have t0 := (H.touch h0 hm0.2 (Nat.le_refl a) (by omega)).1 hw0
    exact H.ax.inj _ _ _ _ _ _ (H.wr hs hws) t0 (by omega)
  · rcases List.mem_cons.1 hin with he | hin
    · simp only [Prod.mk.injEq] at he
      obtain ⟨e1, e2, e3⟩ := he
      rw [e1] at hs
      subst e2; subst e3
      exact (hs.unique h0).2.1
    · rcases List.mem_append.1 hin with hin | hin
      · exact absurd (List.filterMap_eq_nil_iff.1 hT _ hin) hm
      · rcases List.mem_cons.1 hin with he | hin
        · rw [he] at k2; omega
        · have := p6 _ hin; omega

/-- the operations on the lock, in their order -/
theorem CSetup.lseq {N : Nat} (hN : ∀ t, N ≤ t → items t = []) (hcl : LockClient items w a) :
    ∃ (κ : Nat × Nat × Done W → Nat) (S : List (Nat × Nat × Done W)) (M : Mem),
      (∀ t k d n o, IsPt A.e items t k d n o → κ (t, k, d) = keyOf X rf a n o.ev) ∧ (S.Pairwise fun x y => κ x ≤ κ y) ∧
      LSeq items w a S ∧ Legal A.e X.m0 (S.map fun e => (e.1, e.2.2.call, e.2.2.ret)) M := by
  obtain ⟨κ, S, M, r, hκ, hsort, hmem, hthread, g1, _⟩ := H.ordered hN
  refine ⟨κ, S, M, hκ, hsort, ⟨hmem, ?_, hcl⟩, g1⟩
  refine pairwise_threads fun t => ?_
  rw [hthread]
  exact List.pairwise_map.2 (ents_sorted.imp fun h => h)
end

/-- C48, from the local specification of the operations, their orderings, accesses and the shape of their code. -/
theorem Backend.locksProtect {A : Backend W} {P : Call → Prop} {g : Call → Nat} (hloc : A.LocalOps P) (hord : A.OrderingsOK)
    (hpair : A.Paired) (hacc : A.AccessesOK g) : A.LocksProtect P := by
  intro w a X rf N items hX hfwd hcoh hrf hL
  have H := Backend.csetup hloc hacc hcoh hL.size hL.aligned hL.code hL.ops hL.others
  have HS : SySetup A X items := ⟨H.toProg, hX, hfwd, fun t d h => (hL.ops t d h).1, fun t d h => (hL.ops t d h).2.2.1, hord, hpair⟩
  obtain ⟨κ, S, M, hκ, hsort, HL, hleg⟩ := H.lseq hL.threads hL.client
  have hpos := H.size.pos
  refine HL.excludes H.size.mod8 hL.free hleg (Sy := Sync X items) (fun i k j l m t n h1 h2 h3 => .trans h1 h2 h3) ?_
    (fun i k j l h p q kd kd' o o' hp hpk hq hql => sySetup_conclude HS h p q kd kd' o o' hp hpk hq hql)
  intro Pre t u du T j l dj S2 hS hT hun htry htak htj
  obtain ⟨iu, onu⟩ := (HL.mem t u du).1 (by rw [hS]; simp)
  obtain ⟨il, onl⟩ := (HL.mem j l dj).1 (by rw [hS]; simp)
  have oku := HS.ok t du (List.mem_of_getElem? iu)
  have okl := HS.ok j dj (List.mem_of_getElem? il)
  obtain ⟨n0, hn0⟩ := isLast_wr_of hord iu oku (Done.releases_of hun)
  obtain ⟨r, hr⟩ := isLast_rd_of hord il okl (Done.acquires_of htry htak)
  obtain ⟨du', o0, h0, hw0⟩ := H.isLast_wr hn0
  obtain rfl : du = du' := by simpa using iu.symm.trans h0.item
  obtain ⟨n, o, hn⟩ := H.exists_isPt il
  obtain ⟨hw, hread⟩ := H.lockRead hpair hn okl onl htry htak
  obtain ⟨lr, hat, hnat, hreads, _, f1, f2⟩ := hread r hr
  have W0 := (H.touch h0 onu (Nat.le_refl a) (by omega)).1 hw0
  have Wn := (H.touch hn onl (Nat.le_refl a) (by omega)).1 hw
  have hlt : X.rank n0 < X.rank n := by
    have hs := hsort
    rw [hS] at hs
    have := (List.pairwise_cons.1 (List.pairwise_append.1 hs).2.1).1 (j, l, dj) (by simp)
    rw [hκ _ _ _ _ _ h0, hκ _ _ _ _ _ hn] at this
    unfold keyOf at this
    rw [hw0, hw] at this
    simp only at this
    rcases Nat.lt_or_eq_of_le (show X.rank n0 ≤ X.rank n by omega) with h | h
    · exact h
    · have := H.ax.inj _ _ _ _ _ _ W0 Wn h
      rw [← h0.pos.1, ← hn.pos.1, this] at htj
      exact absurd rfl htj
  obtain ⟨s, hs, hle⟩ := f2 n0 o0 trivial W0 hlt
  have hRd : X.Rd r lr a := ⟨hat, hr.node.2.1, hnat, hreads a (Nat.le_refl a) (by omega)⟩
  have hfrom := (hrf r lr a s hRd).1 hs
  obtain ⟨v, hv⟩ := hfrom.2.1
  obtain ⟨k, d, os, hpt, hws, _⟩ := H.write hv (Nat.le_refl a) (by omega)
  refine .direct (w0 := n0) (w := s) (r := r) (x := a) (v := o0.m' a) htj iu (Done.releases_of hun) hn0 ⟨W0.2.1, o0, W0.1, W0.2.2.2, rfl⟩ il
    (Done.acquires_of htry htak) hr hfrom hle ?_
  by_cases hth : s.thread = j
  · right
    rw [hth] at hpt
    refine ⟨k, d, hpt.item, fun hov => ?_, ?_⟩
    · -- a store to the lock gives it back
      have hon : d.call.On w a := by
        rcases (hL.ops j d (List.mem_of_getElem? hpt.item)).2.2.2.2 with hon | hoff
        · exact hon
        · exfalso
          unfold Call.Off at hoff
          generalize d.call = c at hov hoff
          cases c with
          | store o w' a' v' =>
            obtain ⟨z1, z2⟩ := hov
            simp only [Call.width, Call.addr] at hoff
            omega
          | _ => exact hov
      have hu : d.call.Unlocks := by
        rcases hL.client.ops j d (List.mem_of_getElem? hpt.item) hon with h | h | ⟨o', h⟩
        · exact absurd hov (h.not_overwrites a)
        · exact h
        · rw [h] at hov; exact hov.elim
      have := H.between hκ hsort HL.mem hS hT h0 hw0 hn hw (k := k) (d := d) (os := os) (by rw [hth]; exact hpt) hws hon hle (f1 s hs)
        (by rw [mark_false.2 ⟨rfl, rfl, hu⟩]; simp)
      rw [this, h0.pos.1] at hth
      exact htj hth
    · obtain ⟨p, hp, hnp⟩ := hpt.pt
      have hl := hp.last
      rw [ownEvs_erase] at hl
      have hk : ptKind os.ev = .wr := by simp [ptKind, hws.1]
      rw [hk] at hl
      exact ⟨d, p, hpt.item, hl, by rw [hnp, hk]⟩
  · exact .inl hth

/-- C48 without multi-copy atomicity. -/
theorem Backend.locksProtectNonMCA {A : Backend W} {P : Call → Prop} {g : Call → Nat} (hloc : A.LocalOps P) (hord : A.OrderingsOK)
    (hpair : A.Paired) (hacc : A.AccessesOK g) (hb : A.BarriersOnly) (himp : A.imp.ww = false) : A.LocksProtectNonMCA P := by
  intro w a X rf N items hX hL hsole
  have H := Backend.csetup hloc hacc hX.toCohExec hL.size hL.aligned hL.code hL.ops hL.others
  have HR := Backend.syncOnNonMCA hloc hord hpair hacc hb himp X rf items hX hL.code
    (fun t d h => ⟨(hL.ops t d h).1, (hL.ops t d h).2.1, (hL.ops t d h).2.2.1, (hL.ops t d h).2.2.2.1⟩)
  obtain ⟨κ, S, M, hκ, hsort, HL, hleg⟩ := H.lseq hL.threads hL.client
  have hpos := H.size.pos
  refine HL.excludes H.size.mod8 hL.free hleg (Sy := NSync X rf items) (fun i k j l m t n h1 h2 h3 => .trans h1 h2 h3) ?_ HR
  intro Pre t u du T j l dj S2 hS hT hun htry htak htj
  obtain ⟨iu, onu⟩ := (HL.mem t u du).1 (by rw [hS]; simp)
  obtain ⟨il, onl⟩ := (HL.mem j l dj).1 (by rw [hS]; simp)
  have oku := (hL.ops t du (List.mem_of_getElem? iu)).1
  have okl := (hL.ops j dj (List.mem_of_getElem? il)).1
  obtain ⟨n0, hn0⟩ := isLast_wr_of hord iu oku (Done.releases_of hun)
  obtain ⟨r, hr⟩ := isLast_rd_of hord il okl (Done.acquires_of htry htak)
  obtain ⟨du', o0, h0, hw0⟩ := H.isLast_wr hn0
  obtain rfl : du = du' := by simpa using iu.symm.trans h0.item
  obtain ⟨n, o, hn⟩ := H.exists_isPt il
  obtain ⟨hw, hread⟩ := H.lockRead hpair hn okl onl htry htak
  obtain ⟨lr, hat, hnat, hreads, hzero, f1, f2⟩ := hread r hr
  have W0 := (H.touch h0 onu (Nat.le_refl a) (by omega)).1 hw0
  have Wn := (H.touch hn onl (Nat.le_refl a) (by omega)).1 hw
  have hlt : X.rank n0 < X.rank n := by
    have hs := hsort
    rw [hS] at hs
    have := (List.pairwise_cons.1 (List.pairwise_append.1 hs).2.1).1 (j, l, dj) (by simp)
    rw [hκ _ _ _ _ _ h0, hκ _ _ _ _ _ hn] at this
    unfold keyOf at this
    rw [hw0, hw] at this
    simp only at this
    rcases Nat.lt_or_eq_of_le (show X.rank n0 ≤ X.rank n by omega) with h | h
    · exact h
    · have := H.ax.inj _ _ _ _ _ _ W0 Wn h
      rw [← h0.pos.1, ← hn.pos.1, this] at htj
      exact absurd rfl htj
  obtain ⟨s, hs, hle⟩ := f2 n0 o0 trivial W0 hlt
  have hRd : ∀ y, a ≤ y → y < a + w / 8 → X.Rd r lr y := fun y g1 g2 => ⟨hat, hr.node.2.1, hnat, hreads y g1 g2⟩
  have hRa := hRd a (Nat.le_refl a) (by omega)
  have hv := (H.ax.value r lr a hat hr.node.2.1 hRa.2.2.2).1 s hs
  obtain ⟨k, d, os, hpt, hws, _⟩ := H.write hv (Nat.le_refl a) (by omega)
  obtain ⟨ps, hps, hnps⟩ := hpt.pt
  obtain ⟨hon, hkind⟩ := hsole s.thread d os a (List.mem_of_getElem? hpt.item) (List.mem_of_getElem? hps.get) (Nat.le_refl a) (by omega) hws
  have fin : mark (s.thread, k, d) ≠ none → s = n0 := fun hm =>
    H.between hκ hsort HL.mem hS hT h0 hw0 hn hw hpt hws hon hle (f1 s hs) hm
  have hs0 : s = n0 := by
    rcases hkind with hu | ⟨h1, h2⟩ | ⟨o', v, hc⟩
    · exact fin (by rw [mark_false.2 ⟨rfl, rfl, hu⟩]; simp)
    · exact fin (by rw [mark_true.2 ⟨rfl, rfl, h1, h2⟩]; simp)
    · -- a swap left something else
      exfalso
      have hv0 : v ≠ 0 := by
        rcases hL.client.ops s.thread d (List.mem_of_getElem? hpt.item) hon with h | h | ⟨o'', h⟩
        · rw [hc] at h; exact h.2
        · rw [hc] at h; exact h.elim
        · rw [hc] at h; cases h
      have hsem := hps.sem os.m (Agree.refl _ _ _)
      have hst : afterAccess os.ins os.rs os.ev os.m' os.m = store A.e os.m a w v := by
        generalize d.ret = ret at hsem
        rw [hc] at hsem
        obtain ⟨x, ⟨_, hx⟩, _⟩ := hsem
        exact hx
      refine hv0 ?_
      rw [← load_store (e := A.e) (m := os.m) (a := a) H.size.mod8 v, ← hst, ← hzero]
      refine load_congr H.size.mod8 fun y g1 g2 => ?_
      have hsy := H.same hRa (hRd y g1 g2) (Nat.le_refl a) (by omega) g1 g2 hs
      obtain ⟨_, oy, hoy, _, hoy2⟩ := (H.ax.value r lr y hat hr.node.2.1 (hreads y g1 g2)).1 s hsy
      obtain rfl : oy = os := by simpa using hoy.1.symm.trans (H.isPt_at hpt).1
      rw [afterAccess_wr (H.cover hpt hws (Nat.le_refl a) (by omega) g1 g2), hoy2]
  subst hs0
  exact .direct (w := s) (r := r) (o := lr) (x := a) iu (Done.releases_of hun) (.own (Nat.le_refl u) hn0 ⟨W0.2.1, o0, W0.1, W0.2.2.2, rfl⟩) il
    (Done.acquires_of htry htak) hr hat hRa.2.2.2 hs (by rw [h0.pos.1]; exact htj)

/-! ### A strong compare_exchange that may fail spuriously will do -/

theorem Call.weaken_tries (c : Call) : c.weaken.TriesLock ↔ c.TriesLock := by cases c <;> exact Iff.rfl
theorem Call.weaken_unlocks (c : Call) : c.weaken.Unlocks ↔ c.Unlocks := by cases c <;> exact Iff.rfl
theorem get_of_weaken {L : List (Item W)} {k : Nat} {d : Done W} (h : (L.map Item.weaken)[k]? = some (.op d)) :
    ∃ d', L[k]? = some (.op d') ∧ d = d'.weaken := by
  rw [List.getElem?_map] at h
  obtain ⟨z, hz, he⟩ := Option.map_eq_some_iff.1 h
  cases z with
  | other => cases he
  | op d' => injection he with he; exact ⟨d', hz, he.symm⟩
theorem mem_of_weaken {L : List (Item W)} {d : Done W} (h : Item.op d ∈ L.map Item.weaken) : ∃ d', Item.op d' ∈ L ∧ d = d'.weaken := by
  obtain ⟨z, hz, he⟩ := List.mem_map.1 h
  cases z with
  | other => cases he
  | op d' => injection he with he; exact ⟨d', hz, he.symm⟩

theorem lockAt_weaken (items : Nat → List (Item W)) (w a t k : Nat) :
    LockAt (fun t => (items t).map Item.weaken) w a t k ↔ LockAt items w a t k := by
  constructor
  · rintro ⟨d, h1, h2, h3, h4⟩
    obtain ⟨d', h5, rfl⟩ := get_of_weaken h1
    rw [Done.weaken_call] at h2 h3
    rw [Done.weaken_ret] at h4
    exact ⟨d', h5, (on_weaken _ _ _).1 h2, (Call.weaken_tries _).1 h3, h4⟩
  · rintro ⟨d, h1, h2, h3, h4⟩
    refine ⟨d.weaken, get_weaken h1, ?_, ?_, by rw [Done.weaken_ret]; exact h4⟩
    · rw [Done.weaken_call]; exact (on_weaken _ _ _).2 h2
    · rw [Done.weaken_call]; exact (Call.weaken_tries _).2 h3
theorem unlockAt_weaken (items : Nat → List (Item W)) (w a t k : Nat) :
    UnlockAt (fun t => (items t).map Item.weaken) w a t k ↔ UnlockAt items w a t k := by
  constructor
  · rintro ⟨d, h1, h2, h3⟩
    obtain ⟨d', h5, rfl⟩ := get_of_weaken h1
    rw [Done.weaken_call] at h2 h3
    exact ⟨d', h5, (on_weaken _ _ _).1 h2, (Call.weaken_unlocks _).1 h3⟩
  · rintro ⟨d, h1, h2, h3⟩
    refine ⟨d.weaken, get_weaken h1, ?_, ?_⟩
    · rw [Done.weaken_call]; exact (on_weaken _ _ _).2 h2
    · rw [Done.weaken_call]; exact (Call.weaken_unlocks _).2 h3

theorem LockRun.weaken {A : Backend W} {P : Call → Prop} {w a : Nat} {X : AxShape W} {N : Nat} {items : Nat → List (Item W)}
    (h : LockRun A P w a X N items) : LockRun A.weakened (fun _ => True) w a X N fun t => (items t).map Item.weaken where
  size := h.size
  aligned := h.aligned
  threads t ht := by simp only [h.threads t ht]; rfl
  code t := by
    rw [h.code, List.flatMap_map]
    apply flatMap_congr_mem
    intro z _
    exact (Item.weaken_code z).symm
  ops t d hd := by
    obtain ⟨d', hd', rfl⟩ := mem_of_weaken hd
    obtain ⟨h1, _, h2⟩ := h.ops t d' hd'
    refine ⟨Done.weaken_ok h1, trivial, ?_⟩
    rw [Done.weaken_call]
    generalize d'.call = c at h2
    cases c <;> exact h2
  others t o x ho := by
    obtain ⟨z, hz, he⟩ := List.mem_map.1 ho
    cases z with
    | op => cases he
    | other o' => injection he with he; subst he; exact h.others t o' x hz
  free := h.free
  client := {
    ops := by
      intro t d hd hon
      obtain ⟨d', hd', rfl⟩ := mem_of_weaken hd
      rw [Done.weaken_call] at hon ⊢
      rw [Call.weaken_tries, Call.weaken_unlocks]
      refine (h.client.ops t d' hd' ((on_weaken _ _ _).1 hon)).imp id (Or.imp id ?_)
      rintro ⟨o, ho⟩
      exact ⟨o, by rw [ho]; rfl⟩
    held := by
      intro t k hk
      obtain ⟨k0, h1, h2, h3⟩ := h.client.held t k ((unlockAt_weaken items w a t k).1 hk)
      exact ⟨k0, h1, (lockAt_weaken items w a t k0).2 h2, fun m g1 g2 g3 => h3 m g1 g2 ((unlockAt_weaken items w a t m).1 g3)⟩ }

theorem SolelyLocked.weaken {items : Nat → List (Item W)} {w a : Nat} (h : SolelyLocked items w a) :
    SolelyLocked (fun t => (items t).map Item.weaken) w a := by
  intro t d o x hd ho h1 h2 hx
  obtain ⟨d', hd', rfl⟩ := mem_of_weaken hd
  rw [Done.weaken_tr] at ho
  obtain ⟨g1, g2⟩ := h t d' o x hd' ho h1 h2 hx
  rw [Done.weaken_call, Done.weaken_ret, Call.weaken_tries, Call.weaken_unlocks]
  refine ⟨(on_weaken _ _ _).2 g1, g2.imp id (Or.imp id ?_)⟩
  rintro ⟨o, v, hc⟩
  exact ⟨o, v, by rw [hc]; rfl⟩

theorem excludes_of_weaken {items : Nat → List (Item W)} {w a : Nat} {X : AxShape W} {Ord : Node → Node → Prop}
    (h : Excludes (fun t => (items t).map Item.weaken) w a X Ord) : Excludes items w a X Ord := by
  have sec : ∀ i k j l, SectionBefore (fun t => (items t).map Item.weaken) w a X Ord i k j l → SectionBefore items w a X Ord i k j l := by
    rintro i k j l ⟨k', h1, h2, h3, h4, h5⟩
    refine ⟨k', h1, (unlockAt_weaken items w a i k').1 h2, fun m g1 g2 g3 => h3 m g1 g2 ((unlockAt_weaken items w a i m).2 g3), h4, ?_⟩
    intro hij p q kd kd' o o' hp hpk hq hql
    exact h5 hij p q kd kd' o o' hp (by rw [offset_weaken]; exact hpk) hq (by rw [offset_weaken]; exact hql)
  intro i k j l hi hj hne
  exact (h i k j l ((lockAt_weaken items w a i k).2 hi) ((lockAt_weaken items w a j l).2 hj) hne).imp (sec _ _ _ _) (sec _ _ _ _)

/-- The form used for the back ends. -/
theorem Good.locksProtect {A : Backend W} {sc : List Mon} {st sw cas : Nat} (h : Good A sc) (hpair : A.Paired)
    (hacc : A.AccessesOK (gran st sw cas)) : A.LocksProtect fun _ => True := by
  have hw : A.weakened.LocksProtect fun _ => True :=
    Backend.locksProtect (h.weakened.localOps (P := fun _ => True) fun _ _ _ _ _ _ _ _ hB => hB.elim)
      (Backend.orderingsOK h.weakened.acquireOK h.weakened.releaseOK h.weakened.seqCstOK h.weakened.failureOK) hpair.weakened
      (Backend.weakened_accesses hacc)
  intro w a X rf N items hX hf hc hrf hL
  exact excludes_of_weaken (hw w a X rf N _ hX hf hc hrf hL.weaken)
theorem Good.locksProtectNonMCA {A : Backend W} {sc : List Mon} {st sw cas : Nat} (h : Good A sc) (hpair : A.Paired)
    (hacc : A.AccessesOK (gran st sw cas)) (hb : A.BarriersOnly) (himp : A.imp.ww = false) : A.LocksProtectNonMCA fun _ => True := by
  have hw : A.weakened.LocksProtectNonMCA fun _ => True :=
    Backend.locksProtectNonMCA (h.weakened.localOps (P := fun _ => True) fun _ _ _ _ _ _ _ _ hB => hB.elim)
      (Backend.orderingsOK h.weakened.acquireOK h.weakened.releaseOK h.weakened.seqCstOK h.weakened.failureOK) hpair.weakened
      (Backend.weakened_accesses hacc) hb.weakened himp
  intro w a X rf N items hX hL hs
  exact excludes_of_weaken (hw w a X rf N _ hX hL.weaken hs.weaken)

end Verif
