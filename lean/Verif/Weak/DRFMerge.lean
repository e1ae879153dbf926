/- Proof of C49, first part: from a sequence of the operations to one of all instructions. -/
import Verif.Weak.DRF
import Verif.Weak.LockMain
import Verif.Weak.NonMCAProof

namespace Verif
variable {W : Nat}

/-! ### The sequence -/

/-- the ordinary instructions at the beginning of a list, with their positions -/
def segE (t : Nat) : Nat → List (Item W) → List (Nat × Nat × Item W)
  | k, .other o :: l => (t, k, .other o) :: segE t (k + 1) l
  | _, _ => []
/-- all items, with their positions -/
def posItems (t : Nat) : Nat → List (Item W) → List (Nat × Nat × Item W)
  | _, [] => []
  | k, it :: l => (t, k, it) :: posItems t (k + 1) l
/-- an operation and the ordinary instructions after it -/
def opBlock (items : Nat → List (Item W)) (e : Nat × Nat × Done W) : List (Nat × Nat × Item W) :=
  (e.1, e.2.1, .op e.2.2) :: segE e.1 (e.2.1 + 1) ((items e.1).drop (e.2.1 + 1))
/-- what the threads do before their first operations, then each operation with what follows it -/
def merged (items : Nat → List (Item W)) (N : Nat) (S : List (Nat × Nat × Done W)) : List (Nat × Nat × Item W) :=
  (List.range N).flatMap (fun t => segE t 0 (items t)) ++ S.flatMap (opBlock items)

theorem mem_segE {t t' k k' : Nat} {l : List (Item W)} {it : Item W} (h : (t', k', it) ∈ segE t k l) :
    t' = t ∧ ∃ j, k' = k + j ∧ l[j]? = some it ∧ (∃ o, it = .other o) ∧ ∀ i d, i ≤ j → l[i]? ≠ some (.op d) := by
  induction l generalizing k with
  | nil => simp [segE] at h
  | cons x l ih =>
    cases x with
    | op d => simp [segE] at h
    | other o =>
      simp only [segE, List.mem_cons, Prod.mk.injEq] at h
      rcases h with ⟨rfl, rfl, rfl⟩ | h
      · refine ⟨rfl, 0, rfl, rfl, ⟨o, rfl⟩, fun i d hi => ?_⟩
        obtain rfl : i = 0 := by omega
        simp
      · obtain ⟨rfl, j, rfl, h1, h2, h3⟩ := ih h
        refine ⟨rfl, j + 1, by omega, by simpa using h1, h2, fun i d hi => ?_⟩
        cases i with
        | zero => simp
        | succ i => simpa using h3 i d (by omega)

theorem mem_posItems {t t' k k' : Nat} {l : List (Item W)} {it : Item W} :
    (t', k', it) ∈ posItems t k l ↔ t' = t ∧ ∃ j, k' = k + j ∧ l[j]? = some it := by
  induction l generalizing k with
  | nil => simp [posItems]
  | cons x l ih =>
    simp only [posItems, List.mem_cons, Prod.mk.injEq, ih]
    constructor
    · rintro (⟨rfl, rfl, rfl⟩ | ⟨rfl, j, rfl, h⟩)
      · exact ⟨rfl, 0, rfl, rfl⟩
      · exact ⟨rfl, j + 1, by omega, by simpa using h⟩
    · rintro ⟨rfl, j, rfl, h⟩
      cases j with
      | zero => left; simp at h; exact ⟨rfl, rfl, h.symm⟩
      | succ j => right; exact ⟨rfl, j, by omega, by simpa using h⟩

theorem posItems_sorted {t k : Nat} {l : List (Item W)} : (posItems t k l).Pairwise fun x y => x.2.1 < y.2.1 := by
  induction l generalizing k with
  | nil => exact .nil
  | cons x l ih =>
    refine List.pairwise_cons.2 ⟨?_, ih⟩
    rintro ⟨t', k', it⟩ h
    obtain ⟨_, j, rfl, _⟩ := mem_posItems.1 h
    simp only; omega

theorem posItems_map {t k : Nat} {l : List (Item W)} : (posItems t k l).map (fun e => (e.1, e.2.2)) = l.map fun it => (t, it) := by
  induction l generalizing k with
  | nil => rfl
  | cons x l ih => simp only [posItems, List.map_cons, ih]

theorem segE_append (items : Nat → List (Item W)) (t : Nat) : ∀ (l : List (Item W)) (k : Nat), (items t).drop k = l →
    segE t k l ++ ((opEnts k l).map fun e => (t, e)).flatMap (opBlock items) = posItems t k l := by
  intro l
  induction l with
  | nil => intro k _; rfl
  | cons x l ih =>
    intro k hk
    have hk' : (items t).drop (k + 1) = l := by rw [← List.drop_drop, hk]; rfl
    have ih := ih (k + 1) hk'
    cases x with
    | other o => simp only [segE, opEnts, posItems, List.cons_append, ih]
    | op d =>
      simp only [segE, opEnts, posItems, List.map_cons, List.flatMap_cons, List.nil_append, opBlock, hk', List.cons_append, ih]

theorem ofThread_flatMap {α β : Type} {g : Nat × α → List (Nat × β)} (hg : ∀ e, ∀ y ∈ g e, y.1 = e.1) (t : Nat) :
    ∀ S : List (Nat × α), ofThread t (S.flatMap g) = (ofThread t S).flatMap g := by
  intro S
  induction S with
  | nil => rfl
  | cons e S ih =>
    rw [List.flatMap_cons, ofThread_append, ih]
    by_cases h : e.1 = t
    · have h1 : ofThread t (e :: S) = e :: ofThread t S := by simp [ofThread, h]
      have h2 : ofThread t (g e) = g e := List.filter_eq_self.2 fun y hy => by simp [hg e y hy, h]
      rw [h1, h2, List.flatMap_cons]
    · have h1 : ofThread t (e :: S) = ofThread t S := by simp [ofThread, h]
      have h2 : ofThread t (g e) = [] := List.filter_eq_nil_iff.2 fun y hy => by simp [hg e y hy, h]
      rw [h1, h2, List.nil_append]

theorem opBlock_thread (items : Nat → List (Item W)) (e : Nat × Nat × Done W) : ∀ y ∈ opBlock items e, y.1 = e.1 := by
  rintro ⟨t, k, it⟩ hy
  rcases List.mem_cons.1 hy with hy | hy
  · rw [hy]
  · exact (mem_segE hy).1

theorem ofThread_merged {items : Nat → List (Item W)} {N : Nat} (hN : ∀ t, N ≤ t → items t = []) {S : List (Nat × Nat × Done W)}
    (hS : ∀ t, ofThread t S = (opEnts 0 (items t)).map fun e => (t, e)) (t : Nat) :
    ofThread t (merged items N S) = posItems t 0 (items t) := by
  rw [merged, ofThread_append, ofThread_flatMap (opBlock_thread items), hS, ← segE_append items t (items t) 0 (by simp)]
  congr 1
  have gen : ∀ N, ofThread t ((List.range N).flatMap fun t => segE t 0 (items t)) = if t < N then segE t 0 (items t) else [] := by
    intro N
    induction N with
    | zero => rfl
    | succ N ih =>
      rw [List.range_succ, List.flatMap_append, ofThread_append, ih]
      simp only [List.flatMap_cons, List.flatMap_nil, List.append_nil]
      by_cases h : t = N
      · subst h
        rw [if_neg (by omega), if_pos (by omega), List.nil_append]
        exact List.filter_eq_self.2 fun ⟨t', k', it⟩ hy => by simp [(mem_segE hy).1]
      · have : ofThread t (segE N 0 (items N)) = [] :=
          List.filter_eq_nil_iff.2 fun ⟨t', k', it⟩ hy => by simp [(mem_segE hy).1]; omega
        rw [this, List.append_nil]
        by_cases h2 : t < N
        · rw [if_pos h2, if_pos (by omega)]
        · rw [if_neg h2, if_neg (by omega)]
  rw [gen]
  split
  · rfl
  · rw [hN t (by omega)]; rfl

theorem Ev.has_wr_of {ev : Ev} (h : ev.isWrite = true) : ev.has .wr := by
  cases ev <;> simp_all [Ev.isWrite, Ev.has]

/-! ### Places -/

/-- place of item `k` of thread `t`: that of the last operation not after it -/
def itemKey (ht : Nat × Nat × Done W → Nat) (items : Nat → List (Item W)) (t k : Nat) : Nat :=
  ((opEnts 0 ((items t).take (k + 1))).map fun e => ht (t, e.1, e.2) + 1).foldr max 0

theorem le_foldr_max {l : List Nat} {n : Nat} (h : n ∈ l) : n ≤ l.foldr max 0 := by
  induction l with
  | nil => cases h
  | cons x l ih =>
    rcases List.mem_cons.1 h with rfl | h
    · exact Nat.le_max_left _ _
    · exact Nat.le_trans (ih h) (Nat.le_max_right _ _)
theorem foldr_max_le {l : List Nat} {v : Nat} (h : ∀ n ∈ l, n ≤ v) : l.foldr max 0 ≤ v := by
  induction l with
  | nil => exact Nat.zero_le _
  | cons x l ih =>
    exact Nat.max_le.2 ⟨h _ List.mem_cons_self, ih fun n hn => h n (List.mem_cons_of_mem _ hn)⟩

section
variable {ht : Nat × Nat × Done W → Nat} {items : Nat → List (Item W)} {t k : Nat}
theorem le_itemKey {k0 : Nat} {d : Done W} (h : (items t)[k0]? = some (.op d)) (hk : k0 ≤ k) :
    ht (t, k0, d) + 1 ≤ itemKey ht items t k :=
  le_foldr_max (List.mem_map.2 ⟨(k0, d), mem_opEnts.2 ⟨k0, by omega, by rw [List.getElem?_take_of_lt (by omega)]; exact h⟩, rfl⟩)
theorem itemKey_le {v : Nat} (h : ∀ k0 d, (items t)[k0]? = some (.op d) → k0 ≤ k → ht (t, k0, d) + 1 ≤ v) : itemKey ht items t k ≤ v := by
  refine foldr_max_le fun n hn => ?_
  obtain ⟨⟨k0, d⟩, hm, rfl⟩ := List.mem_map.1 hn
  obtain ⟨j, hj, hg⟩ := mem_opEnts.1 hm
  rw [Nat.zero_add] at hj
  subst hj
  have hl := (List.getElem?_eq_some_iff.1 hg).1
  rw [List.length_take] at hl
  rw [List.getElem?_take_of_lt (by omega)] at hg
  exact h _ _ hg (by omega)
end

/-- threads of operations and ordinary accesses -/
structure DBase (A : Backend W) (X : AxShape W) (rf : Node → Nat → Option Node) (items : Nat → List (Item W)) (N : Nat)
    (P : Call → Prop) : Prop extends Prog A X items where
  coh : CohExec X rf
  nat' : ∀ t d o, Item.op d ∈ items t → o ∈ owns d.tr → o.ev.isAccess = true → o.Natural
  rdwr : ∀ t d o x, Item.op d ∈ items t → o ∈ owns d.tr → o.ev.isWrite = true → o.reads x → o.writes x
  run : DataRun A P X N items

/-- a byte of ordinary memory -/
def IsData (items : Nat → List (Item W)) (x : Nat) : Prop := ∃ t o, Item.other o ∈ items t ∧ (o.reads x ∨ o.writes x)

section
variable {A : Backend W} {X : AxShape W} {rf : Node → Nat → Option Node} {items : Nat → List (Item W)} {N : Nat} {P : Call → Prop}
  (H : DBase A X rf items N P)
include H

theorem DBase.at_data {t k : Nat} {o : Own W} (h : (items t)[k]? = some (.other o)) {kd : AKind} (hk : o.ev.has kd) :
    X.At ⟨t, off (items t) k, kd⟩ o ∧ DataAt items ⟨t, off (items t) k, kd⟩ o := by
  refine ⟨⟨?_, hk⟩, k, h, rfl, hk⟩
  rw [H.po]
  have := item_get h (it := .other o) (q := 0) (o := o) rfl
  simpa using this

theorem DBase.off_lt {t k k' : Nat} {o : Own W} (h : (items t)[k]? = some (.other o)) (hk : k < k') : off (items t) k < off (items t) k' := by
  have h1 := off_succ h
  have h2 := off_mono (items t) (show k + 1 ≤ k' from hk)
  simp only [Item.code, List.length_singleton] at h1
  omega

theorem DBase.nat {t k : Nat} {o : Own W} (h : (items t)[k]? = some (.other o)) {kd : AKind} (hk : o.ev.has kd) : o.Natural :=
  H.run.natural t o (List.mem_of_getElem? h) (Ev.has_access hk)

/-- a write to a byte of ordinary memory is one of ordinary code, or the point of an operation -/
theorem DBase.write {x : Nat} {w : Node} {v : BitVec 8} (hw : X.WritesByte w x v) :
    (∃ k ow, (items w.thread)[k]? = some (.other ow) ∧ w = ⟨w.thread, off (items w.thread) k, .wr⟩ ∧ ow.writes x ∧ ow.m' x = v) ∨
      ∃ k d o, IsPt A.e items w.thread k d w o ∧ o.writes x ∧ o.m' x = v := by
  obtain ⟨hk, ow, ⟨h1, h2⟩, h3, h4⟩ := hw
  rw [H.po] at h1
  obtain ⟨k, it, q, g1, g2, g3⟩ := item_find h1
  cases it with
  | op d =>
    right
    obtain ⟨p, o1, hp⟩ := H.point _ d (List.mem_of_getElem? g1)
    have g2 : (owns d.tr)[q]? = some ow := g2
    have hq : q = p := by
      rcases Nat.lt_trichotomy q p with hl | hl | hl
      · have := hp.before q ow hl g2; rw [h3.1] at this; cases this
      · exact hl
      · have := Ev.write_access (hp.after q ow hl g2); rw [h3.1] at this; cases this
    subst hq
    obtain rfl : ow = o1 := by simpa using g2.symm.trans hp.get
    refine ⟨k, d, ow, ⟨g1, q, hp, ?_⟩, h3, h4⟩
    have : ptKind ow.ev = .wr := by simp [ptKind, h3.1]
    rw [this]
    cases w
    simp_all
  | other o1 =>
    left
    have hq : q = 0 := by
      have := (List.getElem?_eq_some_iff.1 g2).1
      simp only [Item.code, List.length_singleton] at this
      omega
    subst hq
    obtain rfl : o1 = ow := by simpa [Item.code] using g2
    refine ⟨k, o1, g1, ?_, h3, h4⟩
    obtain ⟨wt, wp, wk⟩ := w
    simp only at hk g3 ⊢
    rw [hk]
    simp only [Node.mk.injEq, true_and, and_true]
    omega

theorem DBase.wr {t k : Nat} {o : Own W} (h : (items t)[k]? = some (.other o)) {x : Nat} (hx : o.writes x) :
    X.Wr ⟨t, off (items t) k, .wr⟩ o x :=
  ⟨(H.at_data h (Ev.has_wr_of hx.1)).1, rfl, H.nat h (Ev.has_wr_of hx.1), hx⟩

theorem DBase.isWr {x : Nat} {w : Node} {v : BitVec 8} (hw : X.WritesByte w x v) : ∃ ow, X.Wr w ow x := by
  rcases H.write hw with ⟨k, ow, h1, h2, h3, _⟩ | ⟨k, d, o, h1, h2, _⟩
  · have := H.wr h1 h3
    rw [← h2] at this
    exact ⟨ow, this⟩
  · obtain ⟨p, hp, _⟩ := h1.pt
    exact ⟨o, H.isPt_at h1, by rw [h1.kind]; simp [ptKind, h2.1],
      H.nat' _ d o (List.mem_of_getElem? h1.item) (List.mem_of_getElem? hp.get) hp.acc, h2⟩

/-- What a write leaves in a byte of ordinary memory is what the newest ordinary write not after it wrote: operations on objects in
the same machine word only rewrite the byte. -/
theorem DBase.origin {x : Nat} (hx : IsData items x) : ∀ (r : Nat) (w : Node) (v : BitVec 8), X.rank w < r → X.WritesByte w x v →
    (∃ t k o, (items t)[k]? = some (.other o) ∧ o.writes x ∧ o.m' x = v ∧ X.rank ⟨t, off (items t) k, .wr⟩ ≤ X.rank w ∧
      ∀ t' k' o', (items t')[k']? = some (.other o') → o'.writes x → X.rank ⟨t', off (items t') k', .wr⟩ ≤ X.rank w →
        X.rank ⟨t', off (items t') k', .wr⟩ ≤ X.rank ⟨t, off (items t) k, .wr⟩) ∨
    ((∀ t' k' o', (items t')[k']? = some (.other o') → o'.writes x → X.rank w < X.rank ⟨t', off (items t') k', .wr⟩) ∧ v = X.m0 x) := by
  intro r
  induction r with
  | zero => intro w v h; exact absurd h (Nat.not_lt_zero _)
  | succ r ih =>
    intro w v hr hw
    by_cases hord : ∃ t k o, (items t)[k]? = some (.other o) ∧ o.writes x ∧ w = ⟨t, off (items t) k, .wr⟩
    · obtain ⟨t, k, o, h1, h2, h3⟩ := hord
      obtain ⟨_, ow, hat, _, hv⟩ := hw
      have := (H.wr h1 h2).1
      rw [← h3] at this
      obtain rfl : ow = o := by simpa using hat.1.symm.trans this.1
      refine .inl ⟨t, k, ow, h1, h2, hv, by rw [h3]; exact Nat.le_refl _, fun t' k' o' _ _ hle => by rw [← h3]; exact hle⟩
    · have ne : ∀ {t' k' o'}, (items t')[k']? = some (.other o') → o'.writes x → X.rank ⟨t', off (items t') k', .wr⟩ ≤ X.rank w →
          X.rank ⟨t', off (items t') k', .wr⟩ < X.rank w := by
        intro t' k' o' g1 g2 hle
        rcases Nat.lt_or_eq_of_le hle with hlt | he
        · exact hlt
        · obtain ⟨ow, how⟩ := H.isWr hw
          exact absurd ⟨t', k', o', g1, g2, (H.coh.inj _ _ _ _ _ _ (H.wr g1 g2) how he).symm⟩ hord
      rcases H.write hw with ⟨k, ow, h1, h2, h3, _⟩ | ⟨k, d, o, h1, h2, h3⟩
      · exact absurd ⟨_, k, ow, h1, h3, h2⟩ hord
      obtain ⟨td, od, hod, hxd⟩ := hx
      have hout := H.run.apart td od _ d x hod (List.mem_of_getElem? h1.item) hxd
      obtain ⟨p, hp, _⟩ := h1.pt
      obtain ⟨hrd, hval⟩ := hp.rewrites (x := x) (by omega) h2
      obtain ⟨i, l, hl, hlrd, _, hsame, ⟨f1, f2⟩, _⟩ := H.toProg.follows H.coh H.nat' H.rdwr h1 hrd h2.1
      obtain ⟨v1, v2⟩ := H.coh.value _ l x (H.at_pos h1.item hl hlrd) rfl (hsame x hrd).1
      rw [(hsame x hrd).2, ← hval, h3] at v1 v2
      cases hs : rf ⟨w.thread, off (items w.thread) k + i, .rd⟩ x with
      | none =>
        refine .inr ⟨fun t' k' o' g1 g2 => Nat.lt_of_not_le fun hle => ?_, v2 hs⟩
        obtain ⟨_, hc, _⟩ := f2 _ o' trivial (H.wr g1 g2) (ne g1 g2 hle)
        rw [hs] at hc; cases hc
      | some s =>
        have hlt := f1 s hs
        have newest : ∀ {t' k' o'}, (items t')[k']? = some (.other o') → o'.writes x → X.rank ⟨t', off (items t') k', .wr⟩ ≤ X.rank w →
            X.rank ⟨t', off (items t') k', .wr⟩ ≤ X.rank s := by
          intro t' k' o' g1 g2 hle
          obtain ⟨s', hc, hle'⟩ := f2 _ o' trivial (H.wr g1 g2) (ne g1 g2 hle)
          rw [hs] at hc
          simp only [Option.some.injEq] at hc
          rw [hc]; exact hle'
        rcases ih s v (by omega) (v1 s hs) with ⟨t, k, o, g1, g2, g3, g4, g5⟩ | ⟨g1, g2⟩
        · exact .inl ⟨t, k, o, g1, g2, g3, by omega, fun t' k' o' e1 e2 hle => g5 t' k' o' e1 e2 (newest e1 e2 hle)⟩
        · refine .inr ⟨fun t' k' o' e1 e2 => Nat.lt_of_not_le fun hle => ?_, g2⟩
          have := g1 t' k' o' e1 e2
          have := newest e1 e2 hle
          omega

end

/-- the hypotheses -/
structure DSetup (A : Backend W) (X : AxShape W) (rf : Node → Nat → Option Node) (items : Nat → List (Item W)) (N : Nat)
    (ht : Nat × Nat × Done W → Nat) (S : List (Nat × Nat × Done W)) (P : Call → Prop) : Prop extends DBase A X rf items N P where
  race : RaceFree X rf items
  before : ∀ t k k' d d', (items t)[k]? = some (.op d) → (items t)[k']? = some (.op d') → k < k' → ht (t, k, d) < ht (t, k', d')
  hb : ∀ i k j l, OpBefore X rf items i k j l → ∃ d d', (items i)[k]? = some (.op d) ∧ (items j)[l]? = some (.op d') ∧
    ht (i, k, d) < ht (j, l, d')
  prec : ∀ a b oa ob, X.At a oa → X.At b ob → AccessBefore X rf items a b → X.Precedes rf a b
  sort : S.Pairwise fun x y => ht x ≤ ht y
  seq : ∀ t, ofThread t S = (opEnts 0 (items t)).map fun e => (t, e)

section
variable {A : Backend W} {X : AxShape W} {rf : Node → Nat → Option Node} {items : Nat → List (Item W)} {N : Nat}
  {ht : Nat × Nat × Done W → Nat} {S : List (Nat × Nat × Done W)} {P : Call → Prop} (H : DSetup A X rf items N ht S P)
include H

theorem DSetup.mem {t k : Nat} {it : Item W} : (t, k, it) ∈ merged items N S ↔ (items t)[k]? = some it := by
  have h1 : (t, k, it) ∈ merged items N S ↔ (t, k, it) ∈ ofThread t (merged items N S) := by simp [ofThread]
  rw [h1, ofThread_merged H.run.threads H.seq, mem_posItems]
  constructor
  · rintro ⟨_, j, rfl, h⟩; rw [Nat.zero_add]; exact h
  · intro h; exact ⟨rfl, k, by omega, h⟩

theorem DSetup.mem_seq {t k : Nat} {d : Done W} (h : (t, k, d) ∈ S) : (items t)[k]? = some (.op d) := by
  have h1 : (t, k, d) ∈ ofThread t S := by simp [ofThread, h]
  rw [H.seq, List.mem_map] at h1
  obtain ⟨⟨k', d'⟩, h2, h3⟩ := h1
  simp only [Prod.mk.injEq, true_and] at h3
  obtain ⟨rfl, rfl⟩ := h3
  obtain ⟨j, rfl, h4⟩ := mem_opEnts.1 h2
  rw [Nat.zero_add]; exact h4

/-- positions increase along each thread -/
theorem DSetup.index : (merged items N S).Pairwise fun x y => x.1 = y.1 → x.2.1 < y.2.1 :=
  pairwise_threads fun t => by rw [ofThread_merged H.run.threads H.seq]; exact posItems_sorted

theorem DSetup.key_block {e : Nat × Nat × Done W} (he : e ∈ S) {y : Nat × Nat × Item W} (hy : y ∈ opBlock items e) :
    itemKey ht items y.1 y.2.1 = ht e + 1 := by
  obtain ⟨t, k, d⟩ := e
  have hop := H.mem_seq he
  obtain ⟨t', k', it⟩ := y
  rcases List.mem_cons.1 hy with hy | hy
  · simp only [Prod.mk.injEq] at hy
    obtain ⟨rfl, rfl, rfl⟩ := hy
    refine Nat.le_antisymm (itemKey_le fun k0 d0 h0 hk0 => ?_) (le_itemKey hop (Nat.le_refl _))
    simp only at hk0 h0 ⊢
    rcases Nat.lt_or_eq_of_le hk0 with hlt | rfl
    · have := H.before _ _ _ _ _ h0 hop hlt; omega
    · obtain rfl : d0 = d := by simpa using h0.symm.trans hop
      exact Nat.le_refl _
  · obtain ⟨rfl, j, rfl, h1, _, h2⟩ := mem_segE hy
    refine Nat.le_antisymm (itemKey_le fun k0 d0 h0 hk0 => ?_) (le_itemKey hop (by simp only; omega))
    simp only at hk0 h0 ⊢
    rcases Nat.lt_trichotomy k0 k with hlt | rfl | hgt
    · have := H.before _ _ _ _ _ h0 hop hlt; omega
    · obtain rfl : d0 = d := by simpa using h0.symm.trans hop
      exact Nat.le_refl _
    · refine absurd ?_ (h2 (k0 - (k + 1)) d0 (by omega))
      rw [List.getElem?_drop]
      rw [show k + 1 + (k0 - (k + 1)) = k0 by omega]
      exact h0

/-- places increase along the sequence -/
theorem DSetup.keys : (merged items N S).Pairwise fun x y => itemKey ht items x.1 x.2.1 ≤ itemKey ht items y.1 y.2.1 := by
  have zero : ∀ y ∈ (List.range N).flatMap (fun t => segE t 0 (items t)), itemKey ht items y.1 y.2.1 = 0 := by
    rintro ⟨t', k', it⟩ hy
    obtain ⟨t, _, hy⟩ := List.mem_flatMap.1 hy
    obtain ⟨rfl, j, rfl, _, _, h2⟩ := mem_segE hy
    refine Nat.le_zero.1 (itemKey_le fun k0 d0 h0 hk0 => ?_)
    exact absurd h0 (h2 k0 d0 (by simp only at hk0; omega))
  refine List.pairwise_append.2 ⟨?_, ?_, fun x hx y _ => by rw [zero x hx]; exact Nat.zero_le _⟩
  · refine List.Pairwise.imp_of_mem (R := fun _ _ => True) ?_ (List.pairwise_of_forall fun _ _ => trivial)
    intro x y hx hy _
    rw [zero x hx]; exact Nat.zero_le _
  · refine List.pairwise_flatMap.2 ⟨fun e he => ?_, ?_⟩
    · refine List.Pairwise.imp_of_mem (R := fun _ _ => True) ?_ (List.pairwise_of_forall fun _ _ => trivial)
      intro x y hx hy _
      rw [H.key_block he hx, H.key_block he hy]; exact Nat.le_refl _
    · refine H.sort.imp_of_mem ?_
      intro e e' he he' hle x hx y hy
      rw [H.key_block he hx, H.key_block he' hy]; omega

/-! ### Ordinary accesses -/

/-- an ordinary access that comes first in the sequence happens first -/
theorem DSetup.ordered {i j k l : Nat} {o o' : Own W} {L1 L2 : List (Nat × Nat × Item W)}
    (hL : merged items N S = L1 ++ (j, l, .other o') :: L2) (hm : (i, k, .other o) ∈ L1) {kd kd' : AKind} (hk : o.ev.has kd)
    (hk' : o'.ev.has kd') {x : Nat} (hx : o.touches kd x) (hx' : o'.touches kd' x) (hw : kd = .wr ∨ kd' = .wr) :
    ∀ (_ : True), (kd = .wr → kd' = .wr → X.rank ⟨i, off (items i) k, .wr⟩ < X.rank ⟨j, off (items j) l, .wr⟩) ∧
      (kd = .wr → kd' = .rd → ∃ w, rf ⟨j, off (items j) l, .rd⟩ x = some w ∧ X.rank ⟨i, off (items i) k, .wr⟩ ≤ X.rank w) ∧
      (kd = .rd → kd' = .wr → ∀ w ow, rf ⟨i, off (items i) k, .rd⟩ x = some w → X.Wr w ow x → X.rank w < X.rank ⟨j, off (items j) l, .wr⟩) := by
  intro _
  have hi : (items i)[k]? = some (.other o) := H.mem.1 (by rw [hL]; exact List.mem_append_left _ hm)
  have hj : (items j)[l]? = some (.other o') := H.mem.1 (by rw [hL]; simp)
  obtain ⟨a1, a2⟩ := H.at_data hi hk
  obtain ⟨b1, b2⟩ := H.at_data hj hk'
  have n1 := H.nat hi hk
  have n2 := H.nat hj hk'
  have key := H.keys
  have idx := H.index
  rw [hL] at key idx
  have key := (List.pairwise_append.1 key).2.2 _ hm _ List.mem_cons_self
  have idx := (List.pairwise_append.1 idx).2.2 _ hm _ List.mem_cons_self
  simp only at key idx
  have mkW : ∀ {t p : Nat} {oo : Own W}, X.At ⟨t, p, .wr⟩ oo → oo.Natural → oo.touches .wr x → X.Wr ⟨t, p, .wr⟩ oo x :=
    fun h1 h2 h3 => ⟨h1, rfl, h2, h3⟩
  have mkR : ∀ {t p : Nat} {oo : Own W}, X.At ⟨t, p, .rd⟩ oo → oo.Natural → oo.touches .rd x → X.Rd ⟨t, p, .rd⟩ oo x :=
    fun h1 h2 h3 => ⟨h1, rfl, h2, h3⟩
  by_cases hij : i = j
  · subst hij
    have hpos := H.off_lt hi (idx rfl)
    refine ⟨fun e1 e2 => ?_, fun e1 e2 => ?_, fun e1 e2 w ow hrf _ => ?_⟩ <;> subst e1 e2
    · exact H.coh.coWW _ _ _ _ _ rfl hpos (mkW a1 n1 hx) (mkW b1 n2 hx')
    · exact H.coh.coWR _ _ _ _ _ rfl hpos (mkW a1 n1 hx) (mkR b1 n2 hx')
    · exact H.coh.coRW ⟨i, off (items i) k, .rd⟩ ⟨i, off (items i) l, .wr⟩ o o' x w rfl hpos (mkR a1 n1 hx) (mkW b1 n2 hx') hrf
  · have hp : X.Precedes rf ⟨i, off (items i) k, kd⟩ ⟨j, off (items j) l, kd'⟩ := by
      rcases H.race _ _ o o' x a2 b2 hij hx hx' hw with h | h
      · exact H.prec _ _ _ _ a1 b1 h
      · exfalso
        obtain ⟨m, n, h1, h2, h3⟩ := h
        simp only at h1 h2 h3
        obtain ⟨d, d', g1, g2, g3⟩ := H.hb _ _ _ _ h1
        have hlm : l < m := Nat.lt_of_not_le fun hle => by have := off_mono (items j) hle; omega
        have hnk : n < k := Nat.lt_of_not_le fun hle => by
          have h4 := off_mono (items i) hle
          have h5 := off_succ g2
          have := H.off_lt hi (show k < n + 1 by omega)
          omega
        have c1 : itemKey ht items j l ≤ ht (j, m, d) := itemKey_le fun k0 d0 h0 hk0 => H.before _ _ _ _ _ h0 g1 (by omega)
        have c2 : ht (i, n, d') + 1 ≤ itemKey ht items i k := le_itemKey g2 (by omega)
        omega
    refine ⟨fun e1 e2 => ?_, fun e1 e2 => ?_, fun e1 e2 w ow hrf how => ?_⟩ <;> subst e1 e2
    · exact (hp o o' x).1 (mkW a1 n1 hx) (mkW b1 n2 hx')
    · exact (hp o o' x).2.1 (mkW a1 n1 hx) (mkR b1 n2 hx')
    · exact (hp o o' x).2.2.1 w ow (mkR a1 n1 hx) hrf how (mkW b1 n2 hx')

/-- the value of byte `x` after the ordinary writes in `L` -/
def LastWritten (m0 : Mem) (x : Nat) (L : List (Nat × Nat × Item W)) (v : BitVec 8) : Prop :=
  (∃ P t k o Q, L = P ++ (t, k, .other o) :: Q ∧ o.writes x ∧ o.m' x = v ∧ ∀ t' k' o', (t', k', .other o') ∈ Q → ¬ o'.writes x) ∨
  ((∀ t k o, (t, k, .other o) ∈ L → ¬ o.writes x) ∧ v = m0 x)

/-- what ordinary code reads is what was written last -/
theorem DSetup.reads {j l : Nat} {o : Own W} {L1 L2 : List (Nat × Nat × Item W)}
    (hL : merged items N S = L1 ++ (j, l, .other o) :: L2) (hk : o.ev.has .rd) {x : Nat} (hx : o.reads x) {v : BitVec 8}
    (hv : LastWritten X.m0 x L1 v) : o.m x = v := by
  have hj : (items j)[l]? = some (.other o) := H.mem.1 (by rw [hL]; simp)
  have hdata : IsData items x := ⟨j, o, List.mem_of_getElem? hj, .inl hx⟩
  obtain ⟨b1, _⟩ := H.at_data hj hk
  obtain ⟨val1, val2⟩ := H.coh.value _ o x b1 rfl hx
  have inL : ∀ {t k : Nat} {o1 : Own W}, (t, k, .other o1) ∈ L1 → (items t)[k]? = some (.other o1) := fun h =>
    H.mem.1 (by rw [hL]; exact List.mem_append_left _ h)
  -- an earlier write is not newer than what is read
  have early : ∀ {t k : Nat} {o1 : Own W}, (t, k, .other o1) ∈ L1 → o1.writes x →
      ∃ w, rf ⟨j, off (items j) l, .rd⟩ x = some w ∧ X.rank ⟨t, off (items t) k, .wr⟩ ≤ X.rank w := by
    intro t k o1 hm hw
    exact (H.ordered hL hm (kd := .wr) (Ev.has_wr_of hw.1) hk hw hx (.inl rfl) trivial).2.1 rfl rfl
  cases hs : rf ⟨j, off (items j) l, .rd⟩ x with
  | none =>
    rw [val2 hs]
    rcases hv with ⟨P, t, k, o1, Q, rfl, hw, _⟩ | ⟨_, rfl⟩
    · obtain ⟨w, hw, _⟩ := early (show (t, k, Item.other o1) ∈ _ by simp) hw
      rw [hs] at hw; cases hw
    · rfl
  | some w =>
    have hwb := val1 w hs
    obtain ⟨oww, hWr⟩ := H.isWr hwb
    rcases H.origin hdata (X.rank w + 1) w _ (Nat.lt_succ_self _) hwb with ⟨t0, k0, ow, g1, g3, g4, g5, g6⟩ | ⟨g1, g2⟩
    · -- the write comes before the read
      have hin : (t0, k0, .other ow) ∈ L1 := by
        have hm := H.mem.2 g1
        rw [hL] at hm
        rcases List.mem_append.1 hm with hm | hm
        · exact hm
        exfalso
        rcases List.mem_cons.1 hm with he | hm
        · -- its own write
          simp only [Prod.mk.injEq, Item.other.injEq] at he
          obtain ⟨rfl, rfl, rfl⟩ := he
          have hR : X.Rd ⟨t0, off (items t0) k0, .rd⟩ ow x := ⟨b1, rfl, H.nat g1 hk, hx⟩
          have := (H.coh.rmw ⟨t0, off (items t0) k0, .rd⟩ ⟨t0, off (items t0) k0, .wr⟩ ow x rfl rfl hR (H.wr g1 g3)).1 w hs
          omega
        · obtain ⟨Q1, Q2, rfl⟩ := List.append_of_mem hm
          have := (H.ordered (L1 := L1 ++ (j, l, .other o) :: Q1) (L2 := Q2) (j := t0) (l := k0) (o' := ow) (by rw [hL]; simp) (i := j) (k := l) (o := o) (by simp) (kd := .rd) (kd' := .wr)
            hk (Ev.has_wr_of g3.1) hx g3 (.inr rfl) trivial).2.2 rfl rfl w oww hs hWr
          omega
      rcases hv with ⟨P, t, k, o1, Q, rfl, hw, rfl, hQ⟩ | ⟨hno, _⟩
      · obtain ⟨w2, hw2, hle⟩ := early (show (t, k, Item.other o1) ∈ _ by simp) hw
        rw [hs] at hw2
        simp only [Option.some.injEq] at hw2
        subst hw2
        have hle := g6 t k o1 (inL (by simp)) hw hle
        have hno : (t0, k0, .other ow) ∈ P → False := by
          intro hP
          have := (H.ordered (L1 := P) (L2 := Q ++ (j, l, .other o) :: L2) (j := t) (l := k) (o' := o1) (by rw [hL]; simp) hP (kd := .wr) (kd' := .wr)
            (Ev.has_wr_of g3.1) (Ev.has_wr_of hw.1) g3 hw (.inl rfl) trivial).1 rfl rfl
          omega
        rcases List.mem_append.1 hin with hin | hin
        · exact (hno hin).elim
        · rcases List.mem_cons.1 hin with he | hin
          · simp only [Prod.mk.injEq, Item.other.injEq] at he
            rw [← g4, he.2.2]
          · exact absurd g3 (hQ _ _ _ hin)
      · exact absurd g3 (hno _ _ _ hin)
    · rw [g2]
      rcases hv with ⟨P, t, k, o1, Q, rfl, hw, rfl, hQ⟩ | ⟨_, rfl⟩
      · obtain ⟨w2, hw2, hle⟩ := early (show (t, k, Item.other o1) ∈ _ by simp) hw
        rw [hs] at hw2
        simp only [Option.some.injEq] at hw2
        subst hw2
        have := g1 t k o1 (inL (by simp)) hw
        omega
      · rfl

/-! ### The run -/

/-- the operations in the sequence -/
def opOf (e : Nat × Nat × Item W) : Option (Nat × Nat × Done W) :=
  match e.2.2 with
  | .op d => some (e.1, e.2.1, d)
  | .other _ => none

omit H in
theorem segE_ops (t : Nat) : ∀ (l : List (Item W)) (k : Nat), (segE t k l).filterMap opOf = [] := by
  intro l k
  refine List.filterMap_eq_nil_iff.2 ?_
  rintro ⟨t', k', it⟩ h
  obtain ⟨_, _, _, _, ⟨o, rfl⟩, _⟩ := mem_segE h
  rfl

omit H in
theorem merged_ops : (merged items N S).filterMap opOf = S := by
  rw [merged, List.filterMap_append]
  have h1 : ((List.range N).flatMap fun t => segE t 0 (items t)).filterMap opOf = [] := by
    refine List.filterMap_eq_nil_iff.2 ?_
    intro y hy
    obtain ⟨t, _, hy⟩ := List.mem_flatMap.1 hy
    exact List.filterMap_eq_nil_iff.1 (segE_ops t (items t) 0) y hy
  rw [h1, List.nil_append]
  induction S with
  | nil => rfl
  | cons e S ih =>
    rw [List.flatMap_cons, List.filterMap_append, ih]
    simp only [opBlock, List.filterMap_cons, segE_ops]
    rfl

/-- a byte of an object -/
def IsObj (items : Nat → List (Item W)) (x : Nat) : Prop :=
  ∃ t d, Item.op d ∈ items t ∧ d.call.addr ≤ x ∧ x < d.call.addr + d.call.width / 8

theorem DSetup.exec : ∀ (L2 L1 : List (Nat × Nat × Item W)) (M ME m : Mem), merged items N S = L1 ++ L2 →
    (∀ x, IsData items x → LastWritten X.m0 x L1 (M x)) → (∀ x, IsObj items x → ME x = M x) →
    Legal A.e ME ((L2.filterMap opOf).map fun e => (e.1, e.2.2.call, e.2.2.ret)) m →
    ∃ m', SCRun A.e M (L2.map fun e => (e.1, e.2.2)) m' := by
  intro L2
  induction L2 with
  | nil => intro L1 M ME m _ _ _ _; exact ⟨M, rfl⟩
  | cons y L2 ih =>
    intro L1 M ME m hL hD hO hleg
    obtain ⟨t, k, it⟩ := y
    have hit : (items t)[k]? = some it := H.mem.1 (by rw [hL]; simp)
    have hmem := List.mem_of_getElem? hit
    have hL' : merged items N S = (L1 ++ [(t, k, it)]) ++ L2 := by rw [hL]; simp
    cases it with
    | op d =>
      simp only [List.filterMap_cons, opOf, List.map_cons, Legal] at hleg
      obtain ⟨m1, hsem, hleg⟩ := hleg
      have hw8 := (H.run.ops t d hmem).2.2.1.mod8
      have hloc := hsem.locally hw8 (M := M) fun x h1 h2 => hO x ⟨t, d, hmem, h1, h2⟩
      have key := fun a b => ih (L1 ++ [(t, k, .op d)]) (overlay M m1 d.call.addr (d.call.width / 8)) m1 m hL' a b hleg
      refine Exists.elim (key ?_ ?_) fun m' hm' => ⟨m', _, hloc, hm'⟩
      · intro x hx
        obtain ⟨t', o, ho, hxo⟩ := hx
        have hne := H.run.apart t' o t d x ho hmem hxo
        have : overlay M m1 d.call.addr (d.call.width / 8) x = M x := by simp only [overlay]; rw [if_neg hne]
        rw [this]
        rcases hD x ⟨t', o, ho, hxo⟩ with ⟨P, t1, k1, o1, Q, rfl, h1, h2, h3⟩ | ⟨h1, h2⟩
        · refine .inl ⟨P, t1, k1, o1, Q ++ [(t, k, .op d)], by simp, h1, h2, fun t2 k2 o2 hm => ?_⟩
          rcases List.mem_append.1 hm with hm | hm
          · exact h3 _ _ _ hm
          · simp at hm
        · refine .inr ⟨fun t2 k2 o2 hm => ?_, h2⟩
          rcases List.mem_append.1 hm with hm | hm
          · exact h1 _ _ _ hm
          · simp at hm
      · intro x hx
        simp only [overlay]
        split
        · rfl
        · rename_i hn
          rw [Call.Sem.outside hsem (by omega)]
          exact hO x hx
    | other o =>
      simp only [List.filterMap_cons, opOf] at hleg
      have hL1 : merged items N S = L1 ++ (t, k, .other o) :: L2 := hL
      open Classical in
      have key := fun a b => ih (L1 ++ [(t, k, .other o)]) (fun x => if o.writes x then o.m' x else M x) ME m hL' a b hleg
      refine Exists.elim (key ?_ ?_) fun m' hm' => ⟨m', _, fun hr x hx => ?_, fun x hx => if_pos hx, fun x hx => if_neg hx, hm'⟩
      rotate_left 2
      · exact H.reads hL1 hr hx (hD x ⟨t, o, hmem, .inl hx⟩)
      · intro x hx
        by_cases hw : o.writes x
        · simp only [if_pos hw]
          exact .inl ⟨L1, t, k, o, [], rfl, hw, rfl, fun _ _ _ h => nomatch h⟩
        · simp only [if_neg hw]
          rcases hD x hx with ⟨P, t1, k1, o1, Q, rfl, h1, h2, h3⟩ | ⟨h1, h2⟩
          · refine .inl ⟨P, t1, k1, o1, Q ++ [(t, k, .other o)], by simp, h1, h2, fun t2 k2 o2 hm => ?_⟩
            rcases List.mem_append.1 hm with hm | hm
            · exact h3 _ _ _ hm
            · simp only [List.mem_singleton, Prod.mk.injEq, Item.other.injEq] at hm
              rw [hm.2.2]; exact hw
          · refine .inr ⟨fun t2 k2 o2 hm => ?_, h2⟩
            rcases List.mem_append.1 hm with hm | hm
            · exact h1 _ _ _ hm
            · simp only [List.mem_singleton, Prod.mk.injEq, Item.other.injEq] at hm
              rw [hm.2.2]; exact hw
      · intro x hx
        have hw : ¬ o.writes x := by
          obtain ⟨t', d, hd, h1, h2⟩ := hx
          exact fun hw => H.run.apart t o t' d x hmem hd (.inr hw) ⟨h1, h2⟩
        simp only [if_neg hw]
        exact hO x hx

theorem DSetup.conclude {m : Mem} (hleg : Legal A.e X.m0 (S.map fun e => (e.1, e.2.2.call, e.2.2.ret)) m) : Interleaved A.e X.m0 items := by
  obtain ⟨m', hm'⟩ := H.exec (merged items N S) [] X.m0 X.m0 m rfl (fun x _ => .inr ⟨fun _ _ _ h => (nomatch h), rfl⟩) (fun _ _ => rfl)
    (by rw [merged_ops]; exact hleg)
  refine ⟨_, m', fun t => ?_, hm'⟩
  have : ofThread t ((merged items N S).map fun e => (e.1, e.2.2)) = (ofThread t (merged items N S)).map fun e => (e.1, e.2.2) := by
    simp only [ofThread, List.filter_map]
    rfl
  rw [this, ofThread_merged H.run.threads H.seq, posItems_map]
end

end Verif
