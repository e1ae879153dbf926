/-
Proof of C42.
-/
import Verif.Weak.Coherence

namespace Verif

theorem IsSize.mod8 {w : Nat} (h : IsSize w) : w % 8 = 0 := by unfold IsSize at h; omega
theorem IsSize.pos {w : Nat} (h : IsSize w) : 0 < w / 8 := by unfold IsSize at h; omega

/-- aligned blocks are nested or disjoint -/
theorem nested {a w b v : Nat} (hw : IsSize w) (hv : IsSize v) (ha : a % (w / 8) = 0) (hb : b % (v / 8) = 0) :
    (a + w / 8 ≤ b ∨ b + v / 8 ≤ a) ∨ (a ≤ b ∧ b + v / 8 ≤ a + w / 8) ∨ (b ≤ a ∧ a + w / 8 ≤ b + v / 8) := by
  unfold IsSize at hw hv
  rcases hw with rfl | rfl | rfl | rfl | rfl <;> rcases hv with rfl | rfl | rfl | rfl | rfl <;> simp at ha hb ⊢ <;> omega

namespace Call
variable {e : Endian}

theorem Sem.outside {c : Call} {m m' : Mem} {r : Ret} (h : c.Sem e m m' r) {x : Nat} (hx : x < c.addr ∨ c.addr + c.width / 8 ≤ x) :
    m' x = m x := by
  cases c with
  | load o w a => obtain ⟨v, ⟨_, rfl⟩, _⟩ := h; rfl
  | store o w a v => obtain ⟨h, _⟩ := h; rw [h]; exact store_outside hx
  | swap o w a v => obtain ⟨y, ⟨_, h⟩, _⟩ := h; rw [h]; exact store_outside hx
  | cas s f w a old new =>
    obtain ⟨y, ok, ⟨_, ⟨_, _, h⟩ | ⟨_, _, h⟩⟩, _⟩ := h <;> rw [h]
    exact store_outside hx
  | casWeak s f w a old new =>
    obtain ⟨y, ok, ⟨_, ⟨_, _, h⟩ | ⟨_, h⟩⟩, _⟩ := h <;> rw [h]
    exact store_outside hx

theorem load_inj {m M : Mem} {a w : Nat} (hw : w % 8 = 0) (h : Verif.load e m a w = Verif.load e M a w) {x : Nat} (h1 : a ≤ x) (h2 : x < a + w / 8) :
    m x = M x := by
  have e1 : m x = Verif.store e m a w (Verif.load e m a w) x := by rw [store_load hw]
  have e2 : M x = Verif.store e M a w (Verif.load e M a w) x := by rw [store_load hw]
  rw [e1, e2, h]
  simp only [Verif.store]
  rw [if_pos ⟨h1, h2⟩, if_pos ⟨h1, h2⟩]

theorem Sem.determined {c : Call} {m m' M M' : Mem} {r : Ret} (hw : c.width % 8 = 0) (h : c.Sem e m m' r) (h' : c.Sem e M M' r)
    {x : Nat} (h1 : c.addr ≤ x) (h2 : x < c.addr + c.width / 8) : m x = M x ∨ m' x = M' x := by
  cases c with
  | load o w a =>
    obtain ⟨v, ⟨g1, _⟩, g2⟩ := h
    obtain ⟨v', ⟨g1', _⟩, g2'⟩ := h'
    have := g2.symm.trans g2'
    simp only [Ret.bits.injEq, heq_eq_eq, true_and] at this
    exact .inl (load_inj (e := e) (w := w) (a := a) hw (g1.symm.trans (this.trans g1')) h1 h2)
  | store o w a v =>
    obtain ⟨g, _⟩ := h
    obtain ⟨g', _⟩ := h'
    right
    rw [g, g']
    simp only [Verif.store]
    rw [if_pos ⟨h1, h2⟩, if_pos ⟨h1, h2⟩]
  | swap o w a v =>
    obtain ⟨v, ⟨g1, _⟩, g2⟩ := h
    obtain ⟨v', ⟨g1', _⟩, g2'⟩ := h'
    have := g2.symm.trans g2'
    simp only [Ret.bits.injEq, heq_eq_eq, true_and] at this
    exact .inl (load_inj (e := e) (w := w) (a := a) hw (g1.symm.trans (this.trans g1')) h1 h2)
  | cas s f w a old new =>
    obtain ⟨v, ok, ⟨g1, _⟩, g2⟩ := h
    obtain ⟨v', ok', ⟨g1', _⟩, g2'⟩ := h'
    have := g2.symm.trans g2'
    simp only [Ret.cas.injEq, heq_eq_eq, true_and] at this
    exact .inl (load_inj (e := e) (w := w) (a := a) hw (g1.symm.trans (this.1.trans g1')) h1 h2)
  | casWeak s f w a old new =>
    obtain ⟨v, ok, ⟨g1, _⟩, g2⟩ := h
    obtain ⟨v', ok', ⟨g1', _⟩, g2'⟩ := h'
    have := g2.symm.trans g2'
    simp only [Ret.cas.injEq, heq_eq_eq, true_and] at this
    exact .inl (load_inj (e := e) (w := w) (a := a) hw (g1.symm.trans (this.1.trans g1')) h1 h2)

theorem overlay_same {m M : Mem} {a n : Nat} (h : Agree m M a n) : overlay M m a n = M := by
  funext x
  simp only [overlay]
  split
  · rename_i hx; exact h x hx.1 hx.2
  · rfl

theorem Sem.locally {c : Call} {m m' M : Mem} {r : Ret} (hw : c.width % 8 = 0) (h : c.Sem e m m' r)
    (hM : Agree m M c.addr (c.width / 8)) : c.Sem e M (overlay M m' c.addr (c.width / 8)) r := by
  have hl := load_congr (e := e) hw hM
  cases c with
  | load o w a =>
    obtain ⟨v, ⟨g1, g2⟩, g3⟩ := h
    exact ⟨v, ⟨g1.trans hl, by rw [g2]; exact overlay_same hM⟩, g3⟩
  | store o w a v =>
    obtain ⟨g1, g2⟩ := h
    exact ⟨by rw [g1]; exact overlay_store, g2⟩
  | swap o w a v =>
    obtain ⟨v, ⟨g1, g2⟩, g3⟩ := h
    exact ⟨v, ⟨g1.trans hl, by rw [g2]; exact overlay_store⟩, g3⟩
  | cas s f w a old new =>
    obtain ⟨v, ok, ⟨g1, ⟨g2, g3, g4⟩ | ⟨g2, g3, g4⟩⟩, g5⟩ := h
    · exact ⟨v, ok, ⟨g1.trans hl, .inl ⟨hl.symm.trans g2, g3, by rw [g4]; exact overlay_store⟩⟩, g5⟩
    · exact ⟨v, ok, ⟨g1.trans hl, .inr ⟨fun hc => g2 (hl.trans hc), g3, by rw [g4]; exact overlay_same hM⟩⟩, g5⟩
  | casWeak s f w a old new =>
    obtain ⟨v, ok, ⟨g1, ⟨g2, g3, g4⟩ | ⟨g3, g4⟩⟩, g5⟩ := h
    · exact ⟨v, ok, ⟨g1.trans hl, .inl ⟨hl.symm.trans g2, g3, by rw [g4]; exact overlay_store⟩⟩, g5⟩
    · exact ⟨v, ok, ⟨g1.trans hl, .inr ⟨g3, by rw [g4]; exact overlay_same hM⟩⟩, g5⟩
end Call

/-! what the access of a point touches -/
section point
variable {W : Nat} {e : Endian} {d : Done W} {p : Nat} {o : Own W}

theorem afterAccess_wr {x : Nat} (h : o.writes x) (M : Mem) : afterAccess o.ins o.rs o.ev o.m' M x = o.m' x := by
  simp only [afterAccess, h.1, overlay]
  rw [if_pos h.2]
theorem afterAccess_not {x : Nat} (h : ¬ o.writes x) (M : Mem) : afterAccess o.ins o.rs o.ev o.m' M x = M x := by
  unfold afterAccess
  cases hw : o.ev.isWrite with
  | true =>
    simp only [overlay]
    rw [if_neg]
    exact fun hc => h ⟨hw, hc⟩
  | false => rfl

/-- another content of byte `x` -/
def flip (m : Mem) (x : Nat) : Mem := fun y => if y = x then ~~~ m x else m y
theorem flip_ne (m : Mem) (x : Nat) : flip m x x ≠ m x := by
  simp only [flip, if_pos]
  intro h
  have := congrArg (fun v : BitVec 8 => v.getLsbD 0) h
  simp at this
theorem flip_agree {m : Mem} {x : Nat} (h : ¬ o.reads x) : Agree (flip m x) m (o.ins.rdFoot o.rs).1 (o.ins.rdFoot o.rs).2 := by
  intro y h1 h2
  simp only [flip]
  rw [if_neg]
  rintro rfl
  exact h ⟨h1, h2⟩

/-- the access at which an operation takes effect touches every byte of the object -/
theorem Point.touch (h : Point e d p o) (hw : d.call.width % 8 = 0) {x : Nat} (h1 : d.call.addr ≤ x)
    (h2 : x < d.call.addr + d.call.width / 8) : o.reads x ∨ o.writes x := by
  refine Classical.byContradiction fun hn => ?_
  have hr : ¬ o.reads x := fun h => hn (.inl h)
  have hwr : ¬ o.writes x := fun h => hn (.inr h)
  have s1 := h.sem o.m (Agree.refl _ _ _)
  have s2 := h.sem (flip o.m x) (flip_agree hr)
  rcases s1.determined hw s2 h1 h2 with he | he
  · exact flip_ne o.m x he.symm
  · rw [afterAccess_not hwr, afterAccess_not hwr] at he
    exact flip_ne o.m x he.symm

/-- other bytes are only rewritten -/
theorem Point.rewrites (h : Point e d p o) {x : Nat} (h1 : x < d.call.addr ∨ d.call.addr + d.call.width / 8 ≤ x)
    (h2 : o.writes x) : o.reads x ∧ o.m' x = o.m x := by
  have s1 := (h.sem o.m (Agree.refl _ _ _)).outside h1
  rw [afterAccess_wr h2] at s1
  refine ⟨Classical.byContradiction fun hn => ?_, s1⟩
  have s2 := (h.sem (flip o.m x) (flip_agree hn)).outside h1
  rw [afterAccess_wr h2, s1] at s2
  exact flip_ne o.m x s2.symm
end point

/-! order of the operations on the object -/

/-- the operations on the object, with their positions -/
def ents {W : Nat} (w a : Nat) : Nat → List (Item W) → List (Nat × Done W)
  | _, [] => []
  | k, .op d :: l => if d.call.On w a then (k, d) :: ents w a (k + 1) l else ents w a (k + 1) l
  | k, .other _ :: l => ents w a (k + 1) l

section ents
variable {W : Nat} {w a : Nat}

theorem mem_ents {l : List (Item W)} {k k' : Nat} {d : Done W} :
    (k', d) ∈ ents w a k l ↔ ∃ j, k' = k + j ∧ l[j]? = some (.op d) ∧ d.call.On w a := by
  induction l generalizing k with
  | nil => simp [ents]
  | cons x t ih =>
    have key : (k', d) ∈ ents w a (k + 1) t ↔ ∃ j, k' = k + (j + 1) ∧ (x :: t)[j + 1]? = some (.op d) ∧ d.call.On w a := by
      rw [ih]
      simp only [List.getElem?_cons_succ]
      constructor <;> rintro ⟨j, h1, h2⟩ <;> exact ⟨j, by omega, h2⟩
    have split : (∃ j, k' = k + j ∧ (x :: t)[j]? = some (.op d) ∧ d.call.On w a) ↔
        (k' = k ∧ x = .op d ∧ d.call.On w a) ∨ ∃ j, k' = k + (j + 1) ∧ (x :: t)[j + 1]? = some (.op d) ∧ d.call.On w a := by
      constructor
      · rintro ⟨j, h1, h2, h3⟩
        cases j with
        | zero => simp only [List.getElem?_cons_zero, Option.some.injEq] at h2; exact .inl ⟨by omega, h2, h3⟩
        | succ j => exact .inr ⟨j, h1, h2, h3⟩
      · rintro (⟨h1, h2, h3⟩ | ⟨j, h⟩)
        · exact ⟨0, by omega, by rw [h2]; rfl, h3⟩
        · exact ⟨j + 1, h⟩
    rw [split, ← key]
    cases x with
    | other o => simp [ents]
    | op d' =>
      simp only [ents]
      split
      · rename_i hon
        simp only [List.mem_cons, Prod.mk.injEq, Item.op.injEq]
        constructor
        · rintro (⟨rfl, rfl⟩ | h)
          · exact .inl ⟨rfl, rfl, hon⟩
          · exact .inr h
        · rintro (⟨rfl, rfl, _⟩ | h)
          · exact .inl ⟨rfl, rfl⟩
          · exact .inr h
      · rename_i hon
        constructor
        · exact .inr
        · rintro (⟨_, h, h'⟩ | h)
          · simp only [Item.op.injEq] at h; subst h; exact absurd h' hon
          · exact h

theorem ents_ge {l : List (Item W)} {k k' : Nat} {d : Done W} (h : (k', d) ∈ ents w a k l) : k ≤ k' := by
  obtain ⟨j, h, _⟩ := mem_ents.1 h
  omega

theorem ents_sorted {l : List (Item W)} {k : Nat} : (ents w a k l).Pairwise fun x y => x.1 < y.1 := by
  induction l generalizing k with
  | nil => simp [ents]
  | cons x t ih =>
    cases x with
    | other o => exact ih
    | op d =>
      simp only [ents]
      split
      · refine List.pairwise_cons.2 ⟨?_, ih⟩
        rintro ⟨k', d'⟩ h
        exact ents_ge h
      · exact ih

theorem ents_map {l : List (Item W)} {k : Nat} : (ents w a k l).map Prod.snd = (opsOf l).filter fun d => d.call.On w a := by
  induction l generalizing k with
  | nil => simp [ents, opsOf]
  | cons x t ih =>
    cases x with
    | other o => simp only [ents, ih]; simp [opsOf]
    | op d =>
      have : opsOf (Item.op d :: t) = d :: opsOf t := rfl
      simp only [ents, this, List.filter_cons]
      split
      · rename_i h; simp [h, ih]
      · rename_i h; simp [h, ih]

/-- the operations of all threads on the object -/
def allEnts (w a : Nat) (items : Nat → List (Item W)) (N : Nat) : List (Nat × Nat × Done W) :=
  (List.range N).flatMap fun t => (ents w a 0 (items t)).map fun e => (t, e)

theorem mem_allEnts {items : Nat → List (Item W)} {N : Nat} (hN : ∀ t, N ≤ t → items t = []) {t k : Nat} {d : Done W} :
    (t, k, d) ∈ allEnts w a items N ↔ (items t)[k]? = some (.op d) ∧ d.call.On w a := by
  simp only [allEnts, List.mem_flatMap, List.mem_range, List.mem_map, Prod.mk.injEq]
  constructor
  · rintro ⟨t', _, ⟨k', d'⟩, h, rfl, h'⟩
    simp only [Prod.mk.injEq] at h'
    obtain ⟨rfl, rfl⟩ := h'
    obtain ⟨j, h1, h2⟩ := mem_ents.1 h
    rw [Nat.zero_add] at h1
    exact h1 ▸ h2
  · intro h
    have ht : t < N := by
      rcases Nat.lt_or_ge t N with ht | ht
      · exact ht
      · have := h.1; rw [hN t ht] at this; simp at this
    exact ⟨t, ht, (k, d), mem_ents.2 ⟨k, by omega, h⟩, rfl, rfl⟩

theorem ofThread_all {items : Nat → List (Item W)} {N : Nat} (hN : ∀ t, N ≤ t → items t = []) (t : Nat) :
    ofThread t (allEnts w a items N) = (ents w a 0 (items t)).map fun e => (t, e) := by
  have gen : ∀ N, ofThread t (allEnts w a items N) = if t < N then (ents w a 0 (items t)).map fun e => (t, e) else [] := by
    intro N
    induction N with
    | zero => rfl
    | succ N ih =>
      have : allEnts w a items (N + 1) = allEnts w a items N ++ (ents w a 0 (items N)).map fun e => (N, e) := by
        simp [allEnts, List.range_succ]
      rw [this, ofThread_append, ih]
      by_cases h : t = N
      · subst h
        rw [if_neg (by omega), if_pos (by omega), List.nil_append]
        simp only [ofThread]
        exact List.filter_eq_self.2 (by simp; intro _ _ _ _ _ _ h _ _; exact h.symm)
      · have : ofThread t ((ents w a 0 (items N)).map fun e => (N, e)) = [] := by
          simp only [ofThread]
          exact List.filter_eq_nil_iff.2 (by simp; omega)
        rw [this, List.append_nil]
        by_cases h2 : t < N
        · rw [if_pos h2, if_pos (by omega)]
        · rw [if_neg h2, if_neg (by omega)]
  rw [gen]
  split
  · rfl
  · rw [hN t (by omega)]; rfl

theorem allEnts_nodup {items : Nat → List (Item W)} {N : Nat} : (allEnts w a items N).Nodup := by
  refine List.pairwise_flatMap.2 ⟨fun t _ => ?_, ?_⟩
  · refine List.pairwise_map.2 (ents_sorted.imp ?_)
    intro x y h he
    simp only [Prod.mk.injEq, true_and] at he
    rw [he] at h
    omega
  · refine List.nodup_range.imp ?_
    intro t t' h x hx y hy he
    simp only [List.mem_map] at hx hy
    obtain ⟨_, _, rfl⟩ := hx
    obtain ⟨_, _, rfl⟩ := hy
    simp only [Prod.mk.injEq] at he
    exact h he.1

/-- a stable sort keeps the order of each thread -/
theorem ofThread_sort {α : Type} {l : List (Nat × α)} {κ : Nat × α → Nat} {t : Nat}
    (h : (ofThread t l).Pairwise fun x y => κ x ≤ κ y) :
    ofThread t (l.mergeSort fun x y => decide (κ x ≤ κ y)) = ofThread t l := by
  have tr : ∀ a b c : Nat × α, decide (κ a ≤ κ b) = true → decide (κ b ≤ κ c) = true → decide (κ a ≤ κ c) = true := by
    intro a b c; simp only [decide_eq_true_eq]; omega
  have to : ∀ a b : Nat × α, (decide (κ a ≤ κ b) || decide (κ b ≤ κ a)) = true := by
    intro a b; simp only [Bool.or_eq_true, decide_eq_true_eq]; omega
  have hs : (ofThread t l).Sublist (l.mergeSort fun x y => decide (κ x ≤ κ y)) :=
    List.sublist_mergeSort tr to (h.imp (by intro a b h; simpa using h)) List.filter_sublist
  have hs' := hs.filter fun x => x.1 == t
  have hl : (ofThread t l).filter (fun x => x.1 == t) = ofThread t l := by
    simp only [ofThread, List.filter_filter, Bool.and_self]
  rw [hl] at hs'
  refine (hs'.eq_of_length ?_).symm
  exact ((List.mergeSort_perm l _).filter _).length_eq.symm
end ents

/-! the execution -/

theorem IsPt.kind {W : Nat} {A : Backend W} {items : Nat → List (Item W)} {t k : Nat} {d : Done W} {n : Node} {o : Own W} (h : IsPt A.e items t k d n o) : n.kind = ptKind o.ev := by
  obtain ⟨p, _, rfl⟩ := h.pt
  rfl

section
variable {W : Nat} {A : Backend W} {X : AxShape W} {rf : Node → Nat → Option Node} {items : Nat → List (Item W)}
/-- the read that belongs to the write of an operation, and what it reads -/
theorem Prog.follows (H : Prog A X items) (ax : CohExec X rf)
    (nat : ∀ t d o, Item.op d ∈ items t → o ∈ owns d.tr → o.ev.isAccess = true → o.Natural)
    (rdwr : ∀ t d o x, Item.op d ∈ items t → o ∈ owns d.tr → o.ev.isWrite = true → o.reads x → o.writes x) {t k : Nat} {d : Done W} {n : Node} {o : Own W} (h : IsPt A.e items t k d n o) {x : Nat}
    (hx : o.reads x) (hwr : o.ev.isWrite = true) :
    ∃ i l, (owns d.tr)[i]? = some l ∧ l.ev.has .rd ∧ l.Natural ∧ (∀ y, o.reads y → l.reads y ∧ l.m y = o.m y) ∧
      X.Follows (fun _ => True) x (rf ⟨t, off (items t) k + i, .rd⟩ x) n ∧
      (((∃ ac, o.ev = .rmw ac) ∧ off (items t) k + i = n.pos) ∨
        (o.ins.isSC = true ∧ (∃ ac, o.ev = .wr ac) ∧ off (items t) k + i < n.pos ∧
          ∀ q o', i < q → off (items t) k + q < n.pos → (owns d.tr)[q]? = some o' → o'.ins.isLL = false)) := by
  obtain ⟨p, hp, hn⟩ := h.pt
  have hm := List.mem_of_getElem? h.item
  have ho := List.mem_of_getElem? hp.get
  have hnatural := nat t d o hm ho hp.acc
  have hwx := rdwr t d o x hm ho hwr hx
  have hW : X.Wr n o x := ⟨H.isPt_at h, by rw [h.kind]; simp [ptKind, hwx.1], hnatural, hwx⟩
  rcases hp.kinds with ⟨ac, hev⟩ | ⟨ac, hev⟩ | ⟨⟨ac, hev⟩, hno | ⟨hsc, i, l, acc, hi, hl, hll, hlev, hbetween, hsame⟩⟩
  · rw [hev] at hwr; cases hwr
  · have hat : X.At ⟨t, off (items t) k + p, .rd⟩ o := H.at_pos h.item hp.get (by rw [hev]; trivial)
    have hR : X.Rd ⟨t, off (items t) k + p, .rd⟩ o x := ⟨hat, rfl, hnatural, hx⟩
    exact ⟨p, o, hp.get, by rw [hev]; trivial, hnatural, fun y hy => ⟨hy, rfl⟩,
      ax.rmw _ n o x (by rw [hn]) (by rw [hn]) hR hW, .inl ⟨⟨ac, hev⟩, by rw [hn]⟩⟩
  · exact absurd hx (hno x)
  · obtain ⟨_, g2, g3⟩ := hsame x hx
    have hat : X.At ⟨t, off (items t) k + i, .rd⟩ l := H.at_pos h.item hl (by rw [hlev]; trivial)
    have hnat := nat t d l hm (List.mem_of_getElem? hl) (by rw [hlev]; rfl)
    have hR : X.Rd ⟨t, off (items t) k + i, .rd⟩ l x := ⟨hat, rfl, hnat, g2⟩
    have hpos : (⟨t, off (items t) k + i, .rd⟩ : Node).pos < n.pos := by rw [hn]; simp; omega
    have hF := ax.llsc _ n l o x (by rw [hn]) hpos hR hW hll hsc ?_
    · refine ⟨i, l, hl, by rw [hlev]; trivial, hnat, fun y hy => (hsame y hy).2, ⟨hF.1, fun u ou _ hu hlt => ?_⟩,
        .inr ⟨hsc, ⟨ac, hev⟩, hpos, ?_⟩⟩
      · by_cases ht : u.thread = t
        · rcases Nat.lt_or_ge u.pos (off (items t) k + i) with hq | hq
          · exact ax.coWR u _ ou l x ht hq hu hR
          · rcases Nat.lt_trichotomy u.pos n.pos with hq' | hq' | hq'
            · exfalso
              obtain ⟨j, hj⟩ := Nat.exists_eq_add_of_le (show off (items t) k ≤ u.pos by omega)
              rw [hn] at hq'
              simp only at hq'
              have hjl : j < (owns d.tr).length := by
                have := (List.getElem?_eq_some_iff.1 hp.get).1
                omega
              have hg := item_get h.item (it := .op d) (q := j) (o := (owns d.tr)[j]) (List.getElem?_eq_getElem hjl)
              have hu1 := hu.1.1
              rw [ht, H.po, hj, hg] at hu1
              simp only [Option.some.injEq] at hu1
              have := hp.before j ou (by omega) (by rw [← hu1]; exact List.getElem?_eq_getElem hjl)
              rw [hu.2.2.2.1] at this; cases this
            · exfalso
              obtain rfl : u = n := by
                obtain ⟨ut, up, uk⟩ := u
                obtain ⟨nt, np, nk⟩ := n
                have e1 := hu.2.1
                have e2 := hW.2.1
                simp only at ht hq' e1 e2
                have e3 : nt = t := by simp only [Node.mk.injEq] at hn; exact hn.1
                rw [ht, hq', e1, e2, e3]
              exact Nat.lt_irrefl _ hlt
            · have := ax.coWW n u o ou x (by rw [hn, ht]) hq' hW hu
              omega
        · exact hF.2 u ou ht hu hlt
      · intro q o' hq hq' ho'
        rw [hn] at hq'
        simp only at hq'
        exact hbetween q o' hq (by omega) ho'
    · intro q o' hq hq' ho'
      simp only at hq ho'
      rw [hn] at hq'
      simp only at hq'
      obtain ⟨j, rfl⟩ := Nat.exists_eq_add_of_le (show off (items t) k ≤ q by omega)
      have hj : j < (owns d.tr).length := by
        have := (List.getElem?_eq_some_iff.1 hp.get).1
        omega
      have := item_get h.item (it := .op d) (q := j) (o := (owns d.tr)[j]) (List.getElem?_eq_getElem hj)
      rw [H.po, this] at ho'
      simp only [Option.some.injEq] at ho'
      exact hbetween j o' (by omega) (by omega) (by rw [← ho']; exact List.getElem?_eq_getElem hj)

end

/-- the hypotheses of C42 -/
structure CSetup {W : Nat} (A : Backend W) (X : AxShape W) (rf : Node → Nat → Option Node) (items : Nat → List (Item W))
    (w a : Nat) : Prop extends Prog A X items where
  ax : CohExec X rf
  size : IsSize w
  al : a % (w / 8) = 0
  nat : ∀ t d o, Item.op d ∈ items t → o ∈ owns d.tr → o.ev.isAccess = true → o.Natural
  rdwr : ∀ t d o x, Item.op d ∈ items t → o ∈ owns d.tr → o.ev.isWrite = true → o.reads x → o.writes x
  foot : ∀ t d o, Item.op d ∈ items t → o ∈ owns d.tr → o.ev.isWrite = true →
    ∃ y b, IsSize b ∧ y % (b / 8) = 0 ∧ o.ins.wrFoot o.rs = (y, b / 8)
  calls : ∀ t d, Item.op d ∈ items t → d.call.OnOrOff w a
  foreign : ∀ t o x, Item.other o ∈ items t → a ≤ x → x < a + w / 8 → ¬ o.writes x

section csetup
variable {W : Nat} {A : Backend W} {X : AxShape W} {rf : Node → Nat → Option Node} {items : Nat → List (Item W)}
  {w a : Nat} (H : CSetup A X rf items w a)
include H

theorem CSetup.natural {t k : Nat} {d : Done W} {n : Node} {o : Own W} (h : IsPt A.e items t k d n o) : o.Natural := by
  obtain ⟨p, hp, _⟩ := h.pt
  exact H.nat t d o (List.mem_of_getElem? h.item) (List.mem_of_getElem? hp.get) hp.acc

theorem CSetup.wr {t k : Nat} {d : Done W} {n : Node} {o : Own W} (h : IsPt A.e items t k d n o) {x : Nat} (hx : o.writes x) :
    X.Wr n o x := ⟨H.isPt_at h, by rw [h.kind]; simp [ptKind, hx.1], H.natural h, hx⟩

theorem CSetup.rd {t k : Nat} {d : Done W} {n : Node} {o : Own W} (h : IsPt A.e items t k d n o) {x : Nat}
    (hw : o.ev.isWrite = false) (hx : o.reads x) : X.Rd n o x :=
  ⟨H.isPt_at h, by rw [h.kind]; simp [ptKind, hw], H.natural h, hx⟩

/-- every write to the object is the point of an operation -/
theorem CSetup.write {n : Node} {x : Nat} {v : BitVec 8} (h : X.WritesByte n x v) (h1 : a ≤ x) (h2 : x < a + w / 8) :
    ∃ k d o, IsPt A.e items n.thread k d n o ∧ o.writes x ∧ o.m' x = v := by
  rcases H.toProg.write h with h | ⟨o, g1, g2⟩
  · exact h
  · exact absurd g2 (H.foreign _ o x g1 h1 h2)

/-- a write to a byte of the object writes all of it -/
theorem CSetup.cover {t k : Nat} {d : Done W} {n : Node} {o : Own W} (h : IsPt A.e items t k d n o) {x y : Nat}
    (hx : o.writes x) (h1 : a ≤ x) (h2 : x < a + w / 8) (h3 : a ≤ y) (h4 : y < a + w / 8) : o.writes y := by
  obtain ⟨p, hp, _⟩ := h.pt
  have hm := List.mem_of_getElem? h.item
  have ho := List.mem_of_getElem? hp.get
  obtain ⟨hs, hal, hon⟩ := H.calls t d hm
  have touch : ∀ z, d.call.addr ≤ z → z < d.call.addr + d.call.width / 8 → o.writes z := fun z g1 g2 =>
    (hp.touch hs.mod8 g1 g2).elim (H.rdwr t d o z hm ho hx.1) id
  rcases hon with ⟨rfl, rfl⟩ | hoff
  · exact touch y h3 h4
  · obtain ⟨f, b, g1, g2, g3⟩ := H.foot t d o hm ho hx.1
    have hin : ∀ z, o.writes z ↔ f ≤ z ∧ z < f + b / 8 := by
      intro z
      simp only [Own.writes, hx.1, true_and, g3]
    rw [hin] at hx ⊢
    rcases nested H.size g1 H.al g2 with hd | ⟨hd1, hd2⟩ | ⟨hd1, hd2⟩
    · omega
    · have hpos := hs.pos
      have := (hin _).1 (touch d.call.addr (Nat.le_refl _) (by omega))
      unfold Call.Off at hoff
      omega
    · omega

/-- a pure read of the object takes all its bytes from the same write -/
theorem CSetup.same {n : Node} {o : Own W} {x y : Nat} {s : Node} (hx : X.Rd n o x) (hy : X.Rd n o y)
    (h1 : a ≤ x) (h2 : x < a + w / 8) (h3 : a ≤ y) (h4 : y < a + w / 8) (hs : rf n x = some s) : rf n y = some s := by
  have hw : X.WritesByte s x (o.m x) := (H.ax.value n o x hx.1 hx.2.1 hx.2.2.2).1 s hs
  obtain ⟨k, d, os, hp, hwx, _⟩ := H.write hw h1 h2
  have hwy := H.cover hp hwx h1 h2 h3 h4
  obtain ⟨s', hs', hle⟩ := H.ax.single n o x y s os hx hy hs (H.wr hp hwy)
  have hw' : X.WritesByte s' y (o.m y) := (H.ax.value n o y hy.1 hy.2.1 hy.2.2.2).1 s' hs'
  obtain ⟨k', d', os', hp', hwy', _⟩ := H.write hw' h3 h4
  have hwx' := H.cover hp' hwy' h3 h4 h1 h2
  obtain ⟨s'', hs'', hle'⟩ := H.ax.single n o y x s' os' hy hx hs' (H.wr hp' hwx')
  rw [hs] at hs''
  simp only [Option.some.injEq] at hs''
  subst hs''
  have := H.ax.inj _ _ _ _ _ _ (H.wr hp hwx) (H.wr hp' hwx') (by omega)
  rw [hs', this]

/-- the read that belongs to the write of an operation, and what it reads -/
theorem CSetup.follows {t k : Nat} {d : Done W} {n : Node} {o : Own W} (h : IsPt A.e items t k d n o) {x : Nat}
    (_ : a ≤ x) (_ : x < a + w / 8) (hx : o.reads x) (hwr : o.ev.isWrite = true) :
    ∃ i l, (owns d.tr)[i]? = some l ∧ l.ev.has .rd ∧ l.Natural ∧ (∀ y, o.reads y → l.reads y ∧ l.m y = o.m y) ∧
      X.Follows (fun _ => True) x (rf ⟨t, off (items t) k + i, .rd⟩ x) n ∧
      (((∃ ac, o.ev = .rmw ac) ∧ off (items t) k + i = n.pos) ∨
        (o.ins.isSC = true ∧ (∃ ac, o.ev = .wr ac) ∧ off (items t) k + i < n.pos ∧
          ∀ q o', i < q → off (items t) k + q < n.pos → (owns d.tr)[q]? = some o' → o'.ins.isLL = false)) :=
  H.toProg.follows H.ax H.nat H.rdwr h hx hwr

/-- what an operation that writes has read is the newest content before it -/
theorem CSetup.fresh {t k : Nat} {d : Done W} {n : Node} {o : Own W} (h : IsPt A.e items t k d n o) {x : Nat}
    (h1 : a ≤ x) (h2 : x < a + w / 8) (hx : o.reads x) (hwr : o.ev.isWrite = true) :
    X.Newest (fun u => X.rank u < X.rank n) x (o.m x) := by
  obtain ⟨i, l, hl, hrd, _, hsame, ⟨f1, f2⟩, _⟩ := H.follows h h1 h2 hx hwr
  obtain ⟨v1, v2⟩ := H.ax.value _ l x (H.at_pos h.item hl hrd) rfl (hsame x hx).1
  rw [(hsame x hx).2] at v1 v2
  have isW : ∀ u v', X.WritesByte u x v' → ∃ ou, X.Wr u ou x := by
    intro u v' hu
    obtain ⟨_, _, ou, hpu, hwu, _⟩ := H.write hu h1 h2
    exact ⟨ou, H.wr hpu hwu⟩
  cases hs : rf ⟨t, off (items t) k + i, .rd⟩ x with
  | none =>
    refine .inr ⟨fun u v' hlt hu => ?_, v2 hs⟩
    obtain ⟨ou, hou⟩ := isW u v' hu
    obtain ⟨_, hc, _⟩ := f2 u ou trivial hou hlt
    rw [hs] at hc; cases hc
  | some s =>
    refine .inl ⟨s, f1 s hs, v1 s hs, fun u v' hlt hu => ?_⟩
    obtain ⟨ou, hou⟩ := isW u v' hu
    obtain ⟨s', hc, hle⟩ := f2 u ou trivial hou hlt
    rw [hs] at hc
    simp only [Option.some.injEq] at hc
    rw [hc]; exact hle

theorem CSetup.newest_unique {S : Node → Prop} {x : Nat} {v v' : BitVec 8} (h1 : a ≤ x) (h2 : x < a + w / 8)
    (h : X.Newest S x v) (h' : X.Newest S x v') : v = v' := by
  rcases h with ⟨n, g1, g2, g3⟩ | ⟨g1, g2⟩ <;> rcases h' with ⟨n', g1', g2', g3'⟩ | ⟨g1', g2'⟩
  · have := Nat.le_antisymm (g3 n' v' g1' g2') (g3' n v g1 g2)
    obtain ⟨k, d, o, hp, hw, hv⟩ := H.write g2 h1 h2
    obtain ⟨k', d', o', hp', hw', hv'⟩ := H.write g2' h1 h2
    have hn := H.ax.inj _ _ _ _ _ _ (H.wr hp' hw') (H.wr hp hw) this
    subst hn
    have e := (H.isPt_at hp).1.symm.trans (H.isPt_at hp').1
    simp only [Option.some.injEq] at e
    rw [← hv, ← hv', e]
  · exact absurd g2 (g1' n v g1)
  · exact absurd g2' (g1 n' v' g1')
  · rw [g2, g2']

/-- memory `M` has in the object what the writes before place `r` left there -/
def AtCut (X : AxShape W) (w a r : Nat) (M : Mem) : Prop :=
  ∀ x, a ≤ x → x < a + w / 8 → X.Newest (fun u => X.rank u < r) x (M x)

/-- operations on other objects do not change the object -/
theorem CSetup.advance {r : Nat} {M : Mem} (h : AtCut X w a r M) : ∀ j,
    (∀ t k d n o, IsPt A.e items t k d n o → d.call.On w a → o.ev.isWrite = true → r ≤ X.rank n → X.rank n < r + j → False) →
    AtCut X w a (r + j) M := by
  intro j
  induction j with
  | zero => intro _; exact h
  | succ j ih =>
    intro hno x h1 h2
    have ih := ih (fun t k d n o hp hon hw g1 g2 => hno t k d n o hp hon hw g1 (by omega)) x h1 h2
    by_cases hex : ∃ n v, X.WritesByte n x v ∧ X.rank n = r + j
    · obtain ⟨n, v, hw, hr⟩ := hex
      obtain ⟨k, d, o, hp, hwx, hv⟩ := H.write hw h1 h2
      obtain ⟨p, hpt, _⟩ := hp.pt
      have hoff : d.call.Off w a := by
        rcases (H.calls _ d (List.mem_of_getElem? hp.item)).2.2 with hon | hoff
        · exact (hno _ k d n o hp hon hwx.1 (by omega) (by omega)).elim
        · exact hoff
      unfold Call.Off at hoff
      obtain ⟨hrd, hsame⟩ := hpt.rewrites (x := x) (by omega) hwx
      have hf := H.fresh hp h1 h2 hrd hwx.1
      rw [hr] at hf
      have := H.newest_unique h1 h2 ih hf
      refine .inl ⟨n, by omega, ?_, fun n' v' hlt _ => by omega⟩
      rw [this, ← hsame, hv]
      exact hw
    · refine ih.congr fun n v' hw => ?_
      have : X.rank n ≠ r + j := fun hr => hex ⟨n, v', hw, hr⟩
      constructor <;> intro <;> omega

/-- place of an operation on the object: twice the number of writes before it, plus one for a write -/
def keyOf (X : AxShape W) (rf : Node → Nat → Option Node) (a : Nat) (n : Node) (ev : Ev) : Nat :=
  match ev.isWrite with
  | true => 2 * X.rank n + 1
  | false => match rf n a with
    | some s => 2 * (X.rank s + 1)
    | none => 0

theorem CSetup.touch {t k : Nat} {d : Done W} {n : Node} {o : Own W} (h : IsPt A.e items t k d n o) (hon : d.call.On w a)
    {x : Nat} (h1 : a ≤ x) (h2 : x < a + w / 8) :
    (o.ev.isWrite = true → X.Wr n o x) ∧ (o.ev.isWrite = false → X.Rd n o x) := by
  obtain ⟨p, hp, _⟩ := h.pt
  have hm := List.mem_of_getElem? h.item
  obtain ⟨rfl, rfl⟩ := hon
  have ht := hp.touch (H.calls t d hm).1.mod8 h1 h2
  constructor
  · intro hw
    exact H.wr h (ht.elim (H.rdwr t d o x hm (List.mem_of_getElem? hp.get) hw) id)
  · intro hw
    exact H.rd h hw (ht.elim id fun hc => by have := hc.1; rw [hw] at this; cases this)

/-- program order is respected -/
theorem CSetup.mono {t k k' : Nat} {d d' : Done W} {n n' : Node} {o o' : Own W} (hk : k < k') (h : IsPt A.e items t k d n o)
    (h' : IsPt A.e items t k' d' n' o') (hon : d.call.On w a) (hon' : d'.call.On w a) :
    keyOf X rf a n o.ev ≤ keyOf X rf a n' o'.ev := by
  have hpos := (h.eq_of_pos h').2 hk
  have hth : n.thread = n'.thread := by rw [h.pos.1, h'.pos.1]
  have hsz := H.size.pos
  have t1 := H.touch h hon (Nat.le_refl a) (by omega)
  have t2 := H.touch h' hon' (Nat.le_refl a) (by omega)
  unfold keyOf
  cases hw : o.ev.isWrite with
  | true =>
    cases hw' : o'.ev.isWrite with
    | true => have := H.ax.coWW n n' o o' a hth hpos (t1.1 hw) (t2.1 hw'); simp only; omega
    | false =>
      obtain ⟨s, hs, hle⟩ := H.ax.coWR n n' o o' a hth hpos (t1.1 hw) (t2.2 hw')
      simp only [hs]; omega
  | false =>
    cases hs : rf n a with
    | none => exact Nat.zero_le _
    | some s =>
      cases hw' : o'.ev.isWrite with
      | true => have := H.ax.coRW n n' o o' a s hth hpos (t1.2 hw) (t2.1 hw') hs; simp only; omega
      | false =>
        obtain ⟨s', hs', hle⟩ := H.ax.coRR n n' o o' a s hth hpos (t1.2 hw) (t2.2 hw') hs
        simp only [hs']; omega

/-- one operation on the object: from the right cut to the right cut -/
theorem CSetup.exec {t k : Nat} {d : Done W} {n : Node} {o : Own W} (h : IsPt A.e items t k d n o) (hon : d.call.On w a)
    {r : Nat} {M : Mem} (hr : r = keyOf X rf a n o.ev / 2) (hM : AtCut X w a r M) :
    ∃ M', d.call.Sem A.e M M' d.ret ∧ AtCut X w a ((keyOf X rf a n o.ev + 1) / 2) M' := by
  obtain ⟨p, hp, _⟩ := h.pt
  have hm := List.mem_of_getElem? h.item
  have ⟨hw8, ha8⟩ : d.call.width = w ∧ d.call.addr = a := hon
  have hsz := H.size.mod8
  -- the memory the operation saw
  let Ms : Mem := fun y => if (o.ins.rdFoot o.rs).1 ≤ y ∧ y < (o.ins.rdFoot o.rs).1 + (o.ins.rdFoot o.rs).2 then o.m y else M y
  have hag : Agree Ms o.m (o.ins.rdFoot o.rs).1 (o.ins.rdFoot o.rs).2 := fun x h1 h2 => if_pos ⟨h1, h2⟩
  have hfresh : ∀ x, a ≤ x → x < a + w / 8 → o.reads x → o.m x = M x := by
    intro x h1 h2 hx
    refine H.newest_unique h1 h2 ?_ (hM x h1 h2)
    subst hr
    unfold keyOf
    cases hw : o.ev.isWrite with
    | true =>
      have e : (2 * X.rank n + 1) / 2 = X.rank n := by omega
      simp only [e]
      exact H.fresh h h1 h2 hx hw
    | false =>
      have hpos := H.size.pos
      have hRa := (H.touch h hon (Nat.le_refl a) (by omega)).2 hw
      have hRx := (H.touch h hon h1 h2).2 hw
      obtain ⟨v1, v2⟩ := H.ax.value n o x hRx.1 hRx.2.1 hx
      cases hs : rf n a with
      | none =>
        have : rf n x = none := by
          cases hs' : rf n x with
          | none => rfl
          | some s => rw [H.same hRx hRa h1 h2 (Nat.le_refl a) (by omega) hs'] at hs; cases hs
        exact .inr ⟨fun u v' hlt _ => by simp at hlt, v2 this⟩
      | some s =>
        have hsx := H.same hRa hRx (Nat.le_refl a) (by omega) h1 h2 hs
        refine .inl ⟨s, ?_, v1 s hsx, fun u v' hlt _ => ?_⟩
        · simp only; omega
        · simp only at hlt; omega
  have hobj : Agree Ms M d.call.addr (d.call.width / 8) := by
    rw [hw8, ha8]
    intro x h1 h2
    by_cases hx : o.reads x
    · have : Ms x = o.m x := if_pos hx
      rw [this]; exact hfresh x h1 h2 hx
    · exact if_neg hx
  have hsem := hp.sem Ms hag
  have hloc := hsem.locally (by rw [hw8]; exact hsz) hobj
  refine ⟨_, hloc, ?_⟩
  rw [hw8, ha8]
  rw [hw8, ha8] at hobj
  intro x h1 h2
  have hval : overlay M (afterAccess o.ins o.rs o.ev o.m' Ms) a (w / 8) x = afterAccess o.ins o.rs o.ev o.m' Ms x := by
    simp only [overlay]; rw [if_pos ⟨h1, h2⟩]
  rw [hval]
  cases hw : o.ev.isWrite with
  | true =>
    have hW := (H.touch h hon h1 h2).1 hw
    rw [afterAccess_wr hW.2.2.2]
    have e : (keyOf X rf a n o.ev + 1) / 2 = X.rank n + 1 := by
      unfold keyOf; simp only [hw]; omega
    rw [e]
    exact .inl ⟨n, by omega, ⟨hW.2.1, o, hW.1, hW.2.2.2, rfl⟩, fun u v' hlt _ => by omega⟩
  | false =>
    have hnw : ¬ o.writes x := fun hc => by rw [hc.1] at hw; cases hw
    rw [afterAccess_not hnw, hobj x h1 h2]
    have e : (keyOf X rf a n o.ev + 1) / 2 = r := by
      rw [hr]; unfold keyOf; simp only [hw]
      cases rf n a with
      | none => simp
      | some s => simp only; omega
    rw [e]
    exact hM x h1 h2

/-- a list of all operations on the object, ordered by place, is legal -/
theorem CSetup.legal (κ : Nat × Nat × Done W → Nat)
    (hκ : ∀ t k d n o, IsPt A.e items t k d n o → κ (t, k, d) = keyOf X rf a n o.ev)
    (S : List (Nat × Nat × Done W)) (hsort : S.Pairwise fun x y => κ x ≤ κ y) (hnd : S.Nodup)
    (hmem : ∀ t k d, (t, k, d) ∈ S ↔ (items t)[k]? = some (.op d) ∧ d.call.On w a) :
    ∀ (S2 S1 : List (Nat × Nat × Done W)) (r : Nat) (M : Mem), S = S1 ++ S2 → AtCut X w a r M →
      (∀ e ∈ S1, κ e ≤ 2 * r) → (∀ e ∈ S2, 2 * r ≤ κ e) →
      ∃ M' r', Legal A.e M (S2.map fun e => (e.1, e.2.2.call, e.2.2.ret)) M' ∧ AtCut X w a r' M' ∧ ∀ e ∈ S, κ e ≤ 2 * r' := by
  intro S2
  induction S2 with
  | nil =>
    intro S1 r M hS hM h1 _
    refine ⟨M, r, rfl, hM, ?_⟩
    rw [hS, List.append_nil]; exact h1
  | cons e S2 ih =>
    obtain ⟨t, k, d⟩ := e
    intro S1 r M hS hM h1 h2
    obtain ⟨hitem, hon⟩ := (hmem t k d).1 (by rw [hS]; simp)
    obtain ⟨n, o, hp⟩ := H.exists_isPt hitem
    have hk := hκ _ _ _ _ _ hp
    have hr := h2 (t, k, d) List.mem_cons_self
    have hS' := hsort
    rw [hS] at hS'
    have hlater := (List.pairwise_cons.1 (List.pairwise_append.1 hS').2.1).1
    -- no operation on the object writes between the cuts
    have hadv := H.advance hM (κ (t, k, d) / 2 - r) fun t' k' d' n' o' hp' hon' hw' g1 g2 => by
      have hk' : κ (t', k', d') = 2 * X.rank n' + 1 := by rw [hκ _ _ _ _ _ hp']; unfold keyOf; rw [hw']
      have hin := (hmem t' k' d').2 ⟨hp'.item, hon'⟩
      rw [hS] at hin
      rcases List.mem_append.1 hin with hin | hin
      · have := h1 _ hin; omega
      · rcases List.mem_cons.1 hin with heq | hin
        · rw [heq] at hk'; omega
        · have := hlater _ hin; omega
    have e1 : r + (κ (t, k, d) / 2 - r) = κ (t, k, d) / 2 := by omega
    rw [e1] at hadv
    obtain ⟨M1, hsem, hM1⟩ := H.exec hp hon (by rw [hk]) hadv
    rw [← hk] at hM1
    have hi1 : ∀ e ∈ S1 ++ [(t, k, d)], κ e ≤ 2 * ((κ (t, k, d) + 1) / 2) := by
      intro e he
      rcases List.mem_append.1 he with he | he
      · have := h1 e he; omega
      · simp only [List.mem_singleton] at he; rw [he]; omega
    have hi2 : ∀ e ∈ S2, 2 * ((κ (t, k, d) + 1) / 2) ≤ κ e := by
      intro e he
      have hle := hlater e he
      rcases Nat.lt_or_ge (κ (t, k, d)) (κ e) with hlt | hge
      · omega
      · have heq : κ e = κ (t, k, d) := by omega
        obtain ⟨t', k', d'⟩ := e
        rcases Nat.mod_two_eq_zero_or_one (κ (t, k, d)) with hz | hz
        · omega
        · -- two writes in the same place
          exfalso
          obtain ⟨hitem', hon'⟩ := (hmem t' k' d').1 (by rw [hS]; simp [he])
          obtain ⟨n', o', hp'⟩ := H.exists_isPt hitem'
          have hk' := hκ _ _ _ _ _ hp'
          have isw : ∀ (n : Node) (ev : Ev), keyOf X rf a n ev % 2 = 1 → ev.isWrite = true ∧ keyOf X rf a n ev = 2 * X.rank n + 1 := by
            intro n ev hodd
            unfold keyOf at hodd ⊢
            cases hw : ev.isWrite with
            | true => exact ⟨rfl, rfl⟩
            | false =>
              simp only [hw] at hodd
              cases hrf : rf n a with
              | none => rw [hrf] at hodd; simp at hodd
              | some s => rw [hrf] at hodd; simp only at hodd; omega
          obtain ⟨w1, w2⟩ := isw n o.ev (by rw [← hk]; exact hz)
          obtain ⟨w1', w2'⟩ := isw n' o'.ev (by rw [← hk', heq]; exact hz)
          have hpos := H.size.pos
          have hn := H.ax.inj _ _ _ _ _ _ ((H.touch hp hon (Nat.le_refl a) (by omega)).1 w1)
            ((H.touch hp' hon' (Nat.le_refl a) (by omega)).1 w1') (by omega)
          subst hn
          have ht : t' = t := by rw [← hp.pos.1, ← hp'.pos.1]
          subst ht
          have hkk : k' = k := by
            have e2 := hp.eq_of_pos hp'
            have e3 := hp'.eq_of_pos hp
            omega
          subst hkk
          obtain ⟨rfl, _, _⟩ := hp.unique hp'
          rw [hS] at hnd
          have := (List.nodup_cons.1 (List.nodup_append.1 hnd).2.1).1
          exact this he
    obtain ⟨M', r', g1, g2, g3⟩ := ih (S1 ++ [(t, k, d)]) _ M1 (by rw [hS]; simp) hM1 hi1 hi2
    exact ⟨M', r', ⟨M1, hsem, g1⟩, g2, g3⟩

/-- all operations on the object, in the order of their places -/
theorem CSetup.ordered {N : Nat} (hN : ∀ t, N ≤ t → items t = []) :
    ∃ (κ : Nat × Nat × Done W → Nat) (S : List (Nat × Nat × Done W)) (M : Mem) (r : Nat),
      (∀ t k d n o, IsPt A.e items t k d n o → κ (t, k, d) = keyOf X rf a n o.ev) ∧ (S.Pairwise fun x y => κ x ≤ κ y) ∧
      (∀ t k d, (t, k, d) ∈ S ↔ (items t)[k]? = some (.op d) ∧ d.call.On w a) ∧
      (∀ t, ofThread t S = (ents w a 0 (items t)).map fun e => (t, e)) ∧
      Legal A.e X.m0 (S.map fun e => (e.1, e.2.2.call, e.2.2.ret)) M ∧ AtCut X w a r M ∧ ∀ e ∈ S, κ e ≤ 2 * r := by
  have hex : ∀ e : Nat × Nat × Done W, ∃ κ, ∀ n o, IsPt A.e items e.1 e.2.1 e.2.2 n o → κ = keyOf X rf a n o.ev := by
    intro e
    by_cases h : ∃ n o, IsPt A.e items e.1 e.2.1 e.2.2 n o
    · obtain ⟨n, o, h⟩ := h
      exact ⟨_, fun n' o' h' => by obtain ⟨_, rfl, rfl⟩ := h.unique h'; rfl⟩
    · exact ⟨0, fun n o h' => absurd ⟨n, o, h'⟩ h⟩
  let κ : Nat × Nat × Done W → Nat := fun e => (hex e).choose
  have hκ : ∀ t k d n o, IsPt A.e items t k d n o → κ (t, k, d) = keyOf X rf a n o.ev := fun t k d n o h =>
    (hex (t, k, d)).choose_spec n o h
  let S := (allEnts w a items N).mergeSort fun x y => decide (κ x ≤ κ y)
  have hsort : S.Pairwise fun x y => κ x ≤ κ y := by
    have := List.pairwise_mergeSort (le := fun x y : Nat × Nat × Done W => decide (κ x ≤ κ y))
      (by intro a b c; simp only [decide_eq_true_eq]; omega)
      (by intro a b; simp only [Bool.or_eq_true, decide_eq_true_eq]; omega) (allEnts w a items N)
    exact this.imp (by intro a b h; simpa using h)
  have hperm : S.Perm (allEnts w a items N) := List.mergeSort_perm _ _
  have hmem : ∀ t k d, (t, k, d) ∈ S ↔ (items t)[k]? = some (.op d) ∧ d.call.On w a := fun t k d => by
    rw [hperm.mem_iff]; exact mem_allEnts hN
  have hthread : ∀ t, ofThread t S = (ents w a 0 (items t)).map fun e => (t, e) := by
    intro t
    rw [← ofThread_all hN]
    refine ofThread_sort ?_
    rw [ofThread_all hN]
    refine List.pairwise_map.2 (ents_sorted.imp_of_mem ?_)
    rintro ⟨k, d⟩ ⟨k', d'⟩ hm hm' hlt
    obtain ⟨j, hj, hi, hon⟩ := mem_ents.1 hm
    obtain ⟨j', hj', hi', hon'⟩ := mem_ents.1 hm'
    rw [Nat.zero_add] at hj hj'
    subst hj; subst hj'
    obtain ⟨n, o, hp⟩ := H.exists_isPt hi
    obtain ⟨n', o', hp'⟩ := H.exists_isPt hi'
    rw [hκ _ _ _ _ _ hp, hκ _ _ _ _ _ hp']
    exact H.mono hlt hp hp' hon hon'
  obtain ⟨M, r, g1, g2, g3⟩ := H.legal κ hκ S hsort (hperm.nodup_iff.2 allEnts_nodup) hmem S [] 0 X.m0 rfl
    (fun x _ _ => .inr ⟨fun n v' h => absurd h (Nat.not_lt_zero _), rfl⟩) (fun _ h => nomatch h) (fun _ _ => by omega)
  exact ⟨κ, S, M, r, hκ, hsort, hmem, hthread, g1, g2, g3⟩

theorem CSetup.conclude {N : Nat} (hN : ∀ t, N ≤ t → items t = []) :
    ∃ (seq : List (Nat × Call × Ret)) (m : Mem), Legal A.e X.m0 seq m ∧
      (∀ t, ofThread t seq = ((opsOf (items t)).filter fun d => d.call.On w a).map fun d => (t, d.call, d.ret)) ∧
      ∀ x, a ≤ x → x < a + w / 8 → X.Newest (fun _ => True) x (m x) := by
  obtain ⟨κ, S, M, r, hκ, _, hmem, hthread, g1, g2, g3⟩ := H.ordered hN
  refine ⟨_, M, g1, ?_, ?_⟩
  · intro t
    have : ∀ l : List (Nat × Nat × Done W), ofThread t (l.map fun e => (e.1, e.2.2.call, e.2.2.ret)) =
        (ofThread t l).map fun e => (e.1, e.2.2.call, e.2.2.ret) := by
      intro l
      simp only [ofThread, List.filter_map]
      rfl
    rw [this, hthread, ← ents_map (k := 0), List.map_map, List.map_map]
    rfl
  · obtain ⟨R, hR⟩ := isPt_bound (A := A) (X := X) hN
    have := H.advance g2 R fun t k d n o hp hon hw h1 _ => by
      have := g3 _ ((hmem t k d).2 ⟨hp.item, hon⟩)
      rw [hκ _ _ _ _ _ hp] at this
      unfold keyOf at this
      rw [hw] at this
      simp only at this
      omega
    intro x h1 h2
    refine (this x h1 h2).congr fun u v' hu => ?_
    obtain ⟨k, d, o, hp, _⟩ := H.write hu h1 h2
    have := hR _ _ _ _ _ hp
    exact ⟨fun _ => trivial, fun _ => by omega⟩
end csetup

/-- the footprint of an access -/
theorem Step.natural {e : Endian} {W : Nat} {i : Instr W} {c c' : Cfg W} {ev : Ev} (hs : Step e i c ev c') (ha : ev.isAccess = true) :
    ∃ x b, i.access c.rs = some (x, b) := by
  cases hs <;> first | (cases ha; done) | exact ⟨_, _, rfl⟩

theorem Step.footprint {e : Endian} {W : Nat} {i : Instr W} {c c' : Cfg W} {ev : Ev} (hs : Step e i c ev c') (hw : ev.isWrite = true)
    {x b : Nat} (ha : i.access c.rs = some (x, b)) :
    i.wrFoot c.rs = (x, b / 8) ∧ (i.rdFoot c.rs = (0, 0) ∨ i.rdFoot c.rs = (x, b / 8) ∨ i.rdFoot c.rs = (x, (b + 7) / 8)) := by
  cases hs <;> first
    | (cases hw; done)
    | (simp only [Instr.access, Option.some.injEq, Prod.mk.injEq] at ha
       obtain ⟨rfl, rfl⟩ := ha
       refine ⟨rfl, ?_⟩
       first | exact .inl rfl | exact .inr (.inl rfl) | exact .inr (.inr rfl))

/-- the hypotheses of C42, from the local specification of the operations and C39 -/
theorem Backend.csetup {W : Nat} {A : Backend W} {P : Call → Prop} {g : Call → Nat} (hloc : A.LocalOps P)
    (hacc : A.AccessesOK g) {X : AxShape W} {rf : Node → Nat → Option Node} {items : Nat → List (Item W)} {a w : Nat}
    (hX : CohExec X rf) (hsz : IsSize w) (hal : a % (w / 8) = 0) (hpo : ∀ t, X.po t = (items t).flatMap Item.code)
    (hops : ∀ t d, Item.op d ∈ items t → d.OK A ∧ P d.call ∧ d.call.OnOrOff w a)
    (hfor : ∀ t o x, Item.other o ∈ items t → a ≤ x → x < a + w / 8 → ¬ o.writes x) : CSetup A X rf items w a := by
  have key : ∀ t d o, Item.op d ∈ items t → o ∈ owns d.tr → ∃ c1 c2 : Cfg W, Step A.e o.ins c1 o.ev c2 ∧ c1.rs = o.rs ∧
      ∀ x b, o.ins.access o.rs = some (x, b) → IsSize b ∧ x % (b / 8) = 0 := by
    intro t d o hd ho
    obtain ⟨⟨hB, c0, c, hpc, _, hpre, hr, _, _⟩, _, _, hal', _⟩ := hops t d hd
    obtain ⟨pre, post, htr⟩ := List.append_of_mem (mem_owns ho)
    obtain ⟨c1, c2, hr1, hi, hs, hrs, _, _⟩ := hr.cut _ _ _ _ _ _ _ htr
    refine ⟨c1, c2, hs, hrs, fun x b hxb => ?_⟩
    have := hacc d.call d.B hB hal' c0 _ c1 _ x b hpc hpre hr1.run hi (by rw [hrs]; exact hxb)
    exact ⟨this.1, this.2.1⟩
  refine ⟨⟨hpo, fun t d h => exists_point hloc (hops t d h).1 (hops t d h).2.1⟩, hX, hsz, hal, ?_, ?_, ?_,
    fun t d h => (hops t d h).2.2, hfor⟩
  · intro t d o hd ho ha
    obtain ⟨c1, c2, hs, hrs, h⟩ := key t d o hd ho
    obtain ⟨x, b, hxb⟩ := hs.natural ha
    rw [hrs] at hxb
    exact ⟨x, b, hxb, h x b hxb⟩
  · intro t d o x hd ho hw hx
    obtain ⟨c1, c2, hs, hrs, h⟩ := key t d o hd ho
    obtain ⟨y, b, hyb⟩ := hs.natural (by cases hev : o.ev <;> rw [hev] at hw <;> first | rfl | cases hw)
    have hfoot := hs.footprint hw hyb
    rw [hrs] at hyb hfoot
    have h8 := (h y b hyb).1.mod8
    refine ⟨hw, ?_⟩
    rw [hfoot.1]
    unfold Own.reads at hx
    rcases hfoot.2 with h0 | h0 | h0 <;> rw [h0] at hx
    · simp only at hx; omega
    · exact hx
    · simp only at hx ⊢; omega
  · intro t d o hd ho hw
    obtain ⟨c1, c2, hs, hrs, h⟩ := key t d o hd ho
    obtain ⟨y, b, hyb⟩ := hs.natural (by cases hev : o.ev <;> rw [hev] at hw <;> first | rfl | cases hw)
    have hfoot := hs.footprint hw hyb
    rw [hrs] at hyb hfoot
    exact ⟨y, b, (h y b hyb).1, (h y b hyb).2, hfoot.1⟩

/-- C42, from the local specification of the operations and C39. -/
theorem Backend.coherent {W : Nat} {A : Backend W} {P : Call → Prop} {g : Call → Nat} (hloc : A.LocalOps P)
    (hacc : A.AccessesOK g) : A.Coherent P := fun _ _ _ _ _ _ hX hsz hal hN hpo hops hfor =>
  (Backend.csetup hloc hacc hX hsz hal hpo hops hfor).conclude hN

theorem Backend.Coherent.mono {W : Nat} {A : Backend W} {P Q : Call → Prop} (h : A.Coherent Q) (hPQ : ∀ c, P c → Q c) :
    A.Coherent P := fun X rf N items a w h1 h2 h3 h4 h5 h6 h7 =>
  h X rf N items a w h1 h2 h3 h4 h5 (fun t d hd => ⟨(h6 t d hd).1, hPQ _ (h6 t d hd).2.1, (h6 t d hd).2.2⟩) h7

/-- The form used for the back ends. -/
theorem Good.coherent {W : Nat} {A : Backend W} {sc : List Mon} (h : Good A sc) (h4 : A.CasAtomic) {g : Call → Nat}
    (hacc : A.AccessesOK g) : A.Coherent fun _ => True :=
  Backend.coherent (h.localOps (P := fun _ => True) fun s f w a old new B _ => h4 s f w a old new B) hacc

end Verif
