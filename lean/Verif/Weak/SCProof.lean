/-
Proof of C41.
-/
import Verif.Weak.SC

namespace Verif

/-- Every operation satisfying `P` meets its sequential specification at its last access, locally. -/
def Backend.LocalOps {W : Nat} (A : Backend W) (P : Call → Prop) : Prop :=
  ∀ c (B : Block W c.width), P c → A.Runs c B → ∀ (c0 : Cfg W) (tr : List (LEv W)) (c' : Cfg W), c0.pc = 0 → B.pre c0.rs →
    LRun A.e B.code c0 tr c' → c'.pc = B.code.length → LocalTrace tr fun M M' => c.Sem A.e M M' (c.result B c'.rs)

section owns
variable {W : Nat}

theorem owns_append (a b : List (LEv W)) : owns (a ++ b) = owns a ++ owns b := by simp [owns]
theorem owns_own (ins : Instr W) (rs ev m m') (t : List (LEv W)) :
    owns (.own ins rs ev m m' :: t) = ⟨ins, rs, ev, m, m'⟩ :: owns t := by simp [owns]
theorem owns_env (m m') (t : List (LEv W)) : owns (.env m m' :: t) = owns t := by simp [owns]
theorem owns_nil : owns ([] : List (LEv W)) = [] := rfl

theorem mem_owns {tr : List (LEv W)} {o : Own W} (h : o ∈ owns tr) : LEv.own o.ins o.rs o.ev o.m o.m' ∈ tr := by
  simp only [owns, List.mem_filterMap] at h
  obtain ⟨x, hx, hx'⟩ := h
  cases x with
  | env => cases hx'
  | own ins rs ev m m' => cases hx'; exact hx

theorem ownEvs_erase (tr : List (LEv W)) : ownEvs (tr.map LEv.erase) = (owns tr).map Own.ev := by
  induction tr with
  | nil => rfl
  | cons x t ih =>
    cases x with
    | own => simp only [owns_own, List.map_cons, ← ih]; simp [ownEvs, LEv.erase]
    | env => simp only [owns_env, ← ih]; simp [ownEvs, LEv.erase]
end owns

/-- cutting a labelled run -/
theorem LRun.cut {e : Endian} {W : Nat} {P : List (Instr W)} {c0 : Cfg W} {tr : List (LEv W)} {c : Cfg W}
    (h : LRun e P c0 tr c) : ∀ pre ins rs ev m m' post, tr = pre ++ LEv.own ins rs ev m m' :: post →
    ∃ c1 c2, LRun e P c0 pre c1 ∧ P[c1.pc]? = some ins ∧ Step e ins c1 ev c2 ∧ c1.rs = rs ∧ c1.mem = m ∧ c2.mem = m' := by
  induction h with
  | nil => intro pre ins rs ev m m' post h; simp at h
  | own h hi hs ih =>
    intro pre ins rs ev m m' post he
    rcases List.eq_nil_or_concat post with rfl | ⟨l, x, rfl⟩
    · obtain ⟨h1, h2⟩ := List.append_inj' he rfl
      simp only [List.cons.injEq, LEv.own.injEq, and_true] at h2
      obtain ⟨rfl, rfl, rfl, rfl, rfl⟩ := h2
      subst h1
      exact ⟨_, _, h, hi, hs, rfl, rfl, rfl⟩
    · rw [List.concat_eq_append, ← List.cons_append, ← List.append_assoc] at he
      exact ih _ _ _ _ _ _ _ (List.append_inj' he rfl).1
  | env h m1 r' hr ih =>
    intro pre ins rs ev m m' post he
    rcases List.eq_nil_or_concat post with rfl | ⟨l, x, rfl⟩
    · obtain ⟨_, h2⟩ := List.append_inj' he rfl
      simp at h2
    · rw [List.concat_eq_append, ← List.cons_append, ← List.append_assoc] at he
      exact ih _ _ _ _ _ _ _ (List.append_inj' he rfl).1

/-- what a held reservation says about the past -/
theorem LRun.resv {e : Endian} {W : Nat} {P : List (Instr W)} {c0 : Cfg W} {tr : List (LEv W)} {c : Cfg W}
    (h : LRun e P c0 tr c) (h0 : c0.resv = none) : ∀ a n, c.resv = some (a, n) →
    ∃ (i : Nat) (l : Own W) (acc : Acc), (owns tr)[i]? = some l ∧ l.ins.isLL = true ∧ l.ev = .rd acc ∧ (l.ins.rdFoot l.rs).1 = a ∧
      n ≤ (l.ins.rdFoot l.rs).2 ∧ (∀ (q : Nat) (o : Own W), i < q → (owns tr)[q]? = some o → o.ins.isLL = false) ∧ Agree l.m c.mem a n := by
  induction h with
  | nil => intro a n h; rw [h0] at h; cases h
  | own h hi hs ih =>
    rename_i tr c i ev c'
    intro a n hr
    have keep : i.isLL = false → c'.resv = c.resv → c'.mem = c.mem →
        ∃ (j : Nat) (l : Own W) (acc : Acc), (owns (tr ++ [.own i c.rs ev c.mem c'.mem]))[j]? = some l ∧ l.ins.isLL = true ∧ l.ev = .rd acc ∧
          (l.ins.rdFoot l.rs).1 = a ∧ n ≤ (l.ins.rdFoot l.rs).2 ∧
          (∀ (q : Nat) (o : Own W), j < q → (owns (tr ++ [.own i c.rs ev c.mem c'.mem]))[q]? = some o → o.ins.isLL = false) ∧
          Agree l.m c'.mem a n := by
      intro hll h1 h2
      obtain ⟨j, l, acc, g1, g2, g3, g4, g5, g6, g7⟩ := ih a n (h1 ▸ hr)
      have hj : j < (owns tr).length := (List.getElem?_eq_some_iff.1 g1).1
      refine ⟨j, l, acc, by rw [owns_append, List.getElem?_append_left hj]; exact g1, g2, g3, g4, g5, ?_, h2 ▸ g7⟩
      intro q o hq ho
      rw [owns_append, owns_own, owns_nil] at ho
      by_cases hq' : q < (owns tr).length
      · rw [List.getElem?_append_left hq'] at ho; exact g6 q o hq ho
      · rw [List.getElem?_append_right (by omega)] at ho
        have : q - (owns tr).length = 0 := by
          have := (List.getElem?_eq_some_iff.1 ho).1
          simp at this; omega
        rw [this] at ho
        simp at ho
        rw [← ho]; exact hll
    cases hs with
    | op f o => exact keep rfl rfl rfl
    | fence p => exact keep rfl rfl rfl
    | br cond t => exact keep rfl rfl rfl
    | ld acc addr w k => exact keep rfl rfl rfl
    | st acc addr w v => cases hr
    | ll acc tear addr w k =>
      simp only [Option.some.injEq, Prod.mk.injEq] at hr
      obtain ⟨rfl, rfl⟩ := hr
      refine ⟨(owns tr).length, ⟨.ll acc tear addr w k, c.rs, .rd acc, c.mem, c.mem⟩, acc, ?_, rfl, rfl, rfl, ?_, ?_,
        Agree.refl _ _ _⟩
      · rw [owns_append, owns_own]; simp
      · show w / 8 ≤ (w + 7) / 8; omega
      · intro q o hq ho
        have := (List.getElem?_eq_some_iff.1 ho).1
        rw [owns_append, owns_own, owns_nil] at this
        simp at this; omega
    | llTear => cases hr
    | scOk => cases hr
    | scFail => cases hr
    | rmwNo acc addr w f k => exact keep rfl rfl rfl
    | rmwYes => cases hr
    | clrex => cases hr
  | env h m' r' hr ih =>
    intro a n ha
    simp only at ha
    rcases hr with rfl | ⟨rfl, hr⟩
    · cases ha
    · obtain ⟨j, l, acc, g1, g2, g3, g4, g5, g6, g7⟩ := ih a n ha
      rw [owns_append, owns_env, owns_nil, List.append_nil]
      refine ⟨j, l, acc, g1, g2, g3, g4, g5, g6, ?_⟩
      intro x hx hx'
      exact (g7 x hx hx').trans (hr a n ha x hx hx')

/-- Where and how an operation takes effect. -/
structure Point {W : Nat} (e : Endian) (d : Done W) (p : Nat) (o : Own W) : Prop where
  get : (owns d.tr)[p]? = some o
  acc : o.ev.isAccess = true
  before : ∀ q o', q < p → (owns d.tr)[q]? = some o' → o'.ev.isWrite = false
  after : ∀ q o', p < q → (owns d.tr)[q]? = some o' → o'.ev.isAccess = false
  sem : ∀ M, Agree M o.m (o.ins.rdFoot o.rs).1 (o.ins.rdFoot o.rs).2 → d.call.Sem e M (afterAccess o.ins o.rs o.ev o.m' M) d.ret
  kinds : (∃ a, o.ev = .rd a) ∨ (∃ a, o.ev = .rmw a) ∨ (∃ a, o.ev = .wr a) ∧
    ((∀ x, ¬ o.reads x) ∨ o.ins.isSC = true ∧ ∃ i l acc, i < p ∧ (owns d.tr)[i]? = some l ∧ l.ins.isLL = true ∧ l.ev = .rd acc ∧
      (∀ q o', i < q → q < p → (owns d.tr)[q]? = some o' → o'.ins.isLL = false) ∧
      ∀ x, o.reads x → o.writes x ∧ l.reads x ∧ l.m x = o.m x)

theorem Point.unique {W : Nat} {e : Endian} {d : Done W} {p p' : Nat} {o o' : Own W} (h : Point e d p o) (h' : Point e d p' o') :
    p = p' := by
  rcases Nat.lt_trichotomy p p' with hl | hl | hl
  · have := h.after p' o' hl h'.get; rw [h'.acc] at this; cases this
  · exact hl
  · have := h'.after p o hl h.get; rw [h.acc] at this; cases this

theorem exists_point {W : Nat} {A : Backend W} {P : Call → Prop} (hA : A.LocalOps P) {d : Done W} (hd : d.OK A)
    (hP : P d.call) : ∃ p o, Point A.e d p o := by
  obtain ⟨hB, c0, c, hpc, hresv, hpre, hr, hend, hrs⟩ := hd
  obtain ⟨pre, ins, rs, ev, m, m', post, htr, hacc, h1, h2, hQ⟩ := hA _ _ hP hB c0 d.tr c hpc hpre hr hend
  have hown : owns d.tr = owns pre ++ ⟨ins, rs, ev, m, m'⟩ :: owns post := by rw [htr, owns_append, owns_own]
  obtain ⟨c1, c2, hr1, hi, hs, rfl, rfl, rfl⟩ := hr.cut _ _ _ _ _ _ _ htr
  have hres := hr1.resv hresv
  have get : (owns d.tr)[(owns pre).length]? = some ⟨ins, c1.rs, ev, c1.mem, c2.mem⟩ := by rw [hown]; simp
  have left : ∀ q o', q < (owns pre).length → ((owns d.tr)[q]? = some o' ↔ (owns pre)[q]? = some o') := by
    intro q o' hq; rw [hown, List.getElem?_append_left hq]
  refine ⟨(owns pre).length, ⟨ins, c1.rs, ev, c1.mem, c2.mem⟩, get, hacc, ?_, ?_, ?_, ?_⟩
  · intro q o' hq ho
    have := mem_owns (List.mem_of_getElem? ((left q o' hq).1 ho))
    exact h1 _ this
  · intro q o' hq ho
    rw [hown, List.getElem?_append_right (by omega)] at ho
    obtain ⟨k, hk⟩ : ∃ k, q - (owns pre).length = k + 1 := ⟨q - (owns pre).length - 1, by omega⟩
    rw [hk, List.getElem?_cons_succ] at ho
    exact h2 _ (mem_owns (List.mem_of_getElem? ho))
  · intro M hM
    have := hQ M hM
    rw [hrs] at this
    exact this
  · cases hs with
    | op => cases hacc
    | fence => cases hacc
    | br => cases hacc
    | ld acc => exact .inl ⟨acc, rfl⟩
    | st acc =>
      refine .inr (.inr ⟨⟨acc, rfl⟩, .inl ?_⟩)
      rintro x ⟨_, hx⟩
      exact absurd hx (Nat.not_lt_zero _)
    | ll acc => exact .inl ⟨acc, rfl⟩
    | llTear acc => exact .inl ⟨acc, rfl⟩
    | scOk acc addr w v k _ j h =>
      refine .inr (.inr ⟨⟨acc, rfl⟩, .inr ⟨rfl, ?_⟩⟩)
      obtain ⟨i, l, acc', g1, g2, g3, g4, g5, g6, g7⟩ := hres _ _ h
      have hlt : i < (owns pre).length := (List.getElem?_eq_some_iff.1 g1).1
      refine ⟨i, l, acc', hlt, (left i l hlt).2 g1, g2, g3, ?_, ?_⟩
      · intro q o' hq hq' ho
        exact g6 q o' hq ((left q o' hq').1 ho)
      · rintro x ⟨hx1, hx2⟩
        have hx1 : addr c1.rs ≤ x := hx1
        have hx2 : x < addr c1.rs + w / 8 := hx2
        refine ⟨⟨rfl, hx1, hx2⟩, ⟨by rw [g4]; exact hx1, by rw [g4]; omega⟩, g7 x hx1 hx2⟩
    | scFail => cases hacc
    | rmwNo acc => exact .inl ⟨acc, rfl⟩
    | rmwYes acc => exact .inr (.inl ⟨acc, rfl⟩)
    | clrex => cases hacc

/-- kind of the access at which an operation takes effect -/
def ptKind (ev : Ev) : AKind := match ev.isWrite with | true => .wr | false => .rd

theorem Ev.has_ptKind {ev : Ev} (h : ev.isAccess = true) : ev.has (ptKind ev) := by
  cases ev <;> first | (cases h; done) | trivial
theorem Ev.has_access {ev : Ev} {k : AKind} (h : ev.has k) : ev.isAccess = true := by
  cases ev <;> first | rfl | (cases k <;> cases h)
theorem Ev.has_wr {ev : Ev} (h : ev.has .wr) : ev.isWrite = true := by
  cases ev <;> first | rfl | cases h

/-! positions in a thread's program order -/
section pos
variable {W : Nat}

/-- number of instructions before item `k` -/
def off (L : List (Item W)) (k : Nat) : Nat := ((L.take k).flatMap Item.code).length

theorem split_at {α : Type} {L : List α} {k : Nat} {x : α} (h : L[k]? = some x) : L = L.take k ++ x :: L.drop (k + 1) := by
  obtain ⟨hk, rfl⟩ := List.getElem?_eq_some_iff.1 h
  rw [List.getElem_cons_drop]
  exact (List.take_append_drop k L).symm

theorem item_get {L : List (Item W)} {k q : Nat} {it : Item W} {o : Own W} (h : L[k]? = some it) (hq : it.code[q]? = some o) :
    (L.flatMap Item.code)[off L k + q]? = some o := by
  have : L.flatMap Item.code = (L.take k).flatMap Item.code ++ (it.code ++ (L.drop (k + 1)).flatMap Item.code) := by
    conv => lhs; rw [split_at h]
    simp
  rw [this, off, List.getElem?_append_right (by omega), Nat.add_sub_cancel_left,
    List.getElem?_append_left (List.getElem?_eq_some_iff.1 hq).1]
  exact hq

theorem item_find {L : List (Item W)} {n : Nat} {o : Own W} (h : (L.flatMap Item.code)[n]? = some o) :
    ∃ k it q, L[k]? = some it ∧ it.code[q]? = some o ∧ n = off L k + q := by
  induction L generalizing n with
  | nil => simp at h
  | cons x t ih =>
    rw [List.flatMap_cons] at h
    by_cases hn : n < x.code.length
    · rw [List.getElem?_append_left hn] at h
      exact ⟨0, x, n, rfl, h, by simp [off]⟩
    · rw [List.getElem?_append_right (by omega)] at h
      obtain ⟨k, it, q, h1, h2, h3⟩ := ih h
      refine ⟨k + 1, it, q, by simpa using h1, h2, ?_⟩
      simp only [off, List.take_succ_cons, List.flatMap_cons, List.length_append] at h3 ⊢
      omega

theorem off_succ {L : List (Item W)} {k : Nat} {it : Item W} (h : L[k]? = some it) : off L (k + 1) = off L k + it.code.length := by
  obtain ⟨hk, rfl⟩ := List.getElem?_eq_some_iff.1 h
  simp only [off]
  rw [← List.take_append_getElem hk, List.flatMap_append, List.length_append]
  simp

theorem off_mono (L : List (Item W)) {k k' : Nat} (h : k ≤ k') : off L k ≤ off L k' := by
  obtain ⟨n, rfl⟩ := Nat.exists_eq_add_of_le h
  simp only [off]
  rw [List.take_add]
  simp

theorem item_split {L : List (Item W)} {k k' : Nat} {it it' : Item W} (hk : k < k') (h : L[k]? = some it) (h' : L[k']? = some it') :
    ∃ pre mid post, L.flatMap Item.code = pre ++ it.code ++ mid ++ it'.code ++ post ∧ pre.length = off L k ∧
      (pre ++ it.code ++ mid).length = off L k' := by
  have e1 : (L.take k')[k]? = some it := by rw [List.getElem?_take_of_lt hk]; exact h
  have e2 := split_at e1
  have e3 : L.flatMap Item.code = (L.take k').flatMap Item.code ++ it'.code ++ (L.drop (k' + 1)).flatMap Item.code := by
    conv => lhs; rw [split_at h']
    simp
  have e4 : (L.take k').flatMap Item.code =
      (L.take k).flatMap Item.code ++ it.code ++ ((L.take k').drop (k + 1)).flatMap Item.code := by
    conv => lhs; rw [e2]
    rw [List.take_take, Nat.min_eq_left (by omega)]
    simp
  refine ⟨_, _, _, by rw [e3, e4], rfl, ?_⟩
  rw [← e4, off]

end pos

/-! the execution -/
theorem AxShape.Newest.congr {W : Nat} {X : AxShape W} {S S' : Node → Prop} {x : Nat} {v : BitVec 8} (h : X.Newest S x v)
    (hS : ∀ n v', X.WritesByte n x v' → (S n ↔ S' n)) : X.Newest S' x v := by
  rcases h with ⟨n, h1, h2, h3⟩ | ⟨h1, h2⟩
  · exact .inl ⟨n, (hS n v h2).1 h1, h2, fun n' v' hn' hw => h3 n' v' ((hS n' v' hw).2 hn') hw⟩
  · exact .inr ⟨fun n v' hn hw => h1 n v' ((hS n v' hw).2 hn) hw, h2⟩

theorem AxExec.newest_unique {W : Nat} {imp : Pairs} {X : AxShape W} (hX : AxExec imp X) {S : Node → Prop} {x : Nat}
    {v v' : BitVec 8} (h : X.Newest S x v) (h' : X.Newest S x v') : v = v' := by
  rcases h with ⟨n, h1, h2, h3⟩ | ⟨h1, h2⟩ <;> rcases h' with ⟨n', h1', h2', h3'⟩ | ⟨h1', h2'⟩
  · have := Nat.le_antisymm (h3 n' v' h1' h2') (h3' n v h1 h2)
    obtain ⟨_, o, ho, _, rfl⟩ := h2
    obtain ⟨_, o', ho', _, rfl⟩ := h2'
    have := hX.inj _ _ _ _ ho' ho this
    subst this
    have := ho.1.symm.trans ho'.1
    simp only [Option.some.injEq] at this
    rw [this]
  · exact absurd h2 (h1' n v h1)
  · exact absurd h2' (h1 n' v' h1')
  · rw [h2, h2']

/-- the threads execute operations and other instructions -/
structure Prog {W : Nat} (A : Backend W) (X : AxShape W) (items : Nat → List (Item W)) : Prop where
  po : ∀ t, X.po t = (items t).flatMap Item.code
  point : ∀ t d, Item.op d ∈ items t → ∃ p o, Point A.e d p o

/-- operation `k` of thread `t` is `d` and takes effect at node `n`, an access of `o` -/
structure IsPt {W : Nat} (e : Endian) (items : Nat → List (Item W)) (t k : Nat) (d : Done W) (n : Node) (o : Own W) : Prop where
  item : (items t)[k]? = some (.op d)
  pt : ∃ p, Point e d p o ∧ n = ⟨t, off (items t) k + p, ptKind o.ev⟩

/-- all the hypotheses of C41, and order -/
structure Setup {W : Nat} (A : Backend W) (X : AxShape W) (items : Nat → List (Item W)) : Prop extends Prog A X items where
  ax : AxExec A.imp X
  /-- program order is respected by the points -/
  lt : ∀ {t k k' : Nat} {d d' : Done W} {n n' : Node} {o o' : Own W}, k < k' → IsPt A.e items t k d n o →
    IsPt A.e items t k' d' n' o' → X.rank n < X.rank n'
  foreign : ∀ t o t' d o' x, Item.other o ∈ items t → Item.op d ∈ items t' → o' ∈ owns d.tr → o.writes x →
      ¬ o'.reads x ∧ ¬ o'.writes x

section prog
variable {W : Nat} {A : Backend W} {X : AxShape W} {items : Nat → List (Item W)} (H : Prog A X items)
include H

theorem Prog.exists_isPt {t k : Nat} {d : Done W} (h : (items t)[k]? = some (.op d)) : ∃ n o, IsPt A.e items t k d n o := by
  obtain ⟨p, o, hp⟩ := H.point t d (List.mem_of_getElem? h)
  exact ⟨_, o, h, p, hp, rfl⟩

omit H in
theorem IsPt.unique {t k : Nat} {d d' : Done W} {n n' : Node} {o o' : Own W} (h : IsPt A.e items t k d n o)
    (h' : IsPt A.e items t k d' n' o') : d = d' ∧ n = n' ∧ o = o' := by
  have : Item.op d = Item.op d' := by have := h.item.symm.trans h'.item; simpa using this
  obtain rfl : d = d' := by simpa using this
  obtain ⟨p, hp, rfl⟩ := h.pt
  obtain ⟨p', hp', rfl⟩ := h'.pt
  obtain rfl := hp.unique hp'
  have := hp.get.symm.trans hp'.get
  simp only [Option.some.injEq] at this
  subst this
  exact ⟨rfl, rfl, rfl⟩

omit H in
theorem IsPt.pos {t k : Nat} {d : Done W} {n : Node} {o : Own W} (h : IsPt A.e items t k d n o) :
    n.thread = t ∧ off (items t) k ≤ n.pos ∧ n.pos < off (items t) (k + 1) := by
  obtain ⟨p, hp, rfl⟩ := h.pt
  refine ⟨rfl, Nat.le_add_right _ _, ?_⟩
  rw [off_succ h.item]
  have := (List.getElem?_eq_some_iff.1 hp.get).1
  simp only [Item.code]
  omega

theorem Prog.at_pos {t k q : Nat} {d : Done W} {o : Own W} (h : (items t)[k]? = some (.op d)) (hq : (owns d.tr)[q]? = some o)
    {kd : AKind} (hk : o.ev.has kd) : X.At ⟨t, off (items t) k + q, kd⟩ o :=
  ⟨by rw [H.po]; exact item_get h (it := .op d) hq, hk⟩

theorem Prog.isPt_at {t k : Nat} {d : Done W} {n : Node} {o : Own W} (h : IsPt A.e items t k d n o) : X.At n o := by
  obtain ⟨p, hp, rfl⟩ := h.pt
  exact H.at_pos h.item hp.get (Ev.has_ptKind hp.acc)

omit H in
theorem IsPt.eq_of_pos {t k k' : Nat} {d d' : Done W} {n n' : Node} {o o' : Own W} (h : IsPt A.e items t k d n o)
    (h' : IsPt A.e items t k' d' n' o') : (n.pos < n'.pos ↔ k < k') := by
  have h1 := h.pos
  have h2 := h'.pos
  rcases Nat.lt_trichotomy k k' with hk | rfl | hk
  · have := off_mono (items t) (show k + 1 ≤ k' from hk); omega
  · obtain ⟨_, rfl, _⟩ := h.unique h'; omega
  · have := off_mono (items t) (show k' + 1 ≤ k from hk); omega

/-- every write is the point of an operation, or foreign -/
theorem Prog.write {n : Node} {x : Nat} {v : BitVec 8} (h : X.WritesByte n x v) :
    (∃ k d o, IsPt A.e items n.thread k d n o ∧ o.writes x ∧ o.m' x = v) ∨ ∃ o, Item.other o ∈ items n.thread ∧ o.writes x := by
  obtain ⟨hk, o, ⟨h1, h2⟩, h3, h4⟩ := h
  rw [H.po] at h1
  obtain ⟨k, it, q, g1, g2, g3⟩ := item_find h1
  cases it with
  | other o1 =>
    have : o ∈ [o1] := List.mem_of_getElem? g2
    simp only [List.mem_singleton] at this
    subst this
    exact .inr ⟨o, List.mem_of_getElem? g1, h3⟩
  | op d =>
    obtain ⟨p, o1, hp⟩ := H.point _ d (List.mem_of_getElem? g1)
    have g2 : (owns d.tr)[q]? = some o := g2
    have hw := h3.1
    have hq : q = p := by
      rcases Nat.lt_trichotomy q p with hl | hl | hl
      · have := hp.before q o hl g2; rw [hw] at this; cases this
      · exact hl
      · have := Ev.write_access (hp.after q o hl g2); rw [hw] at this; cases this
    subst hq
    have := g2.symm.trans hp.get
    simp only [Option.some.injEq] at this
    subst this
    refine .inl ⟨k, d, o, ⟨g1, q, hp, ?_⟩, h3, h4⟩
    have : ptKind o.ev = .wr := by simp [ptKind, hw]
    rw [this]
    cases n
    simp_all

/-- bytes not written by others -/
def Clean (items : Nat → List (Item W)) (x : Nat) : Prop := ∀ t o, Item.other o ∈ items t → ¬ o.writes x

theorem Prog.write_clean {n : Node} {x : Nat} {v : BitVec 8} (h : X.WritesByte n x v) (hx : Clean items x) :
    ∃ k d o, IsPt A.e items n.thread k d n o ∧ o.writes x ∧ o.m' x = v := by
  rcases H.write h with h | ⟨o, h1, h2⟩
  · exact h
  · exact absurd h2 (hx _ _ h1)

end prog

section
variable {W : Nat} {A : Backend W} {X : AxShape W} {items : Nat → List (Item W)}
/-- program order is respected by the points -/
theorem Prog.lt (H : Prog A X items) (ax : AxExec A.imp X)
    {t k k' : Nat} {d d' : Done W} {n n' : Node} {o o' : Own W} (order : InOrder A.imp (d.tr.map LEv.erase) (d'.tr.map LEv.erase))
    (hk : k < k') (h : IsPt A.e items t k d n o)
    (h' : IsPt A.e items t k' d' n' o') : X.rank n < X.rank n' := by
  obtain ⟨p, hp, rfl⟩ := h.pt
  obtain ⟨p', hp', rfl⟩ := h'.pt
  obtain ⟨pre, mid, post, e1, e2, e3⟩ := item_split hk h.item h'.item
  have last : ∀ {d : Done W} {p : Nat} {o : Own W}, Point A.e d p o →
      LastAccess (ownEvs (d.tr.map LEv.erase)) (ptKind o.ev) p := by
    intro d p o hp
    rw [ownEvs_erase]
    refine ⟨⟨o.ev, by rw [List.getElem?_map, hp.get]; rfl, Ev.has_ptKind hp.acc⟩, ?_⟩
    rintro j hj ⟨ev, h1, h2⟩
    rw [List.getElem?_map] at h1
    simp only [Option.map_eq_some_iff] at h1
    obtain ⟨o', h1, rfl⟩ := h1
    have := hp.after j o' hj h1
    rw [Ev.has_access h2] at this
    cases this
  have := order (pre.map Own.ev) (mid.map Own.ev)
    (post.map Own.ev) _ _ p p' (last hp) (last hp')
  have hL : pre.map Own.ev ++ ownEvs (d.tr.map LEv.erase) ++ mid.map Own.ev ++ ownEvs (d'.tr.map LEv.erase) ++ post.map Own.ev =
      (X.po t).map Own.ev := by
    rw [H.po, e1]
    simp only [ownEvs_erase, List.map_append, Item.code]
  have h2 : (pre.map Own.ev).length = off (items t) k := by rw [List.length_map, e2]
  have h3 : (pre.map Own.ev ++ ownEvs (d.tr.map LEv.erase) ++ mid.map Own.ev).length = off (items t) k' := by
    rw [ownEvs_erase, ← e3]
    simp [Item.code]
  rw [hL, h2, h3] at this
  exact ax.ppo t _ _ _ _ this

end

section setup
variable {W : Nat} {A : Backend W} {X : AxShape W} {items : Nat → List (Item W)} (H : Setup A X items)
include H

theorem Setup.clean {t k : Nat} {d : Done W} {n : Node} {o : Own W} (h : IsPt A.e items t k d n o) {x : Nat} (hx : o.reads x) :
    Clean items x := by
  intro t' o' ho' hw
  obtain ⟨p, hp, _⟩ := h.pt
  exact (H.foreign t' o' t d o x ho' (List.mem_of_getElem? h.item) (List.mem_of_getElem? hp.get) hw).1 hx

/-- what an operation reads is what memory contains when it takes effect -/
theorem Setup.fresh_of {t k i p : Nat} {d : Done W} {n : Node} {o : Own W} (h : IsPt A.e items t k d n o) {x : Nat}
    {v : BitVec 8} (hx : Clean items x) (hip : i ≤ p) (hn : n.pos = off (items t) k + p)
    (hv : X.Newest (fun w => X.rank w < X.rank ⟨t, off (items t) k + i, .rd⟩ ∨ (w.thread = t ∧ w.pos < off (items t) k + i)) x v)
    {l : Own W} (hat : X.At ⟨t, off (items t) k + i, .rd⟩ l)
    (hu : n = ⟨t, off (items t) k + i, .rd⟩ ∨ ∃ F : Nat → Prop, F x ∧ X.Uninterrupted F ⟨t, off (items t) k + i, .rd⟩ n) :
    X.Newest (fun w => X.rank w < X.rank n) x v := by
  have hle : X.rank ⟨t, off (items t) k + i, .rd⟩ ≤ X.rank n := by
    rcases hu with hu | ⟨F, _, hu⟩
    · rw [hu]; exact Nat.le_refl _
    · exact Nat.le_of_lt hu.1
  refine hv.congr ?_
  intro w v' hw
  obtain ⟨k', d', o', hp', _, _⟩ := H.write_clean hw hx
  constructor
  · rintro (h1 | ⟨h1, h2⟩)
    · omega
    · rw [h1] at hp'
      have : k' < k := (hp'.eq_of_pos h).1 (by omega)
      exact H.lt this hp' h
  · intro hlt
    rcases hu with rfl | ⟨F, hF, hu⟩
    · exact .inl hlt
    · by_cases ht : w.thread = t
      · right
        refine ⟨ht, ?_⟩
        rw [ht] at hp'
        rcases Nat.lt_trichotomy k' k with hk | rfl | hk
        · have := off_mono (items t) (show k' + 1 ≤ k from hk)
          have := hp'.pos
          omega
        · obtain ⟨_, rfl, _⟩ := hp'.unique h; omega
        · have := H.lt hk h hp'; omega
      · left
        have h2 := hu.2 w x v' ht hF hw
        have h3 : X.rank w ≠ X.rank ⟨t, off (items t) k + i, .rd⟩ := by
          intro he
          obtain ⟨_, ow, how, _⟩ := hw
          have := H.ax.inj _ _ _ _ how hat he
          exact ht (by rw [this])
        omega

theorem Setup.fresh {t k : Nat} {d : Done W} {n : Node} {o : Own W} (h : IsPt A.e items t k d n o) {x : Nat} (hx : o.reads x) :
    X.Newest (fun w => X.rank w < X.rank n) x (o.m x) := by
  have hc := H.clean h hx
  obtain ⟨p, hp, hn⟩ := h.pt
  have hnp : n.pos = off (items t) k + p := by rw [hn]
  rcases hp.kinds with ⟨a, hev⟩ | ⟨a, hev⟩ | ⟨⟨a, hev⟩, hno | ⟨hsc, i, l, acc, hi, hl, hll, hlev, hbetween, hsame⟩⟩
  · have hat : X.At ⟨t, off (items t) k + p, .rd⟩ o := H.at_pos h.item hp.get (by rw [hev]; trivial)
    refine H.fresh_of h hc (Nat.le_refl p) hnp (H.ax.value _ o x hat rfl hx) hat (.inl ?_)
    rw [hn, hev]; rfl
  · have hat : X.At ⟨t, off (items t) k + p, .rd⟩ o := H.at_pos h.item hp.get (by rw [hev]; trivial)
    have hat' : X.At ⟨t, off (items t) k + p, .wr⟩ o := H.at_pos h.item hp.get (by rw [hev]; trivial)
    refine H.fresh_of h hc (Nat.le_refl p) hnp (H.ax.value _ o x hat rfl hx) hat (.inr ⟨o.reads, hx, ?_⟩)
    have : n = ⟨t, off (items t) k + p, .wr⟩ := by rw [hn, hev]; rfl
    rw [this]
    exact H.ax.rmw _ _ o hat hat'
  · exact absurd hx (hno x)
  · obtain ⟨g1, g2, g3⟩ := hsame x hx
    have hat : X.At ⟨t, off (items t) k + i, .rd⟩ l := H.at_pos h.item hl (by rw [hlev]; trivial)
    have hat' : X.At ⟨t, off (items t) k + p, .wr⟩ o := H.at_pos h.item hp.get (by rw [hev]; trivial)
    have hv := H.ax.value _ l x hat rfl g2
    rw [g3] at hv
    refine H.fresh_of h hc (Nat.le_of_lt hi) hnp hv hat (.inr ⟨o.writes, g1, ?_⟩)
    have : n = ⟨t, off (items t) k + p, .wr⟩ := by rw [hn, hev]; rfl
    rw [this]
    refine H.ax.llsc t _ _ l o (by omega) hat hat' hll hsc ?_
    intro q o' hq hq' ho'
    obtain ⟨j, rfl⟩ := Nat.exists_eq_add_of_le (show off (items t) k ≤ q by omega)
    have hj : j < (owns d.tr).length := by
      have := (List.getElem?_eq_some_iff.1 hp.get).1
      omega
    have := item_get h.item (it := .op d) (q := j) (o := (owns d.tr)[j]) (List.getElem?_eq_getElem hj)
    rw [H.po, this] at ho'
    simp only [Option.some.injEq] at ho'
    exact hbetween j o' (by omega) (by omega) (by rw [← ho']; exact List.getElem?_eq_getElem hj)

/-- the answers of the operations of thread `t` -/
def answers (t : Nat) (l : List (Item W)) : List (Nat × Call × Ret) := (opsOf l).map fun d => (t, d.call, d.ret)

omit H in
theorem opsOf_append (a b : List (Item W)) : opsOf (a ++ b) = opsOf a ++ opsOf b := by simp [opsOf]

omit H in
theorem answers_append (t : Nat) (a b : List (Item W)) : answers t (a ++ b) = answers t a ++ answers t b := by
  simp [answers, opsOf_append]

omit H in
/-- no operations in a part of the list -/
theorem answers_take {t K k : Nat} {L : List (Item W)} (hK : K ≤ k) (h : ∀ j d, K ≤ j → j < k → L[j]? ≠ some (.op d)) :
    answers t (L.take k) = answers t (L.take K) := by
  have : L.take k = L.take K ++ (L.take k).drop K := by
    conv => lhs; rw [← List.take_append_drop K (L.take k)]
    rw [List.take_take, Nat.min_eq_left hK]
  rw [this, answers_append]
  have : opsOf ((L.take k).drop K) = [] := by
    apply List.filterMap_eq_nil_iff.2
    intro it hit
    cases it with
    | other => rfl
    | op d =>
      obtain ⟨j, hj⟩ := List.mem_iff_getElem?.1 hit
      rw [List.getElem?_drop] at hj
      have hl := (List.getElem?_eq_some_iff.1 hj).1
      rw [List.length_take] at hl
      rw [List.getElem?_take_of_lt (by omega)] at hj
      exact absurd hj (h _ d (by omega) (by omega))
  simp [answers, this]

/-- The state after the part of the execution before place `r`. -/
structure UpTo (A : Backend W) (X : AxShape W) (items : Nat → List (Item W)) (r : Nat) (S : List (Nat × Call × Ret)) (M : Mem)
    (K : Nat → Nat) : Prop where
  legal : Legal A.e X.m0 S M
  mem : ∀ x, Clean items x → X.Newest (fun w => X.rank w < r) x (M x)
  early : ∀ t k d n o, IsPt A.e items t k d n o → k < K t → X.rank n < r
  late : ∀ t k d n o, IsPt A.e items t k d n o → K t ≤ k → r ≤ X.rank n
  seq : ∀ t, ofThread t S = answers t ((items t).take (K t))

omit H in
theorem upTo_zero : UpTo A X items 0 [] X.m0 (fun _ => 0) where
  legal := rfl
  mem _ _ := .inr ⟨fun n v' h => absurd h (Nat.not_lt_zero _), rfl⟩
  early _ _ _ _ _ _ h := absurd h (Nat.not_lt_zero _)
  late _ _ _ _ _ _ _ := Nat.zero_le _
  seq t := rfl

theorem Setup.step {r : Nat} {S : List (Nat × Call × Ret)} {M : Mem} {K : Nat → Nat} (h : UpTo A X items r S M K) :
    ∃ S' M' K', UpTo A X items (r + 1) S' M' K' := by
  by_cases hex : ∃ t k d n o, IsPt A.e items t k d n o ∧ X.rank n = r
  · obtain ⟨t, k, d, n, o, hp, hr⟩ := hex
    obtain ⟨p, hpt, hn⟩ := hp.pt
    have hat := H.isPt_at hp
    have hagree : Agree M o.m (o.ins.rdFoot o.rs).1 (o.ins.rdFoot o.rs).2 := by
      intro x hx hx'
      have hrd : o.reads x := ⟨hx, hx'⟩
      have h2 := H.fresh hp hrd
      rw [hr] at h2
      exact H.ax.newest_unique (h.mem x (H.clean hp hrd)) h2
    have hsem := hpt.sem M hagree
    have hKk : K t ≤ k := by
      rcases Nat.lt_or_ge k (K t) with hlt | hge
      · have := h.early t k d n o hp hlt; omega
      · exact hge
    have hinj : ∀ n' o', X.At n' o' → X.rank n' = r → n' = n := fun n' o' ha hr' =>
      H.ax.inj _ _ _ _ ha hat (hr'.trans hr.symm)
    refine ⟨S ++ [(t, d.call, d.ret)], afterAccess o.ins o.rs o.ev o.m' M, fun t' => if t' = t then k + 1 else K t', ?_, ?_, ?_, ?_, ?_⟩
    · exact h.legal.snoc hsem
    · intro x hx
      by_cases hw : o.writes x
      · have hval : afterAccess o.ins o.rs o.ev o.m' M x = o.m' x := by
          simp only [afterAccess, hw.1, overlay]
          rw [if_pos hw.2]
        rw [hval]
        refine .inl ⟨n, by omega, ⟨?_, o, hat, hw, rfl⟩, fun n' v' hn' _ => by omega⟩
        rw [hn]; simp [ptKind, hw.1]
      · have hval : afterAccess o.ins o.rs o.ev o.m' M x = M x := by
          unfold afterAccess
          cases hwr : o.ev.isWrite with
          | true =>
            simp only [overlay]
            rw [if_neg]
            exact fun hc => hw ⟨hwr, hc⟩
          | false => rfl
        rw [hval]
        refine (h.mem x hx).congr ?_
        intro w v' hwb
        constructor
        · intro; omega
        · intro hlt
          by_cases hwr : X.rank w = r
          · obtain ⟨_, o', ho', hw', _⟩ := hwb
            obtain rfl := hinj w o' ho' hwr
            have := ho'.1.symm.trans hat.1
            simp only [Option.some.injEq] at this
            subst this
            exact absurd hw' hw
          · omega
    · intro t' k' d' n' o' hp' hk'
      by_cases ht : t' = t
      · subst ht
        simp only [if_pos] at hk'
        rcases Nat.lt_or_ge k' k with hlt | hge
        · have := H.lt hlt hp' hp; omega
        · obtain rfl : k' = k := by omega
          obtain ⟨_, rfl, _⟩ := hp'.unique hp; omega
      · rw [if_neg ht] at hk'
        have := h.early t' k' d' n' o' hp' hk'; omega
    · intro t' k' d' n' o' hp' hk'
      by_cases ht : t' = t
      · subst ht
        simp only [if_pos] at hk'
        have := H.lt (show k < k' by omega) hp hp'; omega
      · rw [if_neg ht] at hk'
        have h1 := h.late t' k' d' n' o' hp' hk'
        rcases Nat.lt_or_ge r (X.rank n') with hlt | hge
        · omega
        · obtain rfl := hinj n' o' (H.isPt_at hp') (by omega)
          exact absurd (hp'.pos.1.symm.trans hp.pos.1) ht
    · intro t'
      rw [ofThread_append, ofThread_one, h.seq]
      by_cases ht : t' = t
      · subst ht
        simp only [if_pos]
        rw [← answers_take hKk]
        · obtain ⟨hlen, hget⟩ := List.getElem?_eq_some_iff.1 hp.item
          rw [← List.take_append_getElem hlen, answers_append, hget]
          rfl
        · intro j d' hj hjk hj'
          obtain ⟨n', o', hp'⟩ := H.exists_isPt hj'
          have h1 := h.late _ _ _ _ _ hp' hj
          have h2 := H.lt hjk hp' hp
          omega
      · rw [if_neg (fun h => ht h.symm), if_neg ht, List.append_nil]
  · have hne : ∀ t k d n o, IsPt A.e items t k d n o → X.rank n ≠ r := fun t k d n o hp hr => hex ⟨t, k, d, n, o, hp, hr⟩
    refine ⟨S, M, K, h.legal, ?_, ?_, ?_, h.seq⟩
    · intro x hx
      refine (h.mem x hx).congr ?_
      intro w v' hwb
      obtain ⟨k, d, o, hp, _⟩ := H.write_clean hwb hx
      have := hne _ _ _ _ _ hp
      constructor <;> intro <;> omega
    · intro t k d n o hp hk
      have := h.early t k d n o hp hk; omega
    · intro t k d n o hp hk
      have h1 := h.late t k d n o hp hk
      have h2 := hne t k d n o hp
      omega

theorem Setup.upTo (r : Nat) : ∃ S M K, UpTo A X items r S M K := by
  induction r with
  | zero => exact ⟨_, _, _, upTo_zero⟩
  | succ r ih =>
    obtain ⟨S, M, K, h⟩ := ih
    exact H.step h

omit H in
theorem bound_list (f : Nat → Nat) (n : Nat) : ∃ R, ∀ k, k < n → f k < R := by
  induction n with
  | zero => exact ⟨0, fun k h => absurd h (Nat.not_lt_zero _)⟩
  | succ n ih =>
    obtain ⟨R, hR⟩ := ih
    refine ⟨R + f n + 1, fun k hk => ?_⟩
    rcases Nat.lt_or_ge k n with h | h
    · have := hR k h; omega
    · obtain rfl : k = n := by omega
      omega

omit H in
theorem isPt_bound {N : Nat} (hN : ∀ t, N ≤ t → items t = []) : ∃ R, ∀ t k d n o, IsPt A.e items t k d n o → X.rank n < R := by
  have h1 : ∀ t, ∃ R, ∀ k d n o, IsPt A.e items t k d n o → X.rank n < R := by
    intro t
    have : ∀ k, ∃ f, ∀ d n o, IsPt A.e items t k d n o → X.rank n = f := by
      intro k
      by_cases h : ∃ d n o, IsPt A.e items t k d n o
      · obtain ⟨d, n, o, h⟩ := h
        refine ⟨X.rank n, fun d' n' o' h' => ?_⟩
        rw [(h'.unique h).2.1]
      · exact ⟨0, fun d n o h' => absurd ⟨d, n, o, h'⟩ h⟩
    obtain ⟨R, hR⟩ := bound_list (fun k => (this k).choose) (items t).length
    refine ⟨R, fun k d n o h => ?_⟩
    have hk := (List.getElem?_eq_some_iff.1 h.item).1
    have h3 := hR k hk
    rwa [← (this k).choose_spec d n o h] at h3
  obtain ⟨R, hR⟩ := bound_list (fun t => (h1 t).choose) N
  refine ⟨R, fun t k d n o h => ?_⟩
  have ht : t < N := by
    rcases Nat.lt_or_ge t N with ht | ht
    · exact ht
    · have := h.item
      rw [hN t ht] at this
      simp at this
  have h3 := hR t ht
  have h4 := (h1 t).choose_spec k d n o h
  omega

theorem Setup.conclude {N : Nat} (hN : ∀ t, N ≤ t → items t = []) :
    ∃ (seq : List (Nat × Call × Ret)) (m : Mem), Legal A.e X.m0 seq m ∧
      (∀ t, ofThread t seq = (opsOf (items t)).map fun d => (t, d.call, d.ret)) ∧
      ∀ x, (∀ t o, Item.other o ∈ items t → ¬ o.writes x) → X.Newest (fun _ => True) x (m x) := by
  obtain ⟨R, hR⟩ := isPt_bound (A := A) (X := X) hN
  obtain ⟨S, M, K, h⟩ := H.upTo R
  refine ⟨S, M, h.legal, ?_, ?_⟩
  · intro t
    rw [h.seq]
    show answers t _ = answers t _
    rcases Nat.lt_or_ge (K t) (items t).length with hlt | hge
    · conv => rhs; rw [← List.take_length (l := items t)]
      refine (answers_take (Nat.le_of_lt hlt) ?_).symm
      intro j d hj _ hj'
      obtain ⟨n, o, hp⟩ := H.exists_isPt hj'
      have := h.late _ _ _ _ _ hp hj
      have := hR _ _ _ _ _ hp
      omega
    · rw [List.take_of_length_le hge]
  · intro x hx
    refine (h.mem x hx).congr ?_
    intro w v' hw
    obtain ⟨k, d, o, hp, _⟩ := H.write_clean hw hx
    exact ⟨fun _ => trivial, fun _ => hR _ _ _ _ _ hp⟩
end setup

theorem Done.seqCst {W : Nat} {A : Backend W} {d : Done W} (h : d.OK A) (hp : d.call.SeqCstOnly) :
    A.SeqCstRun (d.tr.map LEv.erase) := by
  obtain ⟨call, B, tr, rs⟩ := d
  obtain ⟨hB, c0, c, h1, _, h3, h4, h5, h6⟩ := h
  have hc : B.Completed A.e (tr.map LEv.erase) rs := ⟨c0, c, h1, h3, h4.run, h5, h6⟩
  cases call with
  | load o w a => have hp : o = .seqCst := hp; subst hp; exact .load hB hc
  | store o w a v => have hp : o = .seqCst := hp; subst hp; exact .store hB hc
  | swap o w a v => have hp : o = .seqCst := hp; subst hp; exact .swap hB hc
  | cas s f w a old new =>
    obtain ⟨rfl, rfl⟩ : s = .seqCst ∧ f = .seqCst := hp
    cases hok : B.ok rs with
    | true => exact .casOk (.inl hB) hc hok
    | false => exact .casFail (.inl hB) hc hok
  | casWeak s f w a old new =>
    obtain ⟨rfl, rfl⟩ : s = .seqCst ∧ f = .seqCst := hp
    cases hok : B.ok rs with
    | true => exact .casOk (.inr hB) hc hok
    | false => exact .casFail (.inr hB) hc hok

/-- C41, from the local specification of the operations and the order of SeqCst operations. -/
theorem Backend.scOnWeak {W : Nat} {A : Backend W} {P : Call → Prop} (hloc : A.LocalOps P) (hord : A.OrderingsOK) :
    A.SCOnWeak fun c => c.SeqCstOnly ∧ P c := by
  intro X N items hX hN hpo hops hfor
  have HP : Prog A X items := ⟨hpo, fun t d h => exists_point hloc (hops t d h).1 (hops t d h).2.2⟩
  have sc : ∀ {t k : Nat} {d : Done W}, (items t)[k]? = some (.op d) → A.SeqCstRun (d.tr.map LEv.erase) := fun h =>
    Done.seqCst (hops _ _ (List.mem_of_getElem? h)).1 (hops _ _ (List.mem_of_getElem? h)).2.1
  exact Setup.conclude ⟨HP, hX, fun hk h h' => HP.lt hX (hord.seqCst _ _ (sc h.item) (sc h'.item)) hk h h', hfor⟩ hN

/-- The local specification of the operations, from the verification of the blocks. -/
theorem Good.localOps {W : Nat} {A : Backend W} {sc : List Mon} (h : Good A sc) {P : Call → Prop}
    (h4 : ∀ s f w a old new B, P (.cas s f w a old new) → A.Cas s f w a old new B →
      B.Atomic A.e fun m m' rs => CasSpec A.e a w old new m m' (B.out rs) (B.ok rs)) : A.LocalOps P := by
  intro c B hP hB c0 tr c' h1 h2 h3 h5
  cases c with
  | load o w a => exact (h.load o w a B hB c0 tr c' h1 h2 h3 h5).imp fun m m' hq => ⟨_, hq.1, rfl⟩
  | store o w a v => exact (h.store o w a v B hB c0 tr c' h1 h2 h3 h5).imp fun m m' hq => ⟨hq.1, rfl⟩
  | swap o w a v => exact (h.swap o w a v B hB c0 tr c' h1 h2 h3 h5).imp fun m m' hq => ⟨_, hq.1, rfl⟩
  | casWeak s f w a old new => exact (h.casWeak s f w a old new B hB c0 tr c' h1 h2 h3 h5).imp fun m m' hq => ⟨_, _, hq.1, rfl⟩
  | cas s f w a old new =>
    have hok : B.ok c'.rs = true ↔ B.out c'.rs = old := by
      obtain ⟨pre, ev, m, m', post, _, _, hq⟩ := h4 s f w a old new B hP hB _ _ ⟨c0, c', h1, h2, h3.run, h5, rfl⟩
      obtain ⟨e1, ⟨e2, e3, _⟩ | ⟨e2, e3, _⟩⟩ := hq
      · exact ⟨fun _ => e1.trans e2, fun _ => e3⟩
      · exact ⟨fun hk => Bool.noConfusion (e3.symm.trans hk), fun hk => absurd (e1.symm.trans hk) e2⟩
    refine (h.cas s f w a old new B hB c0 tr c' h1 h2 h3 h5).imp fun m m' hq => ⟨B.out c'.rs, B.ok c'.rs, ?_, rfl⟩
    obtain ⟨⟨e1, ⟨e2, e3, e4⟩ | ⟨e3, e4⟩⟩, _⟩ := hq
    · exact ⟨e1, .inl ⟨e2, e3, e4⟩⟩
    · refine ⟨e1, .inr ⟨fun he => ?_, e3, e4⟩⟩
      have := hok.2 (e1.trans he)
      rw [e3] at this
      cases this

theorem Backend.SCOnWeak.mono {W : Nat} {A : Backend W} {P Q : Call → Prop} (h : A.SCOnWeak Q) (hPQ : ∀ c, P c → Q c) :
    A.SCOnWeak P := fun X N items h1 h2 h3 h4 h5 => h X N items h1 h2 h3 (fun t d hd => ⟨(h4 t d hd).1, hPQ _ (h4 t d hd).2⟩) h5

/-- The form used for the back ends. -/
theorem Good.scOnWeak {W : Nat} {A : Backend W} {sc : List Mon} (h : Good A sc) (h4 : A.CasAtomic) (hord : A.OrderingsOK) :
    A.SCOnWeak Call.SeqCstOnly :=
  (Backend.scOnWeak (h.localOps (P := fun _ => True) fun s f w a old new B _ => h4 s f w a old new B) hord).mono
    fun _ h => ⟨h, trivial⟩

end Verif
