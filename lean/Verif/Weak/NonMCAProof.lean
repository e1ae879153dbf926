/-
Proof of C41 for machines that are not multi-copy atomic.
-/
import Verif.Weak.NonMCA

namespace Verif

/-! relations -/
section rel
variable {α : Type} {R : α → α → Prop}

theorem Star.trans {a b c : α} (h : Star R a b) (h' : Star R b c) : Star R a c := by
  induction h' with
  | refl => exact h
  | tail _ hs ih => exact ih.tail hs
theorem Plus.trans {a b c : α} (h : Plus R a b) (h' : Plus R b c) : Plus R a c := by
  induction h' with
  | one hs => exact h.tail hs
  | tail _ hs ih => exact ih.tail hs
theorem Plus.first {a b : α} (h : Plus R a b) : ∃ c, R a c ∧ (c = b ∨ Plus R c b) := by
  induction h with
  | one hs => exact ⟨_, hs, .inl rfl⟩
  | tail _ hs ih =>
    obtain ⟨c, h1, h2⟩ := ih
    refine ⟨c, h1, .inr ?_⟩
    rcases h2 with rfl | h2
    · exact .one hs
    · exact h2.tail hs

theorem countP_lt {p q : α → Bool} (hpq : ∀ a, p a = true → q a = true) : ∀ {l : List α} {x : α}, x ∈ l → q x = true →
    p x = false → l.countP p < l.countP q := by
  intro l
  have le : ∀ l : List α, l.countP p ≤ l.countP q := by
    intro l
    induction l with
    | nil => simp
    | cons y t ih =>
      rw [List.countP_cons, List.countP_cons]
      cases hp : p y with
      | true => rw [hpq y hp]; simp only [if_true]; omega
      | false => simp only [Bool.false_eq_true, if_false]; omega
  induction l with
  | nil => intro x h; cases h
  | cons y t ih =>
    intro x hx hq hp
    rw [List.countP_cons, List.countP_cons]
    rcases List.mem_cons.1 hx with rfl | hx
    · rw [hq, hp]
      have := le t
      simp only [if_true, Bool.false_eq_true, if_false]; omega
    · have := ih hx hq hp
      cases hp' : p y with
      | true => rw [hpq y hp']; simp only [if_true]; omega
      | false => simp only [Bool.false_eq_true, if_false]; omega

open Classical in
/-- a relation without cycles is contained in the order of a number -/
theorem exists_height (hac : ∀ a, ¬ Plus R a a) (L : List α) : ∃ h : α → Nat, ∀ a b, a ∈ L → R a b → h a < h b := by
  refine ⟨fun x => L.countP fun y => decide (Plus R y x), fun a b ha hab => ?_⟩
  refine countP_lt ?_ ha ?_ ?_
  · intro y hy
    simp only [decide_eq_true_eq] at hy ⊢
    exact hy.tail hab
  · simp only [decide_eq_true_eq]; exact .one hab
  · simp only [decide_eq_false_iff_not]; exact hac a
end rel

/-! calls on disjoint objects do not disturb each other -/

/-- a sequence of calls is legal if its part for each object is -/
theorem legal_of_objects {e : Endian} {Obj : Nat → Nat → Prop}
    (hdis : ∀ w a w' a', Obj w a → Obj w' a' → (w = w' ∧ a = a') ∨ a + w / 8 ≤ a' ∨ a' + w' / 8 ≤ a)
    (hsz : ∀ w a, Obj w a → w % 8 = 0) : ∀ (S : List (Nat × Call × Ret)) (M : Mem) (st fin : Nat → Nat → Mem),
    (∀ z ∈ S, Obj z.2.1.width z.2.1.addr) → (∀ w a, Obj w a → Agree (st w a) M a (w / 8)) →
    (∀ w a, Obj w a → Legal e (st w a) (S.filter fun z => decide (z.2.1.On w a)) (fin w a)) →
    ∃ m, Legal e M S m ∧ ∀ w a, Obj w a → Agree (fin w a) m a (w / 8) := by
  intro S
  induction S with
  | nil =>
    intro M st fin _ hag hl
    refine ⟨M, rfl, fun w a ho => ?_⟩
    have : st w a = fin w a := hl w a ho
    rw [← this]; exact hag w a ho
  | cons z S ih =>
    obtain ⟨t, c, r⟩ := z
    intro M st fin hS hag hl
    have ho : Obj c.width c.addr := hS _ List.mem_cons_self
    have h1 := hl _ _ ho
    rw [List.filter_cons_of_pos (by simp [Call.On])] at h1
    obtain ⟨m1, hsem, h1⟩ := h1
    have hloc := hsem.locally (hsz _ _ ho) (hag _ _ ho)
    have key := ih (overlay M m1 c.addr (c.width / 8))
      (fun w a => if w = c.width ∧ a = c.addr then m1 else st w a) fin (fun z hz => hS z (List.mem_cons_of_mem _ hz))
    refine Exists.elim (key ?_ ?_) fun m g => ⟨m, ⟨_, hloc, g.1⟩, g.2⟩
    · intro w a ho' x hx hx'
      rcases hdis _ _ _ _ ho' ho with ⟨rfl, rfl⟩ | hd
      · simp only [and_self, if_true, overlay]
        rw [if_pos ⟨hx, hx'⟩]
      · have hne : ¬ (w = c.width ∧ a = c.addr) := by
          rintro ⟨rfl, rfl⟩; omega
        simp only [if_neg hne, overlay]
        rw [if_neg (by omega)]
        exact hag w a ho' x hx hx'
    · intro w a ho'
      by_cases he : w = c.width ∧ a = c.addr
      · obtain ⟨rfl, rfl⟩ := he
        simp only [and_self, if_true]
        exact h1
      · simp only [if_neg he]
        have := hl w a ho'
        rw [List.filter_cons_of_neg (fun hd => he ⟨(of_decide_eq_true hd).1.symm, (of_decide_eq_true hd).2.symm⟩)] at this
        exact this

/-! all operations -/

/-- the operations, with their positions -/
def opEnts {W : Nat} : Nat → List (Item W) → List (Nat × Done W)
  | _, [] => []
  | k, .op d :: l => (k, d) :: opEnts (k + 1) l
  | k, .other _ :: l => opEnts (k + 1) l

section opEnts
variable {W : Nat}

theorem mem_opEnts {l : List (Item W)} {k k' : Nat} {d : Done W} :
    (k', d) ∈ opEnts k l ↔ ∃ j, k' = k + j ∧ l[j]? = some (.op d) := by
  induction l generalizing k with
  | nil => simp [opEnts]
  | cons x t ih =>
    have key : (k', d) ∈ opEnts (k + 1) t ↔ ∃ j, k' = k + (j + 1) ∧ (x :: t)[j + 1]? = some (.op d) := by
      rw [ih]
      simp only [List.getElem?_cons_succ]
      constructor <;> rintro ⟨j, h1, h2⟩ <;> exact ⟨j, by omega, h2⟩
    have split : (∃ j, k' = k + j ∧ (x :: t)[j]? = some (.op d)) ↔
        (k' = k ∧ x = .op d) ∨ ∃ j, k' = k + (j + 1) ∧ (x :: t)[j + 1]? = some (.op d) := by
      constructor
      · rintro ⟨j, h1, h2⟩
        cases j with
        | zero => simp only [List.getElem?_cons_zero, Option.some.injEq] at h2; exact .inl ⟨by omega, h2⟩
        | succ j => exact .inr ⟨j, h1, h2⟩
      · rintro (⟨h1, h2⟩ | ⟨j, h⟩)
        · exact ⟨0, by omega, by rw [h2]; rfl⟩
        · exact ⟨j + 1, h⟩
    rw [split, ← key]
    cases x with
    | other o => simp [opEnts]
    | op d' =>
      simp only [opEnts, List.mem_cons, Prod.mk.injEq, Item.op.injEq]
      constructor
      · rintro (⟨rfl, rfl⟩ | h)
        · exact .inl ⟨rfl, rfl⟩
        · exact .inr h
      · rintro (⟨rfl, rfl⟩ | h)
        · exact .inl ⟨rfl, rfl⟩
        · exact .inr h

theorem opEnts_sorted {l : List (Item W)} {k : Nat} : (opEnts k l).Pairwise fun x y => x.1 < y.1 := by
  induction l generalizing k with
  | nil => simp [opEnts]
  | cons x t ih =>
    cases x with
    | other o => exact ih
    | op d =>
      refine List.pairwise_cons.2 ⟨?_, ih⟩
      rintro ⟨k', d'⟩ h
      obtain ⟨j, h, _⟩ := mem_opEnts.1 h
      simp only; omega

theorem opEnts_map {l : List (Item W)} {k : Nat} : (opEnts k l).map Prod.snd = opsOf l := by
  induction l generalizing k with
  | nil => rfl
  | cons x t ih =>
    cases x with
    | other o => simp only [opEnts, ih]; simp [opsOf]
    | op d => simp only [opEnts, List.map_cons, ih]; rfl

/-- the operations of all threads -/
def allPts (items : Nat → List (Item W)) (N : Nat) : List (Nat × Nat × Done W) :=
  (List.range N).flatMap fun t => (opEnts 0 (items t)).map fun e => (t, e)

theorem mem_allPts {items : Nat → List (Item W)} {N : Nat} (hN : ∀ t, N ≤ t → items t = []) {t k : Nat} {d : Done W} :
    (t, k, d) ∈ allPts items N ↔ (items t)[k]? = some (.op d) := by
  simp only [allPts, List.mem_flatMap, List.mem_range, List.mem_map, Prod.mk.injEq]
  constructor
  · rintro ⟨t', _, ⟨k', d'⟩, h, rfl, h'⟩
    simp only [Prod.mk.injEq] at h'
    obtain ⟨rfl, rfl⟩ := h'
    obtain ⟨j, h1, h2⟩ := mem_opEnts.1 h
    rw [Nat.zero_add] at h1
    exact h1 ▸ h2
  · intro h
    have ht : t < N := by
      rcases Nat.lt_or_ge t N with ht | ht
      · exact ht
      · rw [hN t ht] at h; simp at h
    exact ⟨t, ht, (k, d), mem_opEnts.2 ⟨k, by omega, h⟩, rfl, rfl⟩

theorem ofThread_allPts {items : Nat → List (Item W)} {N : Nat} (hN : ∀ t, N ≤ t → items t = []) (t : Nat) :
    ofThread t (allPts items N) = (opEnts 0 (items t)).map fun e => (t, e) := by
  have gen : ∀ N, ofThread t (allPts items N) = if t < N then (opEnts 0 (items t)).map fun e => (t, e) else [] := by
    intro N
    induction N with
    | zero => rfl
    | succ N ih =>
      have : allPts items (N + 1) = allPts items N ++ (opEnts 0 (items N)).map fun e => (N, e) := by
        simp [allPts, List.range_succ]
      rw [this, ofThread_append, ih]
      by_cases h : t = N
      · subst h
        rw [if_neg (by omega), if_pos (by omega), List.nil_append]
        simp only [ofThread]
        exact List.filter_eq_self.2 (by simp; intro _ _ _ _ _ _ h _ _; exact h.symm)
      · have : ofThread t ((opEnts 0 (items N)).map fun e => (N, e)) = [] := by
          simp only [ofThread]
          exact List.filter_eq_nil_iff.2 (by simp; omega)
        rw [this, List.append_nil]
        by_cases h2 : t < N
        · rw [if_pos h2, if_pos (by omega)]
        · rw [if_neg h2, if_neg (by omega)]
  rw [gen]
  split
  · rfl
  · rw [hN t (by omega)]; rfl

theorem allPts_nodup {items : Nat → List (Item W)} {N : Nat} : (allPts items N).Nodup := by
  refine List.pairwise_flatMap.2 ⟨fun t _ => ?_, ?_⟩
  · refine List.pairwise_map.2 (opEnts_sorted.imp ?_)
    intro x y h he
    simp only [Prod.mk.injEq, true_and] at he
    rw [he] at h
    omega
  · refine List.nodup_range.imp ?_
    intro t t' h x hx y hy he
    simp only [List.mem_map] at hx hy
    obtain ⟨_, _, rfl⟩ := hx
    obtain ⟨_, _, rfl⟩ := hy
    simp only [Prod.mk.injEq] at he
    exact h he.1
end opEnts

/-! one object -/
section one
variable {W : Nat} {A : Backend W} {X : AxShape W} {rf : Node → Nat → Option Node} {items : Nat → List (Item W)}
  {w a : Nat} (H : CSetup A X rf items w a)
include H

/-- a list of all operations on the object, ordered by place, is legal and leaves the newest bytes -/
theorem CSetup.legal_all {N : Nat} (hN : ∀ t, N ≤ t → items t = []) (κ : Nat × Nat × Done W → Nat)
    (hκ : ∀ t k d n o, IsPt A.e items t k d n o → κ (t, k, d) = keyOf X rf a n o.ev)
    (S : List (Nat × Nat × Done W)) (hsort : S.Pairwise fun x y => κ x ≤ κ y) (hnd : S.Nodup)
    (hmem : ∀ t k d, (t, k, d) ∈ S ↔ (items t)[k]? = some (.op d) ∧ d.call.On w a) :
    ∃ M, Legal A.e X.m0 (S.map fun e => (e.1, e.2.2.call, e.2.2.ret)) M ∧
      ∀ x, a ≤ x → x < a + w / 8 → X.Newest (fun _ => True) x (M x) := by
  obtain ⟨M, r, g1, g2, g3⟩ := H.legal κ hκ S hsort hnd hmem S [] 0 X.m0 rfl
    (fun x _ _ => .inr ⟨fun n v' h => absurd h (Nat.not_lt_zero _), rfl⟩) (fun _ h => nomatch h) (fun _ _ => by omega)
  refine ⟨M, g1, ?_⟩
  obtain ⟨R, hR⟩ := isPt_bound (A := A) (X := X) hN
  have := H.advance g2 R fun t k d n o hp hon hw h1 _ => by
    have := g3 _ ((hmem t k d).2 ⟨hp.item, hon⟩)
    rw [hκ _ _ _ _ _ hp] at this
    unfold keyOf at this
    rw [hw] at this
    simp only at this
    omega
  intro x h1 h2
  refine (this x h1 h2).congr fun u v' hu => ?_
  obtain ⟨k, d, o, hp, _⟩ := H.write hu h1 h2
  have := hR _ _ _ _ _ hp
  exact ⟨fun _ => trivial, fun _ => by omega⟩

/-- what the places say about communication -/
theorem CSetup.com {t k t' k' : Nat} {d d' : Done W} {n n' : Node} {o o' : Own W} (h : IsPt A.e items t k d n o)
    (h' : IsPt A.e items t' k' d' n' o') (hon : d.call.On w a) (hon' : d'.call.On w a)
    (hlt : keyOf X rf a n o.ev < keyOf X rf a n' o'.ev) : Star (X.Com rf) n n' := by
  have hpos := H.size.pos
  have t1 := H.touch h hon (Nat.le_refl a) (by omega)
  have t2 := H.touch h' hon' (Nat.le_refl a) (by omega)
  -- the source of a read
  have src : ∀ {m : Node} {om : Own W} {s : Node}, X.Rd m om a → rf m a = some s → ∃ os, X.Wr s os a := by
    intro m om s hm hs
    have := (H.ax.value m om a hm.1 hm.2.1 hm.2.2.2).1 s hs
    obtain ⟨k, d, os, hp, hw, _⟩ := H.write this (Nat.le_refl a) (by omega)
    exact ⟨os, H.wr hp hw⟩
  unfold keyOf at hlt
  cases hw : o.ev.isWrite with
  | true =>
    have w1 := t1.1 hw
    rw [hw] at hlt
    cases hw' : o'.ev.isWrite with
    | true =>
      rw [hw'] at hlt
      exact .tail (.refl _) ⟨o, o', a, .inr (.inl ⟨w1, t2.1 hw', by simp only at hlt; omega⟩)⟩
    | false =>
      rw [hw'] at hlt
      have r2 := t2.2 hw'
      cases hs : rf n' a with
      | none => rw [hs] at hlt; simp only at hlt; omega
      | some s =>
        rw [hs] at hlt
        simp only at hlt
        obtain ⟨os, hos⟩ := src r2 hs
        have hrf : X.Com rf s n' := ⟨os, o', a, .inl ⟨hos, r2, hs⟩⟩
        by_cases heq : X.rank n = X.rank s
        · have := H.ax.inj _ _ _ _ _ _ w1 hos heq
          rw [this]; exact .tail (.refl _) hrf
        · exact .tail (.tail (.refl _) ⟨o, os, a, .inr (.inl ⟨w1, hos, by omega⟩)⟩) hrf
  | false =>
    have r1 := t1.2 hw
    rw [hw] at hlt
    cases hw' : o'.ev.isWrite with
    | true =>
      rw [hw'] at hlt
      refine .tail (.refl _) ⟨o, o', a, .inr (.inr ⟨r1, t2.1 hw', fun s hs => ?_⟩)⟩
      rw [hs] at hlt; simp only at hlt; omega
    | false =>
      rw [hw'] at hlt
      have r2 := t2.2 hw'
      cases hs' : rf n' a with
      | none => rw [hs'] at hlt; simp only at hlt; omega
      | some s' =>
        obtain ⟨os, hos⟩ := src r2 hs'
        refine .tail (.tail (.refl _) ⟨o, os, a, .inr (.inr ⟨r1, hos, fun s hs => ?_⟩)⟩) ⟨os, o', a, .inl ⟨hos, r2, hs'⟩⟩
        rw [hs, hs'] at hlt; simp only at hlt; omega
end one

/-! a sequence of the operations -/

/-- Operations, sorted by places that respect the program order and the order in each object, are legal. -/
theorem Prog.sequence {W : Nat} {A : Backend W} {X : AxShape W} {rf : Node → Nat → Option Node} {items : Nat → List (Item W)}
    (H : Prog A X items) (objs : ∀ t d, Item.op d ∈ items t → CSetup A X rf items d.call.width d.call.addr) {N : Nat}
    (hN : ∀ t, N ≤ t → items t = []) (ht : Nat × Nat × Done W → Nat)
    (hpo : ∀ t k k' d d', (items t)[k]? = some (.op d) → (items t)[k']? = some (.op d') → k < k' → ht (t, k, d) < ht (t, k', d'))
    (hkey : ∀ t k d n o t' k' d' n' o', IsPt A.e items t k d n o → IsPt A.e items t' k' d' n' o' →
      d.call.On d'.call.width d'.call.addr → keyOf X rf d'.call.addr n o.ev < keyOf X rf d'.call.addr n' o'.ev →
      ht (t, k, d) < ht (t', k', d')) :
    ∃ (S : List (Nat × Nat × Done W)) (m : Mem), S.Pairwise (fun x y => ht x ≤ ht y) ∧
      (∀ t, ofThread t S = (opEnts 0 (items t)).map fun e => (t, e)) ∧
      Legal A.e X.m0 (S.map fun e => (e.1, e.2.2.call, e.2.2.ret)) m ∧
      ∀ t d x, Item.op d ∈ items t → d.call.addr ≤ x → x < d.call.addr + d.call.width / 8 →
        X.Newest (fun _ => True) x (m x) := by
  let Is : Nat × Nat × Done W → Prop := fun e => (items e.1)[e.2.1]? = some (.op e.2.2)
  -- the sequence
  let S := (allPts items N).mergeSort fun x y => decide (ht x ≤ ht y)
  have hsort : S.Pairwise fun x y => ht x ≤ ht y := by
    have := List.pairwise_mergeSort (le := fun x y : Nat × Nat × Done W => decide (ht x ≤ ht y))
      (by intro a b c; simp only [decide_eq_true_eq]; omega)
      (by intro a b; simp only [Bool.or_eq_true, decide_eq_true_eq]; omega) (allPts items N)
    exact this.imp (by intro a b h; simpa using h)
  have hperm : S.Perm (allPts items N) := List.mergeSort_perm _ _
  have hmem : ∀ e, e ∈ S ↔ Is e := fun ⟨t, k, d⟩ => by rw [hperm.mem_iff]; exact mem_allPts hN
  have hthread : ∀ t, ofThread t S = (opEnts 0 (items t)).map fun e => (t, e) := by
    intro t
    rw [← ofThread_allPts hN]
    refine ofThread_sort ?_
    rw [ofThread_allPts hN]
    refine List.pairwise_map.2 (opEnts_sorted.imp_of_mem ?_)
    rintro ⟨k, d⟩ ⟨k', d'⟩ hm hm' hlt
    obtain ⟨j, hj, hi⟩ := mem_opEnts.1 hm
    obtain ⟨j', hj', hi'⟩ := mem_opEnts.1 hm'
    rw [Nat.zero_add] at hj hj'
    subst hj; subst hj'
    exact Nat.le_of_lt (hpo _ _ _ _ _ hi hi' hlt)
  -- the part for one object
  let f : Nat × Nat × Done W → Nat × Call × Ret := fun e => (e.1, e.2.2.call, e.2.2.ret)
  let Obj : Nat → Nat → Prop := fun w a => ∃ t d, Item.op d ∈ items t ∧ d.call.width = w ∧ d.call.addr = a
  have hobj : ∀ w a, Obj w a → CSetup A X rf items w a := by
    rintro w a ⟨t, d, hd, rfl, rfl⟩; exact objs t d hd
  have hone : ∀ w a, Obj w a → ∃ M, Legal A.e X.m0 ((S.map f).filter fun z => decide (z.2.1.On w a)) M ∧
      ∀ x, a ≤ x → x < a + w / 8 → X.Newest (fun _ => True) x (M x) := by
    intro w a ho
    rw [List.filter_map]
    have hex' : ∀ e : Nat × Nat × Done W, ∃ κ, ∀ n o, IsPt A.e items e.1 e.2.1 e.2.2 n o → κ = keyOf X rf a n o.ev := by
      intro e
      by_cases h : ∃ n o, IsPt A.e items e.1 e.2.1 e.2.2 n o
      · obtain ⟨n, o, h⟩ := h
        exact ⟨_, fun n' o' h' => by obtain ⟨_, rfl, rfl⟩ := h.unique h'; rfl⟩
      · exact ⟨0, fun n o h' => absurd ⟨n, o, h'⟩ h⟩
    let κ' : Nat × Nat × Done W → Nat := fun e => (hex' e).choose
    have hκ' : ∀ t k d n o, IsPt A.e items t k d n o → κ' (t, k, d) = keyOf X rf a n o.ev := fun t k d n o h =>
      (hex' (t, k, d)).choose_spec n o h
    refine (hobj w a ho).legal_all hN κ' hκ' _ ?_ ?_ ?_
    · refine (hsort.filter _).imp_of_mem ?_
      intro e e' he he' hle
      obtain ⟨he, hon⟩ := List.mem_filter.1 he
      obtain ⟨he', hon'⟩ := List.mem_filter.1 he'
      have hon : e.2.2.call.On w a := by simpa [f] using hon
      have hon' : e'.2.2.call.On w a := by simpa [f] using hon'
      obtain ⟨t, k, d⟩ := e
      obtain ⟨t', k', d'⟩ := e'
      obtain ⟨n, o, hp⟩ := H.exists_isPt ((hmem _).1 he)
      obtain ⟨n', o', hp'⟩ := H.exists_isPt ((hmem _).1 he')
      rw [hκ' _ _ _ _ _ hp, hκ' _ _ _ _ _ hp']
      simp only at hon hon'
      rcases Nat.lt_or_ge (keyOf X rf a n' o'.ev) (keyOf X rf a n o.ev) with hlt | hge
      · have := hkey _ _ _ _ _ _ _ _ _ _ hp' hp ⟨hon'.1.trans hon.1.symm, hon'.2.trans hon.2.symm⟩ (by rw [hon.2]; exact hlt)
        simp only at this; omega
      · exact hge
    · exact List.Pairwise.filter _ (hperm.nodup_iff.2 allPts_nodup)
    · intro t k d
      rw [List.mem_filter, hmem]
      simp [f, Is]
  let fin : Nat → Nat → Mem := fun w a => open Classical in if h : Obj w a then (hone w a h).choose else X.m0
  have hfin : ∀ w a (h : Obj w a), fin w a = (hone w a h).choose := fun w a h => dif_pos h
  have key := fun h1 h2 => legal_of_objects (e := A.e) (Obj := Obj) h1 (fun w a h => (hobj w a h).size.mod8) (S.map f) X.m0
    (fun _ _ => X.m0) fin h2 (fun w a _ => Agree.refl _ _ _) (fun w a h => by rw [hfin w a h]; exact (hone w a h).choose_spec.1)
  refine Exists.elim (key ?_ ?_) ?_
  rotate_left 2
  · rintro m ⟨g1, g2⟩
    refine ⟨S, m, hsort, hthread, g1, fun t d x hd h1 h2 => ?_⟩
    · have ho : Obj d.call.width d.call.addr := ⟨t, d, hd, rfl, rfl⟩
      rw [← g2 _ _ ho x h1 h2, hfin _ _ ho]
      exact (hone _ _ ho).choose_spec.2 x h1 h2
  · rintro w a w' a' ⟨t, d, hd, rfl, rfl⟩ ⟨t', d', hd', rfl, rfl⟩
    rcases ((objs t' d' hd').calls t d hd).2.2 with h | h
    · exact .inl h
    · exact .inr h
  · intro z hz
    simp only [List.mem_map] at hz
    obtain ⟨⟨t, k, d⟩, he, rfl⟩ := hz
    exact ⟨t, d, List.mem_of_getElem? ((hmem _).1 he), rfl, rfl⟩

/-! the execution -/

/-- between two operations of a thread there is a full barrier -/
def Barred {W : Nat} (e : Endian) (d d' : Done W) : Prop :=
  ∀ p o p' o', Point e d p o → Point e d' p' o' →
    (o.ev.acc.full = true ∨ ∃ q ob b, p < q ∧ (owns d.tr)[q]? = some ob ∧ ob.ev = .fence b ∧ b.wr = true) ∨
    (o'.ev.acc.full = true ∨ ∃ q ob b, q < p' ∧ (owns d'.tr)[q]? = some ob ∧ ob.ev = .fence b ∧ b.wr = true)

/-- a barrier in one of two operations -/
theorem Prog.fenced {W : Nat} {A : Backend W} {X : AxShape W} {items : Nat → List (Item W)} (H : Prog A X items)
    {t k k' : Nat} {d d' : Done W} {n n' : Node} {o o' : Own W} (barred : Barred A.e d d') (hk : k < k') (h : IsPt A.e items t k d n o)
    (h' : IsPt A.e items t k' d' n' o') : X.Fenced n n' := by
  have ha := H.isPt_at h
  have ha' := H.isPt_at h'
  obtain ⟨p, hp, rfl⟩ := h.pt
  obtain ⟨p', hp', rfl⟩ := h'.pt
  have hoff := off_mono (items t) (show k + 1 ≤ k' from hk)
  rw [off_succ h.item] at hoff
  have hlen := (List.getElem?_eq_some_iff.1 hp.get).1
  simp only [Item.code] at hoff
  refine ⟨rfl, by simp only; omega, o, o', ha, ha', ?_⟩
  rcases barred p o p' o' hp hp' with
    (hf | ⟨q, ob, b, g1, g2, g3, g4⟩) | (hf | ⟨q, ob, b, g1, g2, g3, g4⟩)
  · exact .inr (.inl hf)
  · left
    have hq := (List.getElem?_eq_some_iff.1 g2).1
    refine ⟨off (items t) k + q, ob, b, by simp only; omega, by simp only; omega, ?_, g3, g4⟩
    rw [H.po]; exact item_get h.item (it := .op d) g2
  · exact .inr (.inr hf)
  · left
    refine ⟨off (items t) k' + q, ob, b, by simp only; omega, by simp only; omega, ?_, g3, g4⟩
    rw [H.po]; exact item_get h'.item (it := .op d') g2

/-- the hypotheses -/
structure NSetup {W : Nat} (A : Backend W) (X : AxShape W) (rf : Node → Nat → Option Node) (items : Nat → List (Item W)) :
    Prop extends Prog A X items where
  ax : NMExec X rf
  obj : ∀ t d, Item.op d ∈ items t → CSetup A X rf items d.call.width d.call.addr
  /-- between two operations of a thread there is a full barrier -/
  fenced : ∀ {t k k' : Nat} {d d' : Done W} {n n' : Node} {o o' : Own W}, k < k' → IsPt A.e items t k d n o →
    IsPt A.e items t k' d' n' o' → X.Fenced n n'

section nsetup
variable {W : Nat} {A : Backend W} {X : AxShape W} {rf : Node → Nat → Option Node} {items : Nat → List (Item W)}
  (H : NSetup A X rf items)
include H

/-- places of the operations -/
theorem NSetup.places {N : Nat} (hN : ∀ t, N ≤ t → items t = []) :
    ∃ ht : Nat × Nat × Done W → Nat,
      (∀ t k k' d d', (items t)[k]? = some (.op d) → (items t)[k']? = some (.op d') → k < k' → ht (t, k, d) < ht (t, k', d')) ∧
      ∀ t k d n o t' k' d' n' o', IsPt A.e items t k d n o → IsPt A.e items t' k' d' n' o' →
        d.call.On d'.call.width d'.call.addr → keyOf X rf d'.call.addr n o.ev < keyOf X rf d'.call.addr n' o'.ev →
        ht (t, k, d) < ht (t', k', d') := by
  -- the point of an operation, and its place
  have hex : ∀ e : Nat × Nat × Done W, ∃ nk : Node × Nat, ∀ n o, IsPt A.e items e.1 e.2.1 e.2.2 n o →
      nk.1 = n ∧ nk.2 = keyOf X rf e.2.2.call.addr n o.ev := by
    intro e
    by_cases h : ∃ n o, IsPt A.e items e.1 e.2.1 e.2.2 n o
    · obtain ⟨n, o, h⟩ := h
      exact ⟨(n, _), fun n' o' h' => by obtain ⟨_, rfl, rfl⟩ := h.unique h'; exact ⟨rfl, rfl⟩⟩
    · exact ⟨(⟨0, 0, .rd⟩, 0), fun n o h' => absurd ⟨n, o, h'⟩ h⟩
  let nd : Nat × Nat × Done W → Node := fun e => (hex e).choose.1
  let κ : Nat × Nat × Done W → Nat := fun e => (hex e).choose.2
  have hnd : ∀ t k d n o, IsPt A.e items t k d n o → nd (t, k, d) = n := fun t k d n o h =>
    ((hex (t, k, d)).choose_spec n o h).1
  have hκ : ∀ t k d n o, IsPt A.e items t k d n o → κ (t, k, d) = keyOf X rf d.call.addr n o.ev := fun t k d n o h =>
    ((hex (t, k, d)).choose_spec n o h).2
  -- what must come first
  let Is : Nat × Nat × Done W → Prop := fun e => (items e.1)[e.2.1]? = some (.op e.2.2)
  let Po : Nat × Nat × Done W → Nat × Nat × Done W → Prop := fun e e' => Is e ∧ Is e' ∧ e.1 = e'.1 ∧ e.2.1 < e'.2.1
  let Key : Nat × Nat × Done W → Nat × Nat × Done W → Prop := fun e e' =>
    Is e ∧ Is e' ∧ e.2.2.call.On e'.2.2.call.width e'.2.2.call.addr ∧ κ e < κ e'
  let E : Nat × Nat × Done W → Nat × Nat × Done W → Prop := fun e e' => Po e e' ∨ Key e e'
  let R : Node → Node → Prop := fun a b => ∃ c, Star (X.Com rf) a c ∧ X.Fenced c b
  have hPo : ∀ e e', Po e e' → X.Fenced (nd e) (nd e') := by
    rintro ⟨t, k, d⟩ ⟨t', k', d'⟩ ⟨h1, h2, h3, h4⟩
    simp only at h3 h4
    subst h3
    obtain ⟨n, o, hp⟩ := H.exists_isPt h1
    obtain ⟨n', o', hp'⟩ := H.exists_isPt h2
    rw [hnd _ _ _ _ _ hp, hnd _ _ _ _ _ hp']
    exact H.fenced h4 hp hp'
  have hKey : ∀ e e', Key e e' → Star (X.Com rf) (nd e) (nd e') := by
    rintro ⟨t, k, d⟩ ⟨t', k', d'⟩ ⟨h1, h2, h3, h4⟩
    obtain ⟨n, o, hp⟩ := H.exists_isPt h1
    obtain ⟨n', o', hp'⟩ := H.exists_isPt h2
    rw [hnd _ _ _ _ _ hp, hnd _ _ _ _ _ hp']
    simp only at h3
    rw [hκ _ _ _ _ _ hp, hκ _ _ _ _ _ hp', h3.2] at h4
    exact (H.obj t' d' (List.mem_of_getElem? h2)).com hp hp' h3 ⟨rfl, rfl⟩ h4
  have hpath : ∀ e e', Plus E e e' → (Key e e') ∨ ∃ b, Plus R (nd e) b ∧ Star (X.Com rf) b (nd e') := by
    intro e e' h
    induction h with
    | one hs =>
      rcases hs with hs | hs
      · exact .inr ⟨_, .one ⟨_, .refl _, hPo _ _ hs⟩, .refl _⟩
      · exact .inl hs
    | tail _ hs ih =>
      rcases ih with ih | ⟨b, ih1, ih2⟩ <;> rcases hs with hs | hs
      · exact .inr ⟨_, .one ⟨_, hKey _ _ ih, hPo _ _ hs⟩, .refl _⟩
      · obtain ⟨h1, _, ⟨h3, h3'⟩, h4⟩ := ih
        obtain ⟨_, g2, ⟨g3, g3'⟩, g4⟩ := hs
        exact .inl ⟨h1, g2, ⟨h3.trans g3, h3'.trans g3'⟩, Nat.lt_trans h4 g4⟩
      · exact .inr ⟨_, ih1.tail ⟨_, ih2, hPo _ _ hs⟩, .refl _⟩
      · exact .inr ⟨b, ih1, ih2.trans (hKey _ _ hs)⟩
  have hac : ∀ e, ¬ Plus E e e := by
    intro e he
    rcases hpath e e he with h | ⟨b, h1, h2⟩
    · exact Nat.lt_irrefl _ h.2.2.2
    · obtain ⟨c, ⟨x, g1, g2⟩, g3⟩ := h1.first
      have hb : R b c := ⟨x, h2.trans g1, g2⟩
      rcases g3 with rfl | g3
      · exact H.ax.propagation _ (.one hb)
      · exact H.ax.propagation b ((Plus.one hb).trans g3)
  obtain ⟨ht, hht⟩ := exists_height hac (allPts items N)
  refine ⟨ht, fun t k k' d d' h1 h2 h3 => hht _ _ ((mem_allPts hN).2 h1) (.inl ⟨h1, h2, rfl, h3⟩), ?_⟩
  intro t k d n o t' k' d' n' o' hp hp' hon hlt
  refine hht _ _ ((mem_allPts hN).2 hp.item) (.inr ⟨hp.item, hp'.item, hon, ?_⟩)
  rw [hκ _ _ _ _ _ hp, hκ _ _ _ _ _ hp', hon.2]
  exact hlt

theorem NSetup.conclude {N : Nat} (hN : ∀ t, N ≤ t → items t = []) :
    ∃ (seq : List (Nat × Call × Ret)) (m : Mem), Legal A.e X.m0 seq m ∧
      (∀ t, ofThread t seq = (opsOf (items t)).map fun d => (t, d.call, d.ret)) ∧
      ∀ t d x, Item.op d ∈ items t → d.call.addr ≤ x → x < d.call.addr + d.call.width / 8 →
        X.Newest (fun _ => True) x (m x) := by
  obtain ⟨ht, h1, h2⟩ := H.places hN
  obtain ⟨S, m, _, g2, g3, g4⟩ := H.toProg.sequence H.obj hN ht h1 h2
  refine ⟨_, m, g3, fun t => ?_, g4⟩
  have : ∀ l : List (Nat × Nat × Done W), ofThread t (l.map fun e => (e.1, e.2.2.call, e.2.2.ret)) =
      (ofThread t l).map fun e => (e.1, e.2.2.call, e.2.2.ret) := by
    intro l
    simp only [ofThread, List.filter_map]
    rfl
  rw [this, g2, ← opEnts_map (k := 0), List.map_map, List.map_map]
  rfl
end nsetup

/-! the barriers of the operations -/

/-- the accesses have full barriers on both sides -/
def Mon.isFull (a : Option Acc) : Bool := match a with | some a => a.full | none => true
/-- a full barrier before the last read and before the last write -/
def Mon.leads (M : Mon) : Bool := (Mon.isFull M.rd || M.rdBefore.wr) && (Mon.isFull M.wr || M.wrBefore.wr)
/-- a full barrier after them -/
def Mon.trails (M : Mon) : Bool := (Mon.isFull M.rd || M.rdAfter.wr) && (Mon.isFull M.wr || M.wrAfter.wr)

theorem Point.last {W : Nat} {e : Endian} {d : Done W} {p : Nat} {o : Own W} (hp : Point e d p o) :
    LastAccess (ownEvs (d.tr.map LEv.erase)) (ptKind o.ev) p := by
  rw [ownEvs_erase]
  refine ⟨⟨o.ev, by rw [List.getElem?_map, hp.get]; rfl, Ev.has_ptKind hp.acc⟩, ?_⟩
  rintro j hj ⟨ev, h1, h2⟩
  rw [List.getElem?_map] at h1
  simp only [Option.map_eq_some_iff] at h1
  obtain ⟨o', h1, rfl⟩ := h1
  have := hp.after j o' hj h1
  rw [Ev.has_access h2] at this
  cases this

theorem Point.barriers {W : Nat} {e : Endian} {d : Done W} {p : Nat} {o : Own W} (hp : Point e d p o) :
    ((monOf (d.tr.map LEv.erase)).leads = true →
      o.ev.acc.full = true ∨ ∃ q ob b, q < p ∧ (owns d.tr)[q]? = some ob ∧ ob.ev = .fence b ∧ b.wr = true) ∧
    ((monOf (d.tr.map LEv.erase)).trails = true →
      o.ev.acc.full = true ∨ ∃ q ob b, p < q ∧ (owns d.tr)[q]? = some ob ∧ ob.ev = .fence b ∧ b.wr = true) := by
  have hlast := hp.last
  have inv := monInv (ownEvs (d.tr.map LEv.erase))
  rw [monOf_ownEvs]
  rw [ownEvs_erase] at hlast inv ⊢
  generalize monEvs ((owns d.tr).map Own.ev) = M at inv ⊢
  have get : ∀ (q : Nat) (b : Pairs), ((owns d.tr).map Own.ev)[q]? = some (.fence b) → ∃ ob : Own W, (owns d.tr)[q]? = some ob ∧ ob.ev = .fence b := by
    intro q b h
    rw [List.getElem?_map] at h
    simpa only [Option.map_eq_some_iff] using h
  have main : ∀ {oa : Option Acc} {bef aft : Pairs}, LInfo ((owns d.tr).map Own.ev) (ptKind o.ev) oa bef aft →
      (Mon.isFull oa = true → o.ev.acc.full = true) ∧
      (bef.wr = true → ∃ (q : Nat) (ob : Own W) (b : Pairs), q < p ∧ (owns d.tr)[q]? = some ob ∧ ob.ev = .fence b ∧ b.wr = true) ∧
      (aft.wr = true → ∃ (q : Nat) (ob : Own W) (b : Pairs), p < q ∧ (owns d.tr)[q]? = some ob ∧ ob.ev = .fence b ∧ b.wr = true) := by
    intro oa bef aft hi
    cases oa with
    | none => exact absurd hlast.1 (hi.isNone rfl p)
    | some ac =>
      obtain ⟨i, ev, h1, h2, h3, h4⟩ := hi.isSome ac rfl
      obtain rfl := h3.unique hlast
      obtain ⟨g1, g2⟩ := h4 _ (isSel_keeps .wr .rd)
      refine ⟨fun hf => ?_, fun hb => ?_, fun hb => ?_⟩
      · rw [List.getElem?_map, hp.get] at h1
        simp only [Option.map_some, Option.some.injEq] at h1
        rw [h1, h2]; exact hf
      · obtain ⟨q, b, k1, k2, k3⟩ := g1 hb
        obtain ⟨ob, k4, k5⟩ := get q b k2
        exact ⟨q, ob, b, k1, k4, k5, k3⟩
      · obtain ⟨q, b, k1, k2, k3⟩ := g2 hb
        obtain ⟨ob, k4, k5⟩ := get q b k2
        exact ⟨q, ob, b, k1, k4, k5, k3⟩
  unfold Mon.leads Mon.trails
  simp only [Bool.and_eq_true, Bool.or_eq_true]
  cases hk : ptKind o.ev with
  | rd =>
    rw [hk] at main
    obtain ⟨h1, h2, h3⟩ := main inv.rd
    exact ⟨fun h => h.1.imp h1 h2, fun h => h.1.imp h1 h3⟩
  | wr =>
    rw [hk] at main
    obtain ⟨h1, h2, h3⟩ := main inv.wr
    exact ⟨fun h => h.2.imp h1 h2, fun h => h.2.imp h1 h3⟩

/-- SeqCst operations contain a barrier -/
theorem Barred.of_seqCst {W : Nat} {A : Backend W} {d d' : Done W}
    (hb : (∀ tr, A.SeqCstRun tr → (monOf tr).leads = true) ∨ ∀ tr, A.SeqCstRun tr → (monOf tr).trails = true)
    (h : A.SeqCstRun (d.tr.map LEv.erase)) (h' : A.SeqCstRun (d'.tr.map LEv.erase)) : Barred A.e d d' := by
  intro p o p' o' hp hp'
  rcases hb with hb | hb
  · exact .inr (hp'.barriers.1 (hb _ h'))
  · exact .inl (hp.barriers.2 (hb _ h))

/-- C41 without multi-copy atomicity, from the local specification of the operations, their accesses, and the barriers of the
SeqCst operations. -/
theorem Backend.scOnNonMCA {W : Nat} {A : Backend W} {P : Call → Prop} {g : Call → Nat} (hloc : A.LocalOps P) (hacc : A.AccessesOK g)
    (hb : (∀ tr, A.SeqCstRun tr → (monOf tr).leads = true) ∨ ∀ tr, A.SeqCstRun tr → (monOf tr).trails = true) :
    A.SCOnNonMCA fun c => c.SeqCstOnly ∧ P c := by
  intro X rf N items hX hN hpo hops happ hfor
  have HP : Prog A X items := ⟨hpo, fun t d h => exists_point hloc (hops t d h).1 (hops t d h).2.1.2⟩
  refine NSetup.conclude (rf := rf) ⟨HP, hX, ?_, fun hk h h' => HP.fenced (?_ : Barred _ _ _) hk h h'⟩ hN
  · intro t d hd
    obtain ⟨_, _, hs, hal⟩ := hops t d hd
    refine Backend.csetup hloc hacc hX.toCohExec hs hal hpo (fun t' d' hd' => ?_) fun t' o x ho => hfor t' o t d x ho hd
    obtain ⟨h1, h2, h3, h4⟩ := hops t' d' hd'
    exact ⟨h1, h2.2, h3, h4, happ t' d' t d hd' hd⟩
  · have sc : ∀ {t k : Nat} {d : Done W}, (items t)[k]? = some (.op d) → A.SeqCstRun (d.tr.map LEv.erase) := fun h =>
      Done.seqCst (hops _ _ (List.mem_of_getElem? h)).1 (hops _ _ (List.mem_of_getElem? h)).2.1.1
    exact Barred.of_seqCst hb (sc h.item) (sc h'.item)

theorem Backend.SCOnNonMCA.mono {W : Nat} {A : Backend W} {P Q : Call → Prop} (h : A.SCOnNonMCA Q) (hPQ : ∀ c, P c → Q c) :
    A.SCOnNonMCA P := fun X rf N items h1 h2 h3 h4 => h X rf N items h1 h2 h3 fun t d hd =>
  ⟨(h4 t d hd).1, hPQ _ (h4 t d hd).2.1, (h4 t d hd).2.2⟩

theorem Good.leads {W : Nat} {A : Backend W} {sc : List Mon} (h : Good A sc) (hl : ∀ M ∈ sc, M.leads = true) :
    ∀ tr, A.SeqCstRun tr → (monOf tr).leads = true := fun _ hr => hl _ (h.seqCstRun hr)
theorem Good.trails {W : Nat} {A : Backend W} {sc : List Mon} (h : Good A sc) (hl : ∀ M ∈ sc, M.trails = true) :
    ∀ tr, A.SeqCstRun tr → (monOf tr).trails = true := fun _ hr => hl _ (h.seqCstRun hr)

/-- The form used for the back ends. -/
theorem Good.scOnNonMCA {W : Nat} {A : Backend W} {sc : List Mon} (h : Good A sc) (h4 : A.CasAtomic) {g : Call → Nat}
    (hacc : A.AccessesOK g) (hb : (∀ M ∈ sc, M.leads = true) ∨ ∀ M ∈ sc, M.trails = true) : A.SCOnNonMCA Call.SeqCstOnly :=
  (Backend.scOnNonMCA (h.localOps (P := fun _ => True) fun s f w a old new B _ => h4 s f w a old new B) hacc
    (hb.imp h.leads h.trails)).mono fun _ h => ⟨h, trivial⟩

end Verif
