/- Proof of C59. -/
import Verif.Weak.Mixed
import Verif.Weak.LatestProof
import Verif.Weak.Weaken

namespace Verif
variable {W : Nat}

/-! ### Ordinary accesses as operations -/

/-- an ordinary load of the object, as an operation -/
def Own.asLoad (e : Endian) (w a : Nat) (o : Own W) : Done W where
  call := .load .relaxed w a
  B := { code := [], args := [], outs := fun _ => False, out := fun _ => load e o.m a w }
  tr := [.own o.ins o.rs o.ev o.m o.m']
  rs := o.rs
/-- an ordinary store to the object, as an operation -/
def Own.asStore (e : Endian) (w a : Nat) (o : Own W) : Done W where
  call := .store .relaxed w a (load e o.m' a w)
  B := { code := [], args := [], outs := fun _ => False }
  tr := [.own o.ins o.rs o.ev o.m o.m']
  rs := o.rs

open Classical in
/-- the same instructions, with ordinary accesses to the object regarded as operations -/
noncomputable def Item.mixed (e : Endian) (w a : Nat) : Item W → Item W
  | .op d => .op d
  | .other o => if o.ReadsAll w a then .op (o.asLoad e w a) else if o.WritesAll w a then .op (o.asStore e w a) else .other o

section
variable {e : Endian} {w a : Nat}

theorem Item.mixed_code (z : Item W) : (z.mixed e w a).code = z.code := by
  cases z with
  | op d => rfl
  | other o =>
    simp only [Item.mixed]
    split
    · rfl
    · split <;> rfl

theorem mixed_off (L : List (Item W)) (k : Nat) : off (L.map (Item.mixed e w a)) k = off L k := by
  simp only [off, ← List.map_take, List.flatMap_map]
  congr 1
  apply flatMap_congr_mem
  intro z _
  exact Item.mixed_code z

theorem mixed_flatMap (L : List (Item W)) : (L.map (Item.mixed e w a)).flatMap Item.code = L.flatMap Item.code := by
  rw [List.flatMap_map]
  apply flatMap_congr_mem
  intro z _
  exact Item.mixed_code z

theorem not_both {o : Own W} (h : o.ReadsAll w a) (h' : o.WritesAll w a) : False := by
  obtain ⟨_, _, _, _, _, h1⟩ := h
  obtain ⟨_, _, _, _, _, h2⟩ := h'
  rw [h1] at h2; cases h2

theorem mixed_op {z : Item W} {d : Done W} (h : z.mixed e w a = .op d) : z = .op d ∨
    ∃ o, z = .other o ∧ (o.ReadsAll w a ∧ d = o.asLoad e w a ∨ o.WritesAll w a ∧ d = o.asStore e w a) := by
  cases z with
  | op d' => exact .inl h
  | other o =>
    simp only [Item.mixed] at h
    split at h
    · rename_i hr; injection h with h; exact .inr ⟨o, rfl, .inl ⟨hr, h.symm⟩⟩
    · split at h
      · rename_i hr; injection h with h; exact .inr ⟨o, rfl, .inr ⟨hr, h.symm⟩⟩
      · cases h

theorem mixed_other {z : Item W} {o : Own W} (h : z.mixed e w a = .other o) : z = .other o ∧ ¬ o.WritesAll w a := by
  cases z with
  | op d' => cases h
  | other o' =>
    simp only [Item.mixed] at h
    split at h
    · cases h
    · split at h
      · cases h
      · rename_i h1 h2; injection h with h; subst h; exact ⟨rfl, h2⟩

theorem mixed_acts {z : Item W} {c : Call} {r : Ret} :
    z.Acts e w a c r ↔ ∃ d, z.mixed e w a = .op d ∧ d.call.On w a ∧ c = d.call ∧ r = d.ret := by
  constructor
  · intro h
    cases h with
    | op d h => exact ⟨d, rfl, h, rfl, rfl⟩
    | read o h => exact ⟨_, by simp only [Item.mixed]; rw [if_pos h], ⟨rfl, rfl⟩, rfl, rfl⟩
    | write o h =>
      exact ⟨_, by simp only [Item.mixed]; rw [if_neg fun h' => not_both h' h, if_pos h], ⟨rfl, rfl⟩, rfl, rfl⟩
  · rintro ⟨d, h1, h2, rfl, rfl⟩
    rcases mixed_op h1 with rfl | ⟨o, rfl, ⟨h, rfl⟩ | ⟨h, rfl⟩⟩
    · exact .op d h2
    · exact .read o h
    · exact .write o h

theorem asLoad_owns (o : Own W) : owns (o.asLoad e w a).tr = [o] := rfl
theorem asStore_owns (o : Own W) : owns (o.asStore e w a).tr = [o] := rfl

theorem Own.ReadsAll.point {o : Own W} (h : o.ReadsAll w a) : Point e (o.asLoad e w a) 0 o := by
  obtain ⟨acc, addr, k, h1, h2, h3⟩ := h
  refine ⟨rfl, by rw [h3]; rfl, fun q o' hq => absurd hq (Nat.not_lt_zero _), ?_, ?_, .inl ⟨acc, h3⟩⟩
  · intro q o' hq ho'
    rw [asLoad_owns, List.getElem?_eq_none (by simp; omega)] at ho'
    cases ho'
  · intro M hM
    rw [h1] at hM
    simp only [Instr.rdFoot, h2] at hM
    refine ⟨load e M a w, ⟨rfl, ?_⟩, ?_⟩
    · unfold afterAccess; rw [h3]; rfl
    · rw [load_congr_ceil hM]; rfl

theorem Own.WritesAll.point (hw : w % 8 = 0) {o : Own W} (h : o.WritesAll w a) : Point e (o.asStore e w a) 0 o := by
  obtain ⟨acc, addr, v, h1, h2, h3⟩ := h
  refine ⟨rfl, by rw [h3]; rfl, fun q o' hq => absurd hq (Nat.not_lt_zero _), ?_, ?_, .inr (.inr ⟨⟨acc, h3⟩, .inl ?_⟩)⟩
  · intro q o' hq ho'
    rw [asStore_owns, List.getElem?_eq_none (by simp; omega)] at ho'
    cases ho'
  · intro M _
    refine ⟨?_, rfl⟩
    unfold afterAccess
    rw [h3, h1]
    simp only [Ev.isWrite, Instr.wrFoot, h2]
    show overlay M o.m' a (w / 8) = Verif.store e M a w (Verif.load e o.m' a w)
    rw [← overlay_store (m := o.m'), store_load hw]
  · rintro x ⟨_, hx⟩
    rw [h1] at hx
    exact absurd hx (Nat.not_lt_zero _)
end

/-- the accesses of an operation -/
theorem Done.accesses {A : Backend W} {d : Done W} {g : Call → Nat} (hacc : A.AccessesOK g) (h : d.OK A)
    (hal : d.call.addr % (d.call.width / 8) = 0) {o : Own W} (ho : o ∈ owns d.tr) :
    (o.ev.isAccess = true → o.Natural) ∧ (∀ x, o.ev.isWrite = true → o.reads x → o.writes x) ∧
    (o.ev.isWrite = true → ∃ y b, IsSize b ∧ y % (b / 8) = 0 ∧ o.ins.wrFoot o.rs = (y, b / 8)) := by
  obtain ⟨hB, c0, c, hpc, _, hpre, hr, _, _⟩ := h
  obtain ⟨pre, post, htr⟩ := List.append_of_mem (mem_owns ho)
  obtain ⟨c1, c2, hr1, hi, hs, hrs, _, _⟩ := hr.cut _ _ _ _ _ _ _ htr
  have key : ∀ x b, o.ins.access o.rs = some (x, b) → IsSize b ∧ x % (b / 8) = 0 := fun x b hxb => by
    have := hacc d.call d.B hB hal c0 _ c1 _ x b hpc hpre hr1.run hi (by rw [hrs]; exact hxb)
    exact ⟨this.1, this.2.1⟩
  refine ⟨fun ha => ?_, fun x hw hx => ?_, fun hw => ?_⟩
  · obtain ⟨x, b, hxb⟩ := hs.natural ha
    rw [hrs] at hxb
    exact ⟨x, b, hxb, key x b hxb⟩
  · obtain ⟨y, b, hyb⟩ := hs.natural (by cases hev : o.ev <;> rw [hev] at hw <;> first | rfl | cases hw)
    have hfoot := hs.footprint hw hyb
    rw [hrs] at hyb hfoot
    have h8 := (key y b hyb).1.mod8
    refine ⟨hw, ?_⟩
    rw [hfoot.1]
    unfold Own.reads at hx
    rcases hfoot.2 with h0 | h0 | h0 <;> rw [h0] at hx
    · simp only at hx; omega
    · exact hx
    · simp only at hx ⊢; omega
  · obtain ⟨y, b, hyb⟩ := hs.natural (by cases hev : o.ev <;> rw [hev] at hw <;> first | rfl | cases hw)
    have hfoot := hs.footprint hw hyb
    rw [hrs] at hyb hfoot
    exact ⟨y, b, (key y b hyb).1, (key y b hyb).2, hfoot.1⟩

/-- the hypotheses of C42, with ordinary accesses regarded as operations -/
theorem MixedRun.csetup {A : Backend W} {P : Call → Prop} {g : Call → Nat} (hloc : A.LocalOps P) (hacc : A.AccessesOK g)
    {X : AxShape W} {rf : Node → Nat → Option Node} {N : Nat} {items : Nat → List (Item W)} {w a : Nat} (hX : CohExec X rf)
    (hM : MixedRun A P X N items w a) : CSetup A X rf (fun t => (items t).map (Item.mixed A.e w a)) w a := by
  -- what the operations are
  have hcases : ∀ t d, Item.op d ∈ (items t).map (Item.mixed A.e w a) → Item.op d ∈ items t ∨
      (∃ o : Own W, o.ReadsAll w a ∧ d = o.asLoad A.e w a) ∨ ∃ o : Own W, o.WritesAll w a ∧ d = o.asStore A.e w a := by
    intro t d hd
    obtain ⟨z, hz, he⟩ := List.mem_map.1 hd
    rcases mixed_op he with rfl | ⟨o, rfl, ⟨h, rfl⟩ | ⟨h, rfl⟩⟩
    · exact .inl hz
    · exact .inr (.inl ⟨o, h, rfl⟩)
    · exact .inr (.inr ⟨o, h, rfl⟩)
  refine ⟨⟨fun t => by rw [hM.code, mixed_flatMap], fun t d hd => ?_⟩, hX, hM.size, hM.aligned, ?_, ?_, ?_, ?_, ?_⟩
  · rcases hcases t d hd with h | ⟨o, h, rfl⟩ | ⟨o, h, rfl⟩
    · exact exists_point hloc (hM.ops t d h).1 (hM.ops t d h).2.1
    · exact ⟨0, o, h.point⟩
    · exact ⟨0, o, h.point hM.size.mod8⟩
  · intro t d o hd ho ha
    rcases hcases t d hd with h | ⟨o', h, rfl⟩ | ⟨o', h, rfl⟩
    · exact (Done.accesses hacc (hM.ops t d h).1 (hM.ops t d h).2.2.2.1 ho).1 ha
    · rw [asLoad_owns, List.mem_singleton] at ho
      subst ho
      obtain ⟨acc, addr, k, h1, h2, h3⟩ := h
      exact ⟨a, w, by rw [h1]; simp only [Instr.access, h2], hM.size, hM.aligned⟩
    · rw [asStore_owns, List.mem_singleton] at ho
      subst ho
      obtain ⟨acc, addr, k, h1, h2, h3⟩ := h
      exact ⟨a, w, by rw [h1]; simp only [Instr.access, h2], hM.size, hM.aligned⟩
  · intro t d o x hd ho hw hx
    rcases hcases t d hd with h | ⟨o', h, rfl⟩ | ⟨o', h, rfl⟩
    · exact (Done.accesses hacc (hM.ops t d h).1 (hM.ops t d h).2.2.2.1 ho).2.1 x hw hx
    · rw [asLoad_owns, List.mem_singleton] at ho
      subst ho
      obtain ⟨acc, addr, k, h1, h2, h3⟩ := h
      rw [h3] at hw; cases hw
    · rw [asStore_owns, List.mem_singleton] at ho
      subst ho
      obtain ⟨acc, addr, k, h1, h2, h3⟩ := h
      unfold Own.reads at hx
      rw [h1] at hx
      exact absurd hx.2 (Nat.not_lt_zero _)
  · intro t d o hd ho hw
    rcases hcases t d hd with h | ⟨o', h, rfl⟩ | ⟨o', h, rfl⟩
    · exact (Done.accesses hacc (hM.ops t d h).1 (hM.ops t d h).2.2.2.1 ho).2.2 hw
    · rw [asLoad_owns, List.mem_singleton] at ho
      subst ho
      obtain ⟨acc, addr, k, h1, h2, h3⟩ := h
      rw [h3] at hw; cases hw
    · rw [asStore_owns, List.mem_singleton] at ho
      subst ho
      obtain ⟨acc, addr, k, h1, h2, h3⟩ := h
      exact ⟨a, w, hM.size, hM.aligned, by rw [h1]; simp only [Instr.wrFoot, h2]⟩
  · intro t d hd
    rcases hcases t d hd with h | ⟨o', h, rfl⟩ | ⟨o', h, rfl⟩
    · exact (hM.ops t d h).2.2
    · exact ⟨hM.size, hM.aligned, .inl ⟨rfl, rfl⟩⟩
    · exact ⟨hM.size, hM.aligned, .inl ⟨rfl, rfl⟩⟩
  · intro t o x ho h1 h2 hwr
    obtain ⟨z, hz, he⟩ := List.mem_map.1 ho
    obtain ⟨rfl, hn⟩ := mixed_other he
    exact hn (hM.others t o x hz h1 h2 hwr)

/-! ### A sequence that respects what happens before what -/

theorem countP_lt_mem {α : Type} {p q : α → Bool} {l : List α} (h : ∀ z ∈ l, p z = true → q z = true) {x : α} (hx : x ∈ l)
    (hq : q x = true) (hp : ¬ p x = true) : l.countP p < l.countP q := by
  induction l with
  | nil => cases hx
  | cons y t ih =>
    rw [List.countP_cons, List.countP_cons]
    have hle : t.countP p ≤ t.countP q := List.countP_mono_left fun z hz => h z (List.mem_cons_of_mem _ hz)
    rcases List.mem_cons.1 hx with rfl | hx
    · rw [if_neg hp, if_pos hq]; omega
    · have := ih (fun z hz => h z (List.mem_cons_of_mem _ hz)) hx
      by_cases hy : p y = true
      · rw [if_pos hy, if_pos (h y List.mem_cons_self hy)]; omega
      · rw [if_neg hy]; split <;> omega

section
variable {A : Backend W} {X : AxShape W} {rf : Node → Nat → Option Node} {items : Nat → List (Item W)}
  {w a : Nat} (H : CSetup A X rf items w a)
include H

/-- what happens before has no later place -/
theorem CSetup.key_le {t k t' k' : Nat} {d d' : Done W} {n n' : Node} {o o' : Own W} (h : IsPt A.e items t k d n o)
    (h' : IsPt A.e items t' k' d' n' o') (hon : d.call.On w a) (hon' : d'.call.On w a) (hp : X.Precedes rf n n') :
    keyOf X rf a n o.ev ≤ keyOf X rf a n' o'.ev := by
  have hsz := H.size.pos
  have t1 := H.touch h hon (Nat.le_refl a) (by omega)
  have t2 := H.touch h' hon' (Nat.le_refl a) (by omega)
  obtain ⟨p1, p2, p3, p4⟩ := hp o o' a
  have src : ∀ {s}, X.Rd n o a → rf n a = some s → ∃ os, X.Wr s os a := by
    intro s hr hs
    have hw := (H.ax.value n o a hr.1 hr.2.1 hr.2.2.2).1 s hs
    obtain ⟨_, _, os, hps, hws, _⟩ := H.write hw (Nat.le_refl a) (by omega)
    exact ⟨os, H.wr hps hws⟩
  unfold keyOf
  cases hw : o.ev.isWrite with
  | true =>
    cases hw' : o'.ev.isWrite with
    | true => have := p1 (t1.1 hw) (t2.1 hw'); simp only; omega
    | false =>
      obtain ⟨s, hs, hle⟩ := p2 (t1.1 hw) (t2.2 hw')
      simp only [hs]; omega
  | false =>
    cases hs : rf n a with
    | none => exact Nat.zero_le _
    | some s =>
      obtain ⟨os, hos⟩ := src (t1.2 hw) hs
      cases hw' : o'.ev.isWrite with
      | true => have := p3 s os (t1.2 hw) hs hos (t2.1 hw'); simp only; omega
      | false =>
        obtain ⟨s', hs', hle⟩ := p4 s os (t1.2 hw) hs hos (t2.2 hw')
        simp only [hs']; omega

/-- all operations on the object, in an order that respects `Bf` -/
theorem CSetup.respecting {N : Nat} (hN : ∀ t, N ≤ t → items t = []) (Bf : Nat → Nat → Nat → Nat → Prop)
    (trans : ∀ t k t' k' t'' k'', Bf t k t' k' → Bf t' k' t'' k'' → Bf t k t'' k'')
    (irr : ∀ t k d n o, IsPt A.e items t k d n o → d.call.On w a → ¬ Bf t k t k)
    (key : ∀ t k d n o t' k' d' n' o', IsPt A.e items t k d n o → IsPt A.e items t' k' d' n' o' → d.call.On w a → d'.call.On w a →
      Bf t k t' k' → keyOf X rf a n o.ev ≤ keyOf X rf a n' o'.ev) :
    ∃ (S : List (Nat × Nat × Done W)) (m : Mem), Legal A.e X.m0 (S.map fun e => (e.1, e.2.2.call, e.2.2.ret)) m ∧
      (∀ t k d, (t, k, d) ∈ S ↔ (items t)[k]? = some (.op d) ∧ d.call.On w a) ∧
      (S.Pairwise fun x y => ¬ (x.1 = y.1 ∧ x.2.1 = y.2.1) ∧ ¬ Bf y.1 y.2.1 x.1 x.2.1) ∧
      ∀ x, a ≤ x → x < a + w / 8 → X.Newest (fun _ => True) x (m x) := by
  classical
  have hex : ∀ e : Nat × Nat × Done W, ∃ κ, ∀ n o, IsPt A.e items e.1 e.2.1 e.2.2 n o → κ = keyOf X rf a n o.ev := by
    intro e
    by_cases h : ∃ n o, IsPt A.e items e.1 e.2.1 e.2.2 n o
    · obtain ⟨n, o, h⟩ := h
      exact ⟨_, fun n' o' h' => by obtain ⟨_, rfl, rfl⟩ := h.unique h'; rfl⟩
    · exact ⟨0, fun n o h' => absurd ⟨n, o, h'⟩ h⟩
  let κ : Nat × Nat × Done W → Nat := fun e => (hex e).choose
  have hκ : ∀ t k d n o, IsPt A.e items t k d n o → κ (t, k, d) = keyOf X rf a n o.ev := fun t k d n o h =>
    (hex (t, k, d)).choose_spec n o h
  let L := allEnts w a items N
  let τ : Nat × Nat × Done W → Nat := fun e => L.countP fun z => decide (Bf z.1 z.2.1 e.1 e.2.1)
  have hτ : ∀ e, τ e ≤ L.length := fun e => List.countP_le_length
  let κ' : Nat × Nat × Done W → Nat := fun e => κ e * (L.length + 1) + τ e
  have lex : ∀ x y, κ' x ≤ κ' y → κ x ≤ κ y ∧ (κ y ≤ κ x → τ x ≤ τ y) := by
    intro x y h
    have hx := hτ x
    have hy := hτ y
    simp only [κ'] at h
    have hle : κ x ≤ κ y := by
      refine Nat.le_of_not_lt fun hc => ?_
      have := Nat.mul_le_mul_right (L.length + 1) (show κ y + 1 ≤ κ x from hc)
      rw [Nat.add_mul, Nat.one_mul] at this
      omega
    refine ⟨hle, fun hge => ?_⟩
    rw [Nat.le_antisymm hle hge] at h
    omega
  let S := L.mergeSort fun x y => decide (κ' x ≤ κ' y)
  have hsort' : S.Pairwise fun x y => κ' x ≤ κ' y := by
    have := List.pairwise_mergeSort (le := fun x y : Nat × Nat × Done W => decide (κ' x ≤ κ' y))
      (by intro a b c; simp only [decide_eq_true_eq]; omega)
      (by intro a b; simp only [Bool.or_eq_true, decide_eq_true_eq]; omega) L
    exact this.imp (by intro a b h; simpa using h)
  have hsort : S.Pairwise fun x y => κ x ≤ κ y := hsort'.imp fun h => (lex _ _ h).1
  have hperm : S.Perm L := List.mergeSort_perm _ _
  have hmem : ∀ t k d, (t, k, d) ∈ S ↔ (items t)[k]? = some (.op d) ∧ d.call.On w a := fun t k d => by
    rw [hperm.mem_iff]; exact mem_allEnts hN
  have hnd : S.Nodup := hperm.nodup_iff.2 allEnts_nodup
  obtain ⟨M, r, g1, g2, g3⟩ := H.legal κ hκ S hsort hnd hmem S [] 0 X.m0 rfl
    (fun x _ _ => .inr ⟨fun n v' h => absurd h (Nat.not_lt_zero _), rfl⟩) (fun _ h => nomatch h) (fun _ _ => by omega)
  refine ⟨S, M, g1, hmem, ?_, ?_⟩
  · refine (hsort'.and hnd).imp_of_mem ?_
    rintro ⟨t, k, d⟩ ⟨t', k', d'⟩ hx hy ⟨hle, hne⟩
    obtain ⟨hi, hon⟩ := (hmem _ _ _).1 hx
    obtain ⟨hi', hon'⟩ := (hmem _ _ _).1 hy
    obtain ⟨n, o, hp⟩ := H.exists_isPt hi
    obtain ⟨n', o', hp'⟩ := H.exists_isPt hi'
    refine ⟨?_, fun hb => ?_⟩
    · rintro ⟨h1, h2⟩
      simp only at h1 h2
      subst h1 h2
      obtain rfl : d = d' := by simpa using hi.symm.trans hi'
      exact hne rfl
    · simp only at hb
      have hk := key _ _ _ _ _ _ _ _ _ _ hp' hp hon' hon hb
      rw [← hκ _ _ _ _ _ hp, ← hκ _ _ _ _ _ hp'] at hk
      have h1 := (lex _ _ hle).2 hk
      have h2 : τ (t', k', d') < τ (t, k, d) := by
        refine countP_lt_mem (x := (t', k', d')) ?_ (hperm.mem_iff.1 hy) (decide_eq_true hb) ?_
        · intro z _ hz
          exact decide_eq_true (trans _ _ _ _ _ _ (of_decide_eq_true hz) hb)
        · intro hc
          exact irr _ _ _ _ _ hp' hon' (of_decide_eq_true hc)
      omega
  · obtain ⟨R, hR⟩ := isPt_bound (A := A) (X := X) hN
    have := H.advance g2 R fun t k d n o hp hon hw h1 _ => by
      have := g3 _ ((hmem t k d).2 ⟨hp.item, hon⟩)
      rw [hκ _ _ _ _ _ hp] at this
      unfold keyOf at this
      rw [hw] at this
      simp only at this
      omega
    intro x h1 h2
    refine (this x h1 h2).congr fun u v' hu => ?_
    obtain ⟨k, d, o, hp, _⟩ := H.write hu h1 h2
    have := hR _ _ _ _ _ hp
    exact ⟨fun _ => trivial, fun _ => by omega⟩
end

section
variable {A : Backend W} {P : Call → Prop} {g : Call → Nat} {X : AxShape W} {rf : Node → Nat → Option Node} {N : Nat}
  {items : Nat → List (Item W)} {w a : Nat} {R : (i k j l : Nat) → Prop}

/-- C59, from what synchronization gives. -/
theorem MixedRun.oneHistory (hloc : A.LocalOps P) (hacc : A.AccessesOK g) (hX : CohExec X rf) (hM : MixedRun A P X N items w a)
    (trans : ∀ i k j l m t n, R i k j l → l ≤ m → R j m t n → R i k t n)
    (irr : ∀ i k l p kd o, R i k i l → X.At ⟨i, p, kd⟩ o → p < off (items i) k → ¬ off (items i) (l + 1) ≤ p)
    (prec : ∀ i k j l p q kd kd' o o', R i k j l → X.At ⟨i, p, kd⟩ o → X.At ⟨j, q, kd'⟩ o' → p < off (items i) k →
      off (items j) (l + 1) ≤ q → X.Precedes rf ⟨i, p, kd⟩ ⟨j, q, kd'⟩) : OneHistory A.e X items R w a := by
  have H := hM.csetup hloc hacc hX
  have hN : ∀ t, N ≤ t → (items t).map (Item.mixed A.e w a) = [] := fun t ht => by rw [hM.threads t ht]; rfl
  have h0 : ∀ t k t' k' t'' k'', ItemBefore R t k t' k' → ItemBefore R t' k' t'' k'' → ItemBefore R t k t'' k'' := by
    rintro t k t' k' t'' k'' (⟨rfl, h⟩ | ⟨K, L, h1, h2, h3⟩) (⟨rfl, h'⟩ | ⟨K', L', h1', h2', h3'⟩)
    · exact .inl ⟨rfl, by omega⟩
    · exact .inr ⟨K', L', h1', by omega, h3'⟩
    · exact .inr ⟨K, L, h1, h2, by omega⟩
    · exact .inr ⟨K, L', trans _ _ _ _ _ _ _ h1 (by omega) h1', h2, h3'⟩
  have h1 : ∀ t k d n o, IsPt A.e (fun t => (items t).map (Item.mixed A.e w a)) t k d n o → d.call.On w a → ¬ ItemBefore R t k t k := by
    rintro t k d n o hp _ (⟨_, h⟩ | ⟨K, L, h1, h2, h3⟩)
    · omega
    · obtain ⟨e1, e2, e3⟩ := hp.pos
      have hat := H.isPt_at hp
      obtain ⟨tn, pn, kn⟩ := n
      simp only at e1 e2 e3
      subst e1
      rw [mixed_off] at e2 e3
      have m1 := off_mono (items tn) (show k + 1 ≤ K from h2)
      have m2 := off_mono (items tn) (show L + 1 ≤ k from h3)
      exact irr _ _ _ _ _ _ h1 hat (by omega) (by omega)
  have h2 : ∀ t k d n o t' k' d' n' o', IsPt A.e (fun t => (items t).map (Item.mixed A.e w a)) t k d n o → IsPt A.e (fun t => (items t).map (Item.mixed A.e w a)) t' k' d' n' o' →
      d.call.On w a → d'.call.On w a → ItemBefore R t k t' k' → keyOf X rf a n o.ev ≤ keyOf X rf a n' o'.ev := by
    rintro t k d n o t' k' d' n' o' hp hp' hon hon' (⟨rfl, h⟩ | ⟨K, L, h1, h2, h3⟩)
    · exact H.mono h hp hp' hon hon'
    · refine H.key_le hp hp' hon hon' ?_
      obtain ⟨e1, e2, e3⟩ := hp.pos
      obtain ⟨e1', e2', e3'⟩ := hp'.pos
      have hat := H.isPt_at hp
      have hat' := H.isPt_at hp'
      obtain ⟨tn, pn, kn⟩ := n
      obtain ⟨tn', pn', kn'⟩ := n'
      simp only at e1 e2 e3 e1' e2' e3'
      subst e1 e1'
      rw [mixed_off] at e2 e3 e2' e3'
      have m1 := off_mono (items tn) (show k + 1 ≤ K from h2)
      have m2 := off_mono (items tn') (show L + 1 ≤ k' from h3)
      exact prec _ _ _ _ _ _ _ _ _ _ h1 hat hat' (by omega) (by omega)
  obtain ⟨S, m, g1, g2, g3, g4⟩ := H.respecting hN (ItemBefore R) h0 h1 h2
  refine ⟨S.map fun e => (e.1, e.2.1, e.2.2.call, e.2.2.ret), m, ?_, ?_, ?_, g4⟩
  · rw [List.map_map]; exact g1
  · intro t k c r
    rw [List.mem_map]
    constructor
    · rintro ⟨⟨t', k', d⟩, h1, h2⟩
      simp only [Prod.mk.injEq] at h2
      obtain ⟨rfl, rfl, rfl, rfl⟩ := h2
      obtain ⟨h3, h4⟩ := (g2 _ _ _).1 h1
      rw [List.getElem?_map] at h3
      obtain ⟨z, h5, h6⟩ := Option.map_eq_some_iff.1 h3
      exact ⟨z, h5, mixed_acts.2 ⟨d, h6, h4, rfl, rfl⟩⟩
    · rintro ⟨z, h1, h2⟩
      obtain ⟨d, h3, h4, rfl, rfl⟩ := mixed_acts.1 h2
      exact ⟨(t, k, d), (g2 _ _ _).2 ⟨by rw [List.getElem?_map, h1, Option.map_some, h3], h4⟩, rfl⟩
  · exact List.pairwise_map.2 g3
end

/-- C59 without synchronization, from the local specification of the operations and C39. -/
theorem Backend.mixedCoherent {A : Backend W} {P : Call → Prop} {g : Call → Nat} (hloc : A.LocalOps P) (hacc : A.AccessesOK g) :
    A.MixedCoherent P := fun _ _ _ _ _ _ hX hM =>
  hM.oneHistory hloc hacc hX (fun _ _ _ _ _ _ _ h => h.elim) (fun _ _ _ _ _ _ h => h.elim) fun _ _ _ _ _ _ _ _ _ _ h => h.elim

/-- C59 with a global memory order. -/
theorem Backend.mixedHistory {A : Backend W} {P : Call → Prop} {g : Call → Nat} (hloc : A.LocalOps P) (hord : A.OrderingsOK)
    (hpair : A.Paired) (hacc : A.AccessesOK g) : A.MixedHistory P := by
  intro X rf N items w a ax hfwd hX hrf hM
  have hsync := Backend.synchronizes hloc hord hpair X items ax hfwd hM.code fun t d h =>
    ⟨(hM.ops t d h).1, (hM.ops t d h).2.1, (hM.ops t d h).2.2.1⟩
  refine hM.oneHistory hloc hacc hX (fun _ _ _ _ _ _ _ h hl h' => .trans h hl h') ?_ ?_
  · intro i k l p kd o h hat hp hc
    exact Nat.lt_irrefl _ (hsync i k i l h p p kd kd o o hat hp hat hc).1
  · intro i k j l p q kd kd' o o' h ha hb hp hq
    exact AxShape.precedes_of_rank (A := A) ax hrf ha hp fun p' kd1 o1 g1 g2 => (hsync i k j l h p' q kd1 kd' o1 o' g1 g2 hb hq).1

/-- C59 without multi-copy atomicity. -/
theorem Backend.mixedHistoryNonMCA {A : Backend W} {P : Call → Prop} {g : Call → Nat} (hloc : A.LocalOps P) (hord : A.OrderingsOK)
    (hpair : A.Paired) (hacc : A.AccessesOK g) (hb : A.BarriersOnly) (himp : A.imp.ww = false) : A.MixedHistoryNonMCA P := by
  intro X rf N items w a hX hM
  have HR : RSetup A X rf items := ⟨⟨hM.code, fun t d h => exists_point hloc (hM.ops t d h).1 (hM.ops t d h).2.1⟩, hX,
    fun t d h => (hM.ops t d h).1, fun t d h => (hM.ops t d h).2.2.1,
    fun t d o h ho ha => Done.natural hacc (hM.ops t d h).1 (hM.ops t d h).2.2.2.1 ho ha, hord, hpair, hb, himp⟩
  refine hM.oneHistory hloc hacc hX.toCohExec (fun _ _ _ _ _ _ _ h hl h' => .trans h hl h') ?_ ?_
  · intro i k l p kd o h hat hp hc
    obtain ⟨_, w0, _, _, _, _, _, _, _, hcum, hpost, _⟩ := HR.sync h
    exact hX.thinAir _ ((hpost p kd o hat hc).tail (Cumul.hb (hcum p kd o hat hp)))
  · intro i k j l p q kd kd' o o' h ha hb' hp hq
    exact HR.conclude h p q kd kd' o o' ha hp hb' hq

/-! ### For back ends -/

section
variable {A : Backend W} {P : Call → Prop} {sc : List Mon} {st sw cas : Nat}

theorem Good.mixedHistory (h : Good A sc) (hloc : A.LocalOps P) (hpair : A.Paired) (hacc : A.AccessesOK (gran st sw cas)) : A.MixedHistory P :=
  Backend.mixedHistory hloc (Backend.orderingsOK h.acquireOK h.releaseOK h.seqCstOK h.failureOK) hpair hacc

theorem Good.mixedHistoryNonMCA (h : Good A sc) (hloc : A.LocalOps P) (hpair : A.Paired) (hacc : A.AccessesOK (gran st sw cas))
    (hb : A.BarriersOnly) (himp : A.imp.ww = false) : A.MixedHistoryNonMCA P :=
  Backend.mixedHistoryNonMCA hloc (Backend.orderingsOK h.acquireOK h.releaseOK h.seqCstOK h.failureOK) hpair hacc hb himp

theorem Good.localOps_weakened (h : Good A sc) : A.weakened.LocalOps fun _ => True :=
  h.weakened.localOps fun _ _ _ _ _ _ _ _ hB => hB.elim

theorem Good.mixedCoherentWeakened (h : Good A sc) (hacc : A.AccessesOK (gran st sw cas)) : A.weakened.MixedCoherent fun _ => True :=
  Backend.mixedCoherent h.localOps_weakened (Backend.weakened_accesses hacc)

theorem Good.mixedHistoryWeakened (h : Good A sc) (hpair : A.Paired) (hacc : A.AccessesOK (gran st sw cas)) :
    A.weakened.MixedHistory fun _ => True :=
  h.weakened.mixedHistory h.localOps_weakened hpair.weakened (Backend.weakened_accesses hacc)

theorem Good.mixedHistoryNonMCAWeakened (h : Good A sc) (hpair : A.Paired) (hacc : A.AccessesOK (gran st sw cas))
    (hb : A.BarriersOnly) (himp : A.imp.ww = false) : A.weakened.MixedHistoryNonMCA fun _ => True :=
  h.weakened.mixedHistoryNonMCA h.localOps_weakened hpair.weakened (Backend.weakened_accesses hacc) hb.weakened himp
end

end Verif
