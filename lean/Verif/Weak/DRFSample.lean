/-
C49: an execution that meets its hypotheses, for every back end with 32-bit operations. Thread 0 writes the data at 0x2000 with an
ordinary store and sets the flag at 0x1000 with a SeqCst store; thread 1 finds the flag set with a SeqCst load and reads the data.
-/
import Verif.Weak.SerialOps
import Verif.Weak.DRFProof

namespace Verif
variable {W : Nat}

/-- Operations and ordinary instructions are executed one after the other. -/
def Mixed (A : Backend W) : Mem → List (Nat × Item W) → Mem → Prop
  | m, [], m' => m = m'
  | m, (_, .op d) :: L, m' => ∃ m1, d.Alone A m m1 ∧ Mixed A m1 L m'
  | m, (_, .other o) :: L, m' => o.m = m ∧ (∀ x, ¬ o.writes x → o.m' x = m x) ∧ o.ins.isSC = false ∧ Mixed A o.m' L m'

/-- the instructions -/
def mixedCode (L : List (Nat × Item W)) : List (Nat × Own W) := L.flatMap fun z => z.2.code.map fun o => (z.1, o)
/-- the threads -/
def mixedItems (L : List (Nat × Item W)) (t : Nat) : List (Item W) := L.filterMap fun z => if z.1 = t then some z.2 else none

theorem Mixed.oneMemory {A : Backend W} : ∀ {L : List (Nat × Item W)} {m m' : Mem}, Mixed A m L m' → OneMemory m (mixedCode L)
  | [], _, _, _ => trivial
  | (t, .op d) :: L, m, m', ⟨m1, hd, h⟩ => by
    obtain ⟨_, c0, c, _, _, _, rfl, hr, _, _, rfl, hq⟩ := hd
    obtain ⟨h1, h2⟩ := hr.oneMemory t hq
    show OneMemory _ (_ ++ mixedCode L)
    refine h1.append ?_
    rw [h2]
    exact h.oneMemory
  | (t, .other o) :: L, m, m', ⟨h1, h2, _, h⟩ => ⟨h1, h2, h.oneMemory⟩

/-- to which item an instruction belongs -/
theorem mixedCode_get : ∀ {L : List (Nat × Item W)} {g t : Nat} {o : Own W}, (mixedCode L)[g]? = some (t, o) →
    ∃ pre it post q, L = pre ++ (t, it) :: post ∧ g = (mixedCode pre).length + q ∧ it.code[q]? = some o
  | [], _, _, _, h => by simp [mixedCode] at h
  | (t0, d0) :: ops, g, t, o, h => by
    have e : mixedCode ((t0, d0) :: ops) = d0.code.map (fun o => (t0, o)) ++ mixedCode ops := rfl
    rw [e] at h
    rcases Nat.lt_or_ge g d0.code.length with hlt | hge
    · rw [List.getElem?_append_left (by simpa using hlt), List.getElem?_map, Option.map_eq_some_iff] at h
      obtain ⟨o', h1, h2⟩ := h
      cases h2
      exact ⟨[], d0, ops, g, rfl, by simp [mixedCode], h1⟩
    · rw [List.getElem?_append_right (by simpa using hge)] at h
      obtain ⟨pre, d, post, q, rfl, h2, h3⟩ := mixedCode_get h
      refine ⟨(t0, d0) :: pre, d, post, q, rfl, ?_, h3⟩
      show g = (d0.code.map (fun o => (t0, o)) ++ mixedCode pre).length + q
      simp only [List.length_map] at h2
      simp only [List.length_append, List.length_map]
      omega

theorem mixedCode_at {pre post : List (Nat × Item W)} {t : Nat} {d : Item W} {q : Nat} {o : Own W} (h : d.code[q]? = some o) :
    (mixedCode (pre ++ (t, d) :: post))[(mixedCode pre).length + q]? = some (t, o) := by
  have e : mixedCode (pre ++ (t, d) :: post) = mixedCode pre ++ (d.code.map (fun o => (t, o)) ++ mixedCode post) := by
    simp [mixedCode]
  rw [e, List.getElem?_append_right (by omega), Nat.add_sub_cancel_left,
    List.getElem?_append_left (by simpa using (List.getElem?_eq_some_iff.1 h).1), List.getElem?_map, h]
  rfl

theorem Mixed.each {A : Backend W} {L : List (Nat × Item W)} {m m' : Mem} (h : Mixed A m L m') :
    ∀ z ∈ L, (∀ d, z.2 = .op d → ∃ m1 m2, d.Alone A m1 m2) ∧ ∀ o, z.2 = .other o → o.ins.isSC = false := by
  induction L generalizing m with
  | nil => intro z hz; cases hz
  | cons y L ih =>
    obtain ⟨t, it⟩ := y
    intro z hz
    cases it with
    | op d =>
      obtain ⟨m1, hd, h⟩ := h
      rcases List.mem_cons.1 hz with rfl | hz
      · refine ⟨fun d' h => ?_, fun o h => ?_⟩
        · cases h; exact ⟨_, _, hd⟩
        · cases h
      · exact ih h z hz
    | other o =>
      obtain ⟨_, _, hsc, h⟩ := h
      rcases List.mem_cons.1 hz with rfl | hz
      · refine ⟨fun d' h => ?_, fun o h => ?_⟩
        · cases h
        · cases h; exact hsc
      · exact ih h z hz

theorem Mixed.reserved {A : Backend W} {L : List (Nat × Item W)} {m m' : Mem} (h : Mixed A m L m') : Reserved (mixedCode L) := by
  intro t i j l s hij hi hj hl hsc hno k t' o x hk1 hk2 hk ht hx hw
  obtain ⟨pre, it, post, q, rfl, h2, h3⟩ := mixedCode_get (place_get hj)
  obtain ⟨e1, e2⟩ := h.each (t, it) (by simp)
  cases it with
  | other o' =>
    have := e2 o' rfl
    match q, h3 with
    | 0, h3 =>
      simp [Item.code] at h3
      subst h3
      rw [this] at hsc; cases hsc
    | q + 1, h3 => simp [Item.code] at h3
  | op d =>
  obtain ⟨_, _, _, c0, c, _, hres, _, _, hr, _⟩ := e1 d rfl
  obtain ⟨q', l', g1, g2, g3⟩ := (hr.linked hres).2 q s h3 hsc hx.1
  have hat := mixedCode_at (pre := pre) (post := post) (t := t) (d := .op d) g2
  obtain ⟨p, e1, e2⟩ := place_of hat
  have hlt : k < (mixedCode pre).length := by
    rcases Nat.lt_or_ge k (mixedCode pre).length with h | hge
    · exact h
    · exfalso
      obtain ⟨r, rfl⟩ : ∃ r, k = (mixedCode pre).length + r := ⟨k - (mixedCode pre).length, by omega⟩
      have hr' : r < (owns d.tr).length := by
        have := (List.getElem?_eq_some_iff.1 h3).1
        have : q < (owns d.tr).length := this
        omega
      have := mixedCode_at (pre := pre) (post := post) (t := t) (d := .op d) (List.getElem?_eq_getElem (l := owns d.tr) hr')
      rw [hk] at this
      simp only [Option.some.injEq, Prod.mk.injEq] at this
      exact ht this.1
  have p1 : i < p := by
    rcases Nat.lt_or_ge i p with h | hge
    · exact h
    · exfalso
      rcases Nat.eq_or_lt_of_le hge with rfl | hlt'
      · omega
      · have := place_mono hlt' hi
        omega
  have p2 : p < j := by
    rcases Nat.lt_or_ge p j with h | hge
    · exact h
    · exfalso
      rcases Nat.eq_or_lt_of_le hge with rfl | hlt'
      · omega
      · have := place_mono hlt' e1
        omega
  have := hno p l' p1 p2 e1
  rw [this] at g3
  cases g3

theorem mixed_code (L : List (Nat × Item W)) (t : Nat) : partOf (mixedCode L) t = (mixedItems L t).flatMap Item.code := by
  induction L with
  | nil => rfl
  | cons z ops ih =>
    have e : partOf (mixedCode (z :: ops)) t = partOf (z.2.code.map fun o => (z.1, o)) t ++ partOf (mixedCode ops) t := by
      simp [mixedCode, partOf]
    rw [e, ih]
    by_cases ht : z.1 = t
    · have : mixedItems (z :: ops) t = z.2 :: mixedItems ops t := by simp [mixedItems, ht]
      rw [this, List.flatMap_cons]
      congr 1
      simp only [partOf, List.filterMap_map]
      show List.filterMap (fun o => if z.1 = t then some o else none) _ = _
      simp [ht]
    · have : mixedItems (z :: ops) t = mixedItems ops t := by simp [mixedItems, ht]
      rw [this]
      have : partOf (z.2.code.map fun o => (z.1, o)) t = [] := by
        simp only [partOf, List.filterMap_map]
        show List.filterMap (fun o => if z.1 = t then some o else none) _ = _
        simp [ht]
      rw [this, List.nil_append]

theorem Mixed.consistent {A : Backend W} {L : List (Nat × Item W)} {m m' : Mem} (h : Mixed A m L m') (imp : Pairs) :
    FullyConsistent imp (interleaved m (mixedCode L)) (readFrom m (mixedCode L)) where
  ax := interleaved_ax h.oneMemory h.reserved
  forward := interleaved_forward
  coh := interleaved_coh h.oneMemory h.reserved
  readsFrom := interleaved_readsFrom
  ra := interleaved_ra h.oneMemory h.reserved
  nm := interleaved_nm h.oneMemory h.reserved

namespace DRFSample
def set (o : Ordering) : Call := .store o 32 0x1000 1#32
def look (o : Ordering) : Call := .load o 32 0x1000

/-- the ordinary store of the data -/
def write (W : Nat) (e : Endian) (rs : RS W) (m : Mem) : Own W :=
  ⟨.st .plain (fun _ => 0x2000) 32 (fun _ => 7#32), rs, .wr .plain, m, Verif.store e m 0x2000 32 7#32⟩
/-- the ordinary load of the data -/
def read (W : Nat) (rs : RS W) (m : Mem) : Own W := ⟨.ld .plain (fun _ => 0x2000) 32 (fun _ rs => rs), rs, .rd .plain, m, m⟩


theorem writes_data {e : Endian} {rs : RS W} {m : Mem} {x : Nat} (h : (write W e rs m).writes x) : 0x2000 ≤ x ∧ x < 0x2004 := h.2
theorem reads_data {rs : RS W} {m : Mem} {x : Nat} (h : (read W rs m).reads x) : 0x2000 ≤ x ∧ x < 0x2004 := h

/-- The hypotheses of C49, both versions, can be met: two threads communicate through the flag. -/
theorem exists_run {A : Backend W} {P : Call → Prop} {g : Call → Nat} (hloc : A.LocalOps P) (hord : A.OrderingsOK) (hpair : A.Paired) (h6 : A.ProgressOK)
    (hacc : A.AccessesOK g) {os ol : Ordering} (hos : os.releases = true) (hol : ol.acquires = true) (h1 : A.Startable (set os) ∧ P (set os)) (h2 : A.Startable (look ol) ∧ P (look ol)) :
    ∃ (X : AxShape W) (rf : Node → Nat → Option Node) (items : Nat → List (Item W)) (d1 d2 : Done W) (o1 o2 : Own W),
      FullyConsistent A.imp X rf ∧ DataRun A P X 2 items ∧ RaceFree X rf items ∧
      items 0 = [.other o1, .op d1] ∧ items 1 = [.op d2, .other o2] ∧ d1.call = set os ∧ d2.call = look ol ∧ d2.ret = .bits 32 1 ∧
      o1.writes 0x2000 ∧ o2.reads 0x2000 ∧ load A.e o2.m 0x2000 32 = 7#32 := by
  obtain ⟨_, _, rs, _⟩ := h1.1
  have hc' : ∀ z ∈ [(0, set os), (1, look ol)], A.Startable z.2 ∧ P z.2 := by
    intro z hz
    simp only [List.mem_cons, List.not_mem_nil, or_false] at hz
    rcases hz with rfl | rfl
    · exact h1
    · exact h2
  obtain ⟨ops, m, h, hcalls⟩ := Serially.exists h6 [(0, set os), (1, look ol)] (Verif.store A.e (fun _ => 0) 0x2000 32 7#32) fun z hz => (hc' z hz).1
  have hleg := h.legal hloc fun z hz => (hc' (z.1, z.2.call) (by rw [← hcalls]; exact List.mem_map.2 ⟨z, hz, rfl⟩)).2
  obtain ⟨⟨t1, d1⟩, ⟨t2, d2⟩, rfl⟩ : ∃ z1 z2, ops = [z1, z2] := by
    have hlen := congrArg List.length hcalls
    simp only [List.length_map, List.length_cons, List.length_nil] at hlen
    exact ⟨ops[0], ops[1], List.ext_getElem (by simp [hlen]) fun i hi _ => by
      match i, (by omega : i < 2) with
      | 0, _ => rfl
      | 1, _ => rfl⟩
  simp only [List.map_cons, List.map_nil, List.cons.injEq, Prod.mk.injEq, and_true] at hcalls
  obtain ⟨⟨rfl, e1⟩, rfl, e2⟩ := hcalls
  simp only [List.map_cons, List.map_nil, e1, e2] at hleg
  obtain ⟨m1, ⟨hm1, r1⟩, m2, ⟨x2, ⟨s2, hm2⟩, r2⟩, hm⟩ := hleg
  cases hm
  have hx2 : x2 = 1#32 := by
    rw [s2, hm1]
    exact load_store (by decide) _
  subst hx2
  have hdata : load A.e m 0x2000 32 = 7#32 := by
    have d : ∀ (M : Mem) (v : BitVec 32), load A.e (store A.e M 0x1000 32 v) 0x2000 32 = load A.e M 0x2000 32 := fun M v =>
      load_store_disjoint (by decide) (.inr (by decide))
    rw [hm2, hm1, d]
    exact load_store (by decide) _
  obtain ⟨m1', a1, m2', a2, hm⟩ := h
  cases hm
  let o1 : Own W := write W A.e rs fun _ => 0
  let o2 : Own W := read W rs m
  let L : List (Nat × Item W) := [(0, .other o1), (0, .op d1), (1, .op d2), (1, .other o2)]
  have hmix : Mixed A (fun _ => 0) L m := by
    refine ⟨rfl, fun x hx => (store_outside (e := A.e) (m := fun _ => 0) (a := 0x2000) (w := 32) (v := 7#32) ?_ : Verif.store _ _ _ _ _ _ = _), rfl, m1', a1, m, a2, rfl, fun _ _ => rfl, rfl, rfl⟩
    rcases Nat.lt_or_ge x 0x2000 with hlt | hge
    · exact .inl hlt
    · exact .inr (Nat.le_of_not_lt fun hlt => hx ⟨rfl, hge, hlt⟩)
  have i0 : mixedItems L 0 = [.other o1, .op d1] := rfl
  have i1 : mixedItems L 1 = [.op d2, .other o2] := rfl
  have i2 : ∀ t, 2 ≤ t → mixedItems L t = [] := by
    intro t ht
    match t with
    | t + 2 => rfl
  have ops : ∀ t d, Item.op d ∈ mixedItems L t → (t = 0 ∧ d = d1) ∨ t = 1 ∧ d = d2 := by
    intro t d hd
    match t with
    | 0 => rw [i0] at hd; simp at hd; exact .inl ⟨rfl, hd⟩
    | 1 => rw [i1] at hd; simp at hd; exact .inr ⟨rfl, hd⟩
    | t + 2 => rw [i2 _ (by omega)] at hd; cases hd
  have others : ∀ t o, Item.other o ∈ mixedItems L t → (t = 0 ∧ o = o1) ∨ t = 1 ∧ o = o2 := by
    intro t d hd
    match t with
    | 0 => rw [i0] at hd; simp at hd; exact .inl ⟨rfl, hd⟩
    | 1 => rw [i1] at hd; simp at hd; exact .inr ⟨rfl, hd⟩
    | t + 2 => rw [i2 _ (by omega)] at hd; cases hd
  have ok1 := a1.ok
  have ok2 := a2.ok
  have run : DataRun A P (interleaved (fun _ => 0) (mixedCode L)) 2 (mixedItems L) := {
    threads := i2
    code := mixed_code L
    ops := fun t d hd => by
      rcases ops t d hd with ⟨_, rfl⟩ | ⟨_, rfl⟩
      · rw [e1]; exact ⟨ok1, h1.2, .inr (.inr (.inl rfl)), (by decide : 0x1000 % (32 / 8) = 0)⟩
      · rw [e2]; exact ⟨ok2, h2.2, .inr (.inr (.inl rfl)), (by decide : 0x1000 % (32 / 8) = 0)⟩
    objects := fun t d t' d' hd hd' => by
      rcases ops t d hd with ⟨_, rfl⟩ | ⟨_, rfl⟩ <;> rcases ops t' d' hd' with ⟨_, rfl⟩ | ⟨_, rfl⟩ <;>
        simp only [e1, e2] <;> exact .inl ⟨rfl, rfl⟩
    natural := fun t o ho _ => by
      rcases others t o ho with ⟨_, rfl⟩ | ⟨_, rfl⟩ <;> exact ⟨0x2000, 32, rfl, .inr (.inr (.inl rfl)), rfl⟩
    apart := fun t o t' d x ho hd hx => by
      have hx' : 0x2000 ≤ x := by
        rcases others t o ho with ⟨_, rfl⟩ | ⟨_, rfl⟩ <;> rcases hx with hx | hx
        · have := hx.2; simp [o1, write, Instr.rdFoot] at this
        · exact hx.2.1
        · exact hx.1
        · exact absurd hx.1 (by simp [o2, read, Ev.isWrite])
      rcases ops t' d hd with ⟨_, rfl⟩ | ⟨_, rfl⟩
      · rw [e1]; rintro ⟨_, h⟩; simp [set, Call.addr, Call.width] at h; omega
      · rw [e2]; rintro ⟨_, h⟩; simp [look, Call.addr, Call.width] at h; omega }
  have con := hmix.consistent A.imp
  have H : CSetup A (interleaved (fun _ => 0) (mixedCode L)) (readFrom (fun _ => 0) (mixedCode L)) (mixedItems L) 32 0x1000 := by
    refine Backend.csetup hloc hacc con.coh (.inr (.inr (.inl rfl))) rfl (mixed_code L) (fun t d hd => ?_) fun t o x ho g1 g2 hx => ?_
    · obtain ⟨k1, k2, k3, k4⟩ := run.ops t d hd
      refine ⟨k1, k2, k3, k4, ?_⟩
      rcases ops t d hd with ⟨_, rfl⟩ | ⟨_, rfl⟩
      · rw [e1]; exact .inl ⟨rfl, rfl⟩
      · rw [e2]; exact .inl ⟨rfl, rfl⟩
    · rcases others t o ho with ⟨_, rfl⟩ | ⟨_, rfl⟩
      · have := writes_data hx; omega
      · exact absurd hx.1 (by simp [o2, read, Ev.isWrite])
  have g1 : (mixedItems L 0)[1]? = some (.op d1) := rfl
  have g2 : (mixedItems L 1)[0]? = some (.op d2) := rfl
  have rel : d1.Releases := by unfold Done.Releases; rw [e1]; exact hos
  have acq : d2.Acquires := by unfold Done.Acquires; rw [e2]; exact hol
  obtain ⟨w, hw⟩ := isLast_wr_of hord g1 ok1 rel
  obtain ⟨r, hr⟩ := isLast_rd_of hord g2 ok2 acq
  have before : OpBefore (interleaved (fun _ => 0) (mixedCode L)) (readFrom (fun _ => 0) (mixedCode L)) (mixedItems L) 0 1 1 0 := by
    obtain ⟨n, o, hp⟩ := H.toProg.exists_isPt g2
    obtain ⟨p, hpt, hn⟩ := hp.pt
    have key : ∃ l, (interleaved (fun _ => 0) (mixedCode L)).At r l ∧ ∀ y, 0x1000 ≤ y → y < 0x1000 + 32 / 8 → l.reads y ∧ l.m y = o.m y := by
      cases hwr : o.ev.isWrite with
      | true =>
        obtain ⟨l, l1, _, l3, _⟩ := H.lastRead hpair hp ok2 (by rw [e2]; exact ⟨rfl, rfl⟩) acq.not_overwrites hwr hr
        exact ⟨l, l1, l3⟩
      | false =>
        have hl := hpt.last
        rw [ownEvs_erase] at hl
        have hk : ptKind o.ev = .rd := by simp [ptKind, hwr]
        rw [hk] at hl hn
        have hnr : n = r := IsLast.unique ⟨d2, p, g2, hl, hn⟩ hr
        subst hnr
        exact ⟨o, H.toProg.isPt_at hp, fun y y1 y2 => ⟨((H.touch hp (by rw [e2]; exact ⟨rfl, rfl⟩) y1 y2).2 hwr).2.2.2, rfl⟩⟩
    obtain ⟨l, hat, hl⟩ := key
    have hval : load A.e o.m 0x1000 32 = 1#32 := by
      have := hpt.sem o.m (Agree.refl _ _ _)
      rw [e2, r2] at this
      obtain ⟨v, ⟨v1, _⟩, v2⟩ := this
      cases v2
      exact v1.symm
    have hx : ∃ x, 0x1000 ≤ x ∧ x < 0x1000 + 32 / 8 ∧ o.m x ≠ 0 := by
      refine Classical.byContradiction fun hno => ?_
      have : load A.e o.m 0x1000 32 = load A.e (fun _ => 0) 0x1000 32 := load_congr (w := 32) (by decide) fun x x1 x2 =>
        Classical.byContradiction fun hne => hno ⟨x, x1, by omega, hne⟩
      exact absurd ((hval.symm.trans this).trans (load_zero _ _ _)) (by decide)
    obtain ⟨x, x1, x2, hne⟩ := hx
    obtain ⟨hrd, hlm⟩ := hl x x1 x2
    obtain ⟨v1, v2⟩ := con.coh.value r l x hat hr.node.2.1 hrd
    cases hs : readFrom (fun _ => 0) (mixedCode L) r x with
    | none => exact absurd (hlm.symm.trans (v2 hs)) hne
    | some s =>
      obtain ⟨k, d, os, hps, hws, _⟩ := H.write (v1 s hs) x1 x2
      have hitem := hps.item
      obtain ⟨ps, hpts, hns⟩ := hps.pt
      have hks : ptKind os.ev = .wr := by simp [ptKind, hws.1]
      have hl := hpts.last
      rw [ownEvs_erase] at hl
      rw [hks] at hl hns
      rcases ops _ d (List.mem_of_getElem? hitem) with ⟨ht, rfl⟩ | ⟨ht, rfl⟩
      · rw [ht] at hitem hns
        have hk : k = 1 := by
          match k, hitem with
          | 0, hitem => simp [i0] at hitem
          | 1, _ => rfl
          | k + 2, hitem => simp [i0] at hitem
        subst hk
        obtain rfl : s = w := IsLast.unique ⟨d, ps, g1, hl, hns⟩ hw
        exact .direct (by decide) g1 rel g2 acq (by rw [e1, e2]; exact ⟨rfl, rfl⟩) hw hr hat hrd (by rw [e2]; exact x1) (by rw [e2]; exact x2) hs
      · exfalso
        rw [ht] at hitem hns
        have hk : k = 0 := by
          match k, hitem with
          | 0, _ => rfl
          | 1, hitem => simp [i1] at hitem
          | k + 2, hitem => simp [i1] at hitem
        subst hk
        have hlt := (readFrom_some hs).2.1
        obtain ⟨d', q, q1, ⟨⟨ev, q2, q3⟩, _⟩, hrn⟩ := hr
        obtain rfl : d = d' := by simpa using g2.symm.trans q1
        rw [List.getElem?_map, Option.map_eq_some_iff] at q2
        obtain ⟨oq, q2, rfl⟩ := q2
        have hle : q ≤ ps := by
          rcases Nat.lt_or_ge ps q with hlt | hge
          · have := hpts.after q oq hlt q2
            cases hev : oq.ev <;> rw [hev] at this q3 <;> simp [Ev.isAccess, Ev.has] at this q3
          · exact hge
        subst hns hrn
        rw [rank_wr rfl, rank_rd rfl] at hlt
        simp only at hlt
        rcases Nat.eq_or_lt_of_le hle with rfl | hlt'
        · omega
        · have := place_mono (L := mixedCode L) (t := 1) (p := off (mixedItems L 1) 0 + q) (p' := off (mixedItems L 1) 0 + ps) (o := os) (by omega)
            (by rw [mixed_code]; exact item_get g2 (it := .op d) hpts.get)
          omega
  refine ⟨_, _, mixedItems L, d1, d2, o1, o2, con, run, ?_, i0, i1, e1, e2, r2, ⟨rfl, by exact (by decide : 0x2000 ≤ 0x2000 ∧ 0x2000 < 0x2004)⟩, by exact (by decide : 0x2000 ≤ 0x2000 ∧ 0x2000 < 0x2004), hdata⟩
  have order : ∀ a b oa ob, DataAt (mixedItems L) a oa → DataAt (mixedItems L) b ob → a.thread = 0 → b.thread = 1 →
      AccessBefore (interleaved (fun _ => 0) (mixedCode L)) (readFrom (fun _ => 0) (mixedCode L)) (mixedItems L) a b := by
    rintro a b oa ob ⟨k, k1, k2, _⟩ ⟨k', k1', k2', _⟩ ha hb
    refine ⟨1, 0, by rw [ha, hb]; exact before, ?_, ?_⟩
    · rw [ha] at k1 k2 ⊢
      have hk : k = 0 := by
        match k, k1 with
        | 0, _ => rfl
        | 1, k1 => simp [i0] at k1
        | k + 2, k1 => simp [i0] at k1
      subst hk
      rw [k2]
      simp [off, i0, Item.code]
    · rw [hb] at k1' k2' ⊢
      have hk : k' = 1 := by
        match k', k1' with
        | 0, k1 => simp [i1] at k1
        | 1, _ => rfl
        | k + 2, k1 => simp [i1] at k1
      subst hk
      rw [k2']
      exact Nat.le_refl _
  intro a b oa ob x ha hb hne _ _ _
  have two : ∀ n o, DataAt (mixedItems L) n o → n.thread = 0 ∨ n.thread = 1 := by
    rintro n o ⟨k, k1, _⟩
    rcases others _ o (List.mem_of_getElem? k1) with ⟨h, _⟩ | ⟨h, _⟩
    · exact .inl h
    · exact .inr h
  rcases two a oa ha with h | h <;> rcases two b ob hb with h' | h'
  · omega
  · exact .inl (order a b oa ob ha hb h h')
  · exact .inr (order b a ob oa hb ha h' h)
  · omega

/-- The form used for the back ends: thread 1 finds the flag set and reads the data that thread 0 wrote, with ordinary accesses. -/
def Met (A : Backend W) : Prop :=
  ∃ (X : AxShape W) (rf : Node → Nat → Option Node) (items : Nat → List (Item W)) (d1 d2 : Done W) (o1 o2 : Own W),
    FullyConsistent A.imp X rf ∧ DataRun A Call.SeqCstOnly X 2 items ∧ RaceFree X rf items ∧
    items 0 = [.other o1, .op d1] ∧ items 1 = [.op d2, .other o2] ∧ d1.call = set .seqCst ∧ d2.call = look .seqCst ∧ d2.ret = .bits 32 1 ∧
    o1.writes 0x2000 ∧ o2.reads 0x2000 ∧ load A.e o2.m 0x2000 32 = 7#32

theorem met {A : Backend W} {sc : List Mon} {st sw cas : Nat} (h : Good A sc) (hpair : A.Paired) (h6 : A.ProgressOK)
    (hacc : A.AccessesOK (gran st sw cas)) (h1 : A.Startable (set .seqCst)) (h2 : A.Startable (look .seqCst)) : Met A := by
  have hloc : A.LocalOps fun c => c ∈ [set .seqCst, look .seqCst] := h.localOps fun s f w a old new B hP => by
    simp [set, look] at hP
  obtain ⟨X, rf, items, d1, d2, o1, o2, hX, hL, hrest⟩ := exists_run hloc (Backend.orderingsOK h.acquireOK h.releaseOK h.seqCstOK h.failureOK) hpair h6 hacc rfl rfl ⟨h1, by simp⟩ ⟨h2, by simp⟩
  refine ⟨X, rf, items, d1, d2, o1, o2, hX, { hL with ops := fun t d hm => ⟨(hL.ops t d hm).1, ?_, (hL.ops t d hm).2.2⟩ }, hrest⟩
  have := (hL.ops t d hm).2.1
  simp only [List.mem_cons, List.not_mem_nil, or_false] at this
  rcases this with h | h <;> rw [h] <;> exact rfl

end DRFSample
end Verif
