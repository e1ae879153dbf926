/-
For every back end and every list of calls by any threads there is a consistent execution, in the sense of every weak memory model
used here, in which these operations are executed one after the other. It gives the answers of the sequential specification.
-/
import Verif.Weak.Serial
import Verif.Core.Progress
import Verif.Props.Solo
import Verif.Lin.Complete

namespace Verif
variable {W : Nat}

/-- The operation was called with memory `m`, executed without interference, and left `m'`. -/
def Done.Alone (A : Backend W) (d : Done W) (m m' : Mem) : Prop :=
  A.Runs d.call d.B ∧ ∃ c0 c : Cfg W, c0.pc = 0 ∧ c0.resv = none ∧ d.B.pre c0.rs ∧ c0.mem = m ∧ LRun A.e d.B.code c0 d.tr c ∧
    c.pc = d.B.code.length ∧ c.rs = d.rs ∧ c.mem = m' ∧ ∀ a b, LEv.env a b ∉ d.tr

/-- The operations are executed one after the other. -/
def Serially (A : Backend W) : Mem → List (Nat × Done W) → Mem → Prop
  | m, [], m' => m = m'
  | m, (_, d) :: ops, m' => ∃ m1, d.Alone A m m1 ∧ Serially A m1 ops m'

/-- the instructions -/
def serialCode (ops : List (Nat × Done W)) : List (Nat × Own W) := ops.flatMap fun z => (owns z.2.tr).map fun o => (z.1, o)
/-- the threads -/
def serialItems (ops : List (Nat × Done W)) (t : Nat) : List (Item W) := ops.filterMap fun z => if z.1 = t then some (.op z.2) else none

theorem Done.Alone.ok {A : Backend W} {d : Done W} {m m' : Mem} (h : d.Alone A m m') : d.OK A := by
  obtain ⟨h0, c0, c, h1, h2, h3, _, h4, h5, h6, _⟩ := h
  exact ⟨h0, c0, c, h1, h2, h3, h4, h5, h6⟩

/-- memory after the instructions -/
def lastMem : Mem → List (Nat × Own W) → Mem
  | m, [] => m
  | _, (_, o) :: L => lastMem o.m' L
theorem lastMem_append (m : Mem) (L L' : List (Nat × Own W)) : lastMem m (L ++ L') = lastMem (lastMem m L) L' := by
  induction L generalizing m with
  | nil => rfl
  | cons z L ih => exact ih _
theorem OneMemory.append {m : Mem} {L L' : List (Nat × Own W)} (h : OneMemory m L) (h' : OneMemory (lastMem m L) L') :
    OneMemory m (L ++ L') := by
  induction L generalizing m with
  | nil => exact h'
  | cons z L ih => exact ⟨h.1, h.2.1, ih h.2.2 h'⟩

/-- One thread's run without interference. -/
theorem LRun.oneMemory {e : Endian} {P : List (Instr W)} {c0 c : Cfg W} {tr : List (LEv W)} (h : LRun e P c0 tr c) (t : Nat)
    (hq : ∀ a b, LEv.env a b ∉ tr) : OneMemory c0.mem ((owns tr).map fun o => (t, o)) ∧ lastMem c0.mem ((owns tr).map fun o => (t, o)) = c.mem := by
  induction h with
  | nil => exact ⟨trivial, rfl⟩
  | @own tr c i ev c' h hi hs ih =>
    obtain ⟨h1, h2⟩ := ih fun a b hm => hq a b (List.mem_append_left _ hm)
    rw [owns_append, List.map_append, owns_own, owns_nil]
    refine ⟨h1.append ?_, ?_⟩
    · rw [h2]
      refine ⟨rfl, fun x hx => ?_, trivial⟩
      by_cases hw : ev.isWrite = true
      · refine hs.wrFoot ?_
        rcases Nat.lt_or_ge x (i.wrFoot c.rs).1 with hlt | hge
        · exact .inl hlt
        · rcases Nat.lt_or_ge x ((i.wrFoot c.rs).1 + (i.wrFoot c.rs).2) with hlt | hge'
          · exact absurd ⟨hw, hge, hlt⟩ hx
          · exact .inr hge'
      · show c'.mem x = c.mem x
        rw [hs.silent (by simpa using hw)]
    · rw [lastMem_append, h2]; rfl
  | env _ m' r' _ _ => exact absurd (List.mem_append_right _ (List.mem_singleton.2 rfl)) (hq _ _)

/-- A store-conditional succeeds only after a load-linked. -/
theorem LRun.linked {e : Endian} {P : List (Instr W)} {c0 c : Cfg W} {tr : List (LEv W)} (h : LRun e P c0 tr c) (h0 : c0.resv = none) :
    (c.resv ≠ none → ∃ (q : Nat) (l : Own W), (owns tr)[q]? = some l ∧ l.ins.isLL = true ∧ l.ev.has .rd) ∧
    ∀ j s, (owns tr)[j]? = some s → s.ins.isSC = true → s.ev.isWrite = true →
      ∃ (q : Nat) (l : Own W), q < j ∧ (owns tr)[q]? = some l ∧ l.ins.isLL = true := by
  induction h with
  | nil => exact ⟨fun h => absurd h0 h, fun j s h => by simp [owns] at h⟩
  | @own tr c i ev c' h hi hs ih =>
    obtain ⟨h1, h2⟩ := ih
    rw [owns_append, owns_own, owns_nil]
    have up : ∀ {q : Nat} {l : Own W}, (owns tr)[q]? = some l → (owns tr ++ [⟨i, c.rs, ev, c.mem, c'.mem⟩])[q]? = some l := by
      intro q l hq
      rw [List.getElem?_append_left (List.getElem?_eq_some_iff.1 hq).1]; exact hq
    refine ⟨fun hr => ?_, fun j s hj hsc hw => ?_⟩
    · by_cases hl : i.isLL = true
      · refine ⟨(owns tr).length, ⟨i, c.rs, ev, c.mem, c'.mem⟩, by rw [List.getElem?_append_right (Nat.le_refl _)]; simp, hl, ?_⟩
        cases hs <;> first | trivial | cases hl
      · have : c.resv ≠ none := by
          intro hn
          cases hs <;> first | exact hr hn | exact hr rfl | exact hl rfl
        obtain ⟨q, l, g1, g2⟩ := h1 this
        exact ⟨q, l, up g1, g2⟩
    · rcases Nat.lt_or_ge j (owns tr).length with hlt | hge
      · rw [List.getElem?_append_left hlt] at hj
        obtain ⟨q, l, g1, g2, g3⟩ := h2 j s hj hsc hw
        exact ⟨q, l, g1, up g2, g3⟩
      · rw [List.getElem?_append_right hge] at hj
        have hj0 : j - (owns tr).length = 0 := by
          rcases Nat.eq_zero_or_pos (j - (owns tr).length) with h | h
          · exact h
          · rw [List.getElem?_eq_none (by simp; omega)] at hj; cases hj
        rw [hj0] at hj
        simp at hj
        subst hj
        have : c.resv ≠ none := by
          cases hs with
          | scOk _ _ _ _ _ _ _ hh => rw [hh]; simp
          | scFail => cases hw
          | _ => cases hsc
        obtain ⟨q, l, g1, g2, _⟩ := h1 this
        exact ⟨q, l, by have := (List.getElem?_eq_some_iff.1 g1).1; omega, up g1, g2⟩
  | env h m' r' hr ih =>
    obtain ⟨h1, h2⟩ := ih
    rw [owns_append, owns_env, owns_nil, List.append_nil]
    refine ⟨fun hn => h1 fun hc => ?_, h2⟩
    rcases hr with rfl | ⟨rfl, _⟩
    · exact hn rfl
    · exact hn hc

theorem Serially.oneMemory {A : Backend W} : ∀ {ops : List (Nat × Done W)} {m m' : Mem}, Serially A m ops m' →
    OneMemory m (serialCode ops)
  | [], _, _, _ => trivial
  | (t, d) :: ops, m, m', ⟨m1, hd, h⟩ => by
    obtain ⟨_, c0, c, _, _, _, rfl, hr, _, _, rfl, hq⟩ := hd
    obtain ⟨h1, h2⟩ := hr.oneMemory t hq
    show OneMemory _ (_ ++ serialCode ops)
    refine h1.append ?_
    rw [h2]
    exact h.oneMemory

/-- to which operation an instruction belongs -/
theorem serialCode_get : ∀ {ops : List (Nat × Done W)} {g t : Nat} {o : Own W}, (serialCode ops)[g]? = some (t, o) →
    ∃ pre d post q, ops = pre ++ (t, d) :: post ∧ g = (serialCode pre).length + q ∧ (owns d.tr)[q]? = some o
  | [], _, _, _, h => by simp [serialCode] at h
  | (t0, d0) :: ops, g, t, o, h => by
    have e : serialCode ((t0, d0) :: ops) = (owns d0.tr).map (fun o => (t0, o)) ++ serialCode ops := rfl
    rw [e] at h
    rcases Nat.lt_or_ge g (owns d0.tr).length with hlt | hge
    · rw [List.getElem?_append_left (by simpa using hlt), List.getElem?_map, Option.map_eq_some_iff] at h
      obtain ⟨o', h1, h2⟩ := h
      cases h2
      exact ⟨[], d0, ops, g, rfl, by simp [serialCode], h1⟩
    · rw [List.getElem?_append_right (by simpa using hge)] at h
      obtain ⟨pre, d, post, q, rfl, h2, h3⟩ := serialCode_get h
      refine ⟨(t0, d0) :: pre, d, post, q, rfl, ?_, h3⟩
      show g = ((owns d0.tr).map (fun o => (t0, o)) ++ serialCode pre).length + q
      simp only [List.length_map] at h2
      simp only [List.length_append, List.length_map]
      omega

theorem serialCode_at {pre post : List (Nat × Done W)} {t : Nat} {d : Done W} {q : Nat} {o : Own W} (h : (owns d.tr)[q]? = some o) :
    (serialCode (pre ++ (t, d) :: post))[(serialCode pre).length + q]? = some (t, o) := by
  have e : serialCode (pre ++ (t, d) :: post) = serialCode pre ++ ((owns d.tr).map (fun o => (t, o)) ++ serialCode post) := by
    simp [serialCode]
  rw [e, List.getElem?_append_right (by omega), Nat.add_sub_cancel_left,
    List.getElem?_append_left (by simpa using (List.getElem?_eq_some_iff.1 h).1), List.getElem?_map, h]
  rfl

theorem Serially.alone {A : Backend W} : ∀ {ops : List (Nat × Done W)} {m m' : Mem}, Serially A m ops m' →
    ∀ z ∈ ops, ∃ m1 m2, z.2.Alone A m1 m2
  | (t, d) :: ops, m, m', ⟨m1, hd, h⟩, z, hz => by
    rcases List.mem_cons.1 hz with rfl | hz
    · exact ⟨_, _, hd⟩
    · exact h.alone z hz

theorem Serially.reserved {A : Backend W} {ops : List (Nat × Done W)} {m m' : Mem} (h : Serially A m ops m') :
    Reserved (serialCode ops) := by
  intro t i j l s hij hi hj hl hsc hno k t' o x hk1 hk2 hk ht hx hw
  obtain ⟨pre, d, post, q, rfl, h2, h3⟩ := serialCode_get (place_get hj)
  obtain ⟨_, _, _, c0, c, _, hres, _, _, hr, _⟩ := h.alone (t, d) (by simp)
  obtain ⟨q', l', g1, g2, g3⟩ := (hr.linked hres).2 q s h3 hsc hx.1
  have hat := serialCode_at (pre := pre) (post := post) (t := t) (d := d) g2
  obtain ⟨p, e1, e2⟩ := place_of hat
  -- `k` lies before the operation
  have hlt : k < (serialCode pre).length := by
    rcases Nat.lt_or_ge k (serialCode pre).length with h | hge
    · exact h
    · exfalso
      obtain ⟨r, rfl⟩ : ∃ r, k = (serialCode pre).length + r := ⟨k - (serialCode pre).length, by omega⟩
      have hr' : r < (owns d.tr).length := by
        have := (List.getElem?_eq_some_iff.1 h3).1
        omega
      have := serialCode_at (pre := pre) (post := post) (t := t) (List.getElem?_eq_getElem hr')
      rw [hk] at this
      simp only [Option.some.injEq, Prod.mk.injEq] at this
      exact ht this.1
  have p1 : i < p := by
    rcases Nat.lt_or_ge i p with h | hge
    · exact h
    · exfalso
      rcases Nat.eq_or_lt_of_le hge with rfl | hlt'
      · omega
      · have := place_mono hlt' hi
        omega
  have p2 : p < j := by
    rcases Nat.lt_or_ge p j with h | hge
    · exact h
    · exfalso
      rcases Nat.eq_or_lt_of_le hge with rfl | hlt'
      · omega
      · have := place_mono hlt' e1
        omega
  have := hno p l' p1 p2 e1
  rw [this] at g3
  cases g3

theorem serial_code (ops : List (Nat × Done W)) (t : Nat) : partOf (serialCode ops) t = (serialItems ops t).flatMap Item.code := by
  induction ops with
  | nil => rfl
  | cons z ops ih =>
    have e : partOf (serialCode (z :: ops)) t = partOf ((owns z.2.tr).map fun o => (z.1, o)) t ++ partOf (serialCode ops) t := by
      simp [serialCode, partOf]
    rw [e, ih]
    by_cases ht : z.1 = t
    · have : serialItems (z :: ops) t = .op z.2 :: serialItems ops t := by simp [serialItems, ht]
      rw [this, List.flatMap_cons]
      congr 1
      simp only [partOf, List.filterMap_map]
      show List.filterMap (fun o => if z.1 = t then some o else none) _ = _
      simp [ht, Item.code]
    · have : serialItems (z :: ops) t = serialItems ops t := by simp [serialItems, ht]
      rw [this]
      have : partOf ((owns z.2.tr).map fun o => (z.1, o)) t = [] := by
        simp only [partOf, List.filterMap_map]
        show List.filterMap (fun o => if z.1 = t then some o else none) _ = _
        simp [ht]
      rw [this, List.nil_append]

/-- The answers are those of the sequential specification. -/
theorem Serially.legal {A : Backend W} {P : Call → Prop} (hloc : A.LocalOps P) : ∀ {ops : List (Nat × Done W)} {m m' : Mem}, Serially A m ops m' →
    (∀ z ∈ ops, P z.2.call) → Legal A.e m (ops.map fun z => (z.1, z.2.call, z.2.ret)) m'
  | [], _, _, h, _ => h
  | (t, d) :: ops, m, m', ⟨m1, hd, h⟩, hP => by
    refine ⟨m1, ?_, h.legal hloc fun z hz => hP z (List.mem_cons_of_mem _ hz)⟩
    obtain ⟨h0, c0, c, h1, _, h3, rfl, hr, h5, h6, rfl, hq⟩ := hd
    have := (hloc d.call d.B (hP (t, d) List.mem_cons_self) h0 c0 d.tr c h1 h3 hr h5).atomic hr
    show d.call.Sem A.e c0.mem c.mem (d.call.result d.B d.rs)
    rw [← h6]
    refine this.undisturbed hr.run.chain ?_
    intro a b hm
    obtain ⟨x, hx, he⟩ := List.mem_map.1 hm
    cases x with
    | own => simp [LEv.erase] at he
    | env a' b' => exact absurd hx (hq a' b')

/-- A thread that is left alone finishes. -/
theorem Finishes.finish_alone {e : Endian} {P : List (Instr W)} {n : Nat} {c0 c : Cfg W} {tr : List (LEv W)} (hr : LRun e P c0 tr c)
    (hq : ∀ a b, LEv.env a b ∉ tr) (h : Finishes e P n c) :
    ∃ tr' c', LRun e P c0 tr' c' ∧ c'.pc = P.length ∧ ∀ a b, LEv.env a b ∉ tr' := by
  induction n generalizing c tr with
  | zero => exact ⟨tr, c, hr, h, hq⟩
  | succ n ih =>
    rcases h with h | ⟨i, hi, ⟨c', hq'⟩, h3⟩
    · exact ⟨tr, c, hr, h, hq⟩
    · have hq'' := hq'
      obtain ⟨ev, hs, _⟩ := hq'
      refine ih (hr.own hi hs) (fun a b hm => ?_) (h3 c' hq'')
      rcases List.mem_append.1 hm with hm | hm
      · exact hq a b hm
      · simp at hm

/-- The back end implements the call, and some register contents are as its code expects. -/
def Backend.Startable (A : Backend W) (c : Call) : Prop := ∃ (B : Block W c.width), A.Runs c B ∧ ∃ rs, B.pre rs

theorem Serially.exists {A : Backend W} (h6 : A.ProgressOK) : ∀ (calls : List (Nat × Call)) (m : Mem), (∀ z ∈ calls, A.Startable z.2) →
    ∃ ops m', Serially A m ops m' ∧ ops.map (fun z => (z.1, z.2.call)) = calls
  | [], m, _ => ⟨[], m, rfl, rfl⟩
  | (t, c) :: calls, m, h => by
    obtain ⟨B, hB, rs, hpre⟩ := h (t, c) List.mem_cons_self
    obtain ⟨N, -, hN⟩ := h6 B hB.isBlock
    obtain ⟨tr, c', hr, hpc, hq⟩ := (hN ⟨0, rs, m, none⟩ [] _ rfl hpre .nil).finish_alone .nil (by simp)
    obtain ⟨ops, m', h1, h2⟩ := Serially.exists h6 calls c'.mem fun z hz => h z (List.mem_cons_of_mem _ hz)
    exact ⟨(t, ⟨c, B, tr, c'.rs⟩) :: ops, m', ⟨c'.mem, ⟨hB, _, c', rfl, rfl, hpre, rfl, hr, hpc, rfl, rfl, hq⟩, h1⟩, by simp [h2]⟩

/-- An execution that is consistent in every sense used here. -/
structure FullyConsistent (imp : Pairs) (X : AxShape W) (rf : Node → Nat → Option Node) : Prop where
  ax : AxExec imp X
  forward : X.LocalForward
  coh : CohExec X rf
  readsFrom : X.ReadsFrom rf
  ra : RAExec imp X rf
  nm : NMExec X rf

theorem Serially.consistent {A : Backend W} {ops : List (Nat × Done W)} {m m' : Mem} (h : Serially A m ops m') (imp : Pairs) :
    FullyConsistent imp (interleaved m (serialCode ops)) (readFrom m (serialCode ops)) where
  ax := interleaved_ax h.oneMemory h.reserved
  forward := interleaved_forward
  coh := interleaved_coh h.oneMemory h.reserved
  readsFrom := interleaved_readsFrom
  ra := interleaved_ra h.oneMemory h.reserved
  nm := interleaved_nm h.oneMemory h.reserved

theorem serial_ops (ops : List (Nat × Done W)) (t : Nat) :
    (opsOf (serialItems ops t)).map (fun d => (t, d.call, d.ret)) = ofThread t (ops.map fun z => (z.1, z.2.call, z.2.ret)) := by
  induction ops with
  | nil => rfl
  | cons z ops ih =>
    obtain ⟨t', d⟩ := z
    by_cases ht : t' = t
    · subst ht
      simpa [serialItems, opsOf, ofThread] using ih
    · simpa [serialItems, opsOf, ofThread, ht] using ih

theorem mem_serialItems {ops : List (Nat × Done W)} {t : Nat} {i : Item W} (h : i ∈ serialItems ops t) :
    ∃ d, i = .op d ∧ (t, d) ∈ ops := by
  obtain ⟨⟨t', d⟩, hz, he⟩ := List.mem_filterMap.1 h
  simp only at he
  split at he
  · rename_i ht; cases he; cases ht; exact ⟨d, rfl, hz⟩
  · cases he

/-- The hypotheses of C41, C42, C44 and C48 are met, for every back end and every program: the threads call what is in `calls`, and
in one consistent execution the operations are executed in this order. -/
theorem Backend.serial_execution {A : Backend W} {P : Call → Prop} (hloc : A.LocalOps P) (h6 : A.ProgressOK) (calls : List (Nat × Call)) (m0 : Mem)
    (hc : ∀ z ∈ calls, A.Startable z.2 ∧ P z.2) :
    ∃ (X : AxShape W) (rf : Node → Nat → Option Node) (items : Nat → List (Item W)) (seq : List (Nat × Call × Ret)) (m : Mem),
      FullyConsistent A.imp X rf ∧ X.m0 = m0 ∧ (∀ t, X.po t = (items t).flatMap Item.code) ∧ (∀ t o, Item.other o ∉ items t) ∧
      (∀ t d, Item.op d ∈ items t → d.OK A ∧ P d.call ∧ (t, d.call) ∈ calls) ∧
      (∀ t, (opsOf (items t)).map (fun d => (t, d.call, d.ret)) = ofThread t seq) ∧
      seq.map (fun z => (z.1, z.2.1)) = calls ∧ Legal A.e m0 seq m := by
  obtain ⟨ops, m, h, hcalls⟩ := Serially.exists h6 calls m0 fun z hz => (hc z hz).1
  have hmem : ∀ z ∈ ops, (z.1, z.2.call) ∈ calls := by
    intro z hz
    rw [← hcalls]
    exact List.mem_map.2 ⟨z, hz, rfl⟩
  refine ⟨interleaved m0 (serialCode ops), readFrom m0 (serialCode ops), serialItems ops, _, m, h.consistent _, rfl, serial_code ops,
    fun t o hm => ?_, fun t d hm => ?_, serial_ops ops, ?_, h.legal hloc fun z hz => (hc _ (hmem z hz)).2⟩
  · obtain ⟨d, he, _⟩ := mem_serialItems hm
    cases he
  · obtain ⟨d', he, hd⟩ := mem_serialItems hm
    cases he
    obtain ⟨m1, m2, ha⟩ := h.alone _ hd
    exact ⟨ha.ok, (hc _ (hmem _ hd)).2, hmem _ hd⟩
  · rw [List.map_map]; exact hcalls

end Verif
