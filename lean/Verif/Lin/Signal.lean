/-
C57: signal handlers. A thread may be interrupted at any instruction of any operation by a handler that runs on the same
thread, calls operations itself (on the same objects, too), may be interrupted by another handler, and returns before the
interrupted operation goes on. The interrupted operation cannot make progress meanwhile, whatever the handler waits for.
-/
import Verif.Lin.Complete

namespace Verif

variable {W : Nat}

/-! ### Machine -/

/-- Every thread has frames: frame 0 is its normal code, frame `d + 1` a handler that has interrupted frame `d`. Only frame
`top i` of thread `i` runs. -/
structure NState (W : Nat) where
  mem : Mem
  fr : Nat → Nat → Thread W
  top : Nat → Nat

/-- Change one frame. -/
def updF {α : Type _} (f : Nat → Nat → α) (i d : Nat) (x : α) : Nat → Nat → α := fun j k => if j = i ∧ k = d then x else f j k

/-- Events of the machine. -/
inductive NEv where
  | inv (i d : Nat) (c : Call)
  | ret (i d : Nat) (c : Call) (r : Ret)
  | own (i d : Nat)
  | enter (i : Nat)
  | leave (i : Nat)
  | ext (m m' : Mem)

/-- Steps of the machine, as `GStep`, of the running frame of any thread; and the delivery of a signal and the end of its handler.
The registers of the interrupted frame are saved and restored. Its reservation is either lost (a store-conditional may fail at any
time) or survives, if no reserved byte is written meanwhile: kernels and processors clear reservations when they return to
interrupted code, so that a load-linked of a handler is never paired with a store-conditional of the interrupted code. -/
inductive NStep (A : Backend W) (P : Call → Prop) : NState W → NEv → NState W → Prop where
  | inv (n : NState W) (i c) (B : Block W c.width) (rs r) (hidle : n.fr i (n.top i) = .idle) (hp : P c) (hv : c.Valid)
      (hB : A.Runs c B) (hpre : B.pre rs) :
      NStep A P n (.inv i (n.top i) c) { n with fr := updF n.fr i (n.top i) (.run c B 0 rs r) }
  | own (n : NState W) (i c) (B : Block W c.width) (pc rs r ins ev c') (fr' : Nat → Nat → Thread W)
      (hrun : n.fr i (n.top i) = .run c B pc rs r) (hi : B.code[pc]? = some ins)
      (hs : Step A.e ins ⟨pc, rs, n.mem, r⟩ ev c')
      (hfr : fr' i (n.top i) = .run c B c'.pc c'.rs c'.resv)
      (hd : ∀ j d, ¬ (j = i ∧ d = n.top i) → Disturbed n.mem c'.mem (n.fr j d) (fr' j d)) :
      NStep A P n (.own i (n.top i)) ⟨c'.mem, fr', n.top⟩
  | ret (n : NState W) (i c) (B : Block W c.width) (rs r)
      (hrun : n.fr i (n.top i) = .run c B B.code.length rs r) :
      NStep A P n (.ret i (n.top i) c (c.result B rs)) { n with fr := updF n.fr i (n.top i) .idle }
  | enter (n : NState W) (i) : NStep A P n (.enter i) { n with top := upd n.top i (n.top i + 1) }
  | leave (n : NState W) (i d) (ht : n.top i = d + 1) (hidle : n.fr i (d + 1) = .idle) :
      NStep A P n (.leave i) { n with top := upd n.top i d }
  | ext (n : NState W) (m') (fr' : Nat → Nat → Thread W)
      (hd : ∀ j d, Disturbed n.mem m' (n.fr j d) (fr' j d)) :
      NStep A P n (.ext n.mem m') ⟨m', fr', n.top⟩

/-- Runs of the machine, from memory `m0` with all threads idle and no handler active. -/
inductive NRun (A : Backend W) (P : Call → Prop) (m0 : Mem) : List NEv → NState W → Prop where
  | nil : NRun A P m0 [] ⟨m0, fun _ _ => .idle, fun _ => 0⟩
  | snoc {tr n ev n'} (h : NRun A P m0 tr n) (hs : NStep A P n ev n') : NRun A P m0 (tr ++ [ev]) n'

/-- The number of frame `d` of thread `i`, as a thread of the canonical object. -/
def frameId (i d : Nat) : Nat := (i + d) * (i + d) + i

/-- The visible part of a run: calls, answers and memory changes from outside. -/
def NEv.vis : List NEv → List VEv
  | [] => []
  | .inv i d c :: t => .h (.inv (frameId i d) c) :: vis t
  | .ret i d c r :: t => .h (.ret (frameId i d) c r) :: vis t
  | .ext m m' :: t => .ext m m' :: vis t
  | .own _ _ :: t => vis t
  | .enter _ :: t => vis t
  | .leave _ :: t => vis t

/-! ### Specification -/

/-- C57. -/
structure Backend.SignalSafe (A : Backend W) (P : Call → Prop) : Prop where
  /-- Different frames have different numbers. -/
  distinct : ∀ i d j k, frameId i d = frameId j k → i = j ∧ d = k
  /-- Every run, handlers included, looks like a run of the canonical atomic object in which every handler is a thread of its
  own: the operation that was interrupted and those of the handler each take effect at one instant between call and return. -/
  atomic : ∀ (m0 : Mem) (tr : List NEv) (n : NState W), NRun A P m0 tr n →
    ∃ (str : List SEv) (s : SState), SRun A.e ⟨m0, fun _ => .idle⟩ str s ∧ SEv.vis str = NEv.vis tr ∧ s.mem = n.mem ∧
      ∀ i d, n.fr i d = .idle → s.th (frameId i d) = .idle
  /-- No deadlock: in every reachable state, whatever operations of whatever frames are interrupted, the operation of the running
  frame of a thread finishes within `maxAlone` instructions if nobody disturbs it: it waits for no one. -/
  finishes : ∀ (m0 : Mem) (tr : List NEv) (n : NState W), NRun A P m0 tr n → ∀ i c B pc rs r,
    n.fr i (n.top i) = .run c B pc rs r → ∃ N, N ≤ maxAlone ∧ Finishes A.e B.code N ⟨pc, rs, n.mem, r⟩

/-! ### Proof -/

theorem frameId_inj {i d j k : Nat} (h : frameId i d = frameId j k) : i = j ∧ d = k := by
  unfold frameId at h
  have key : ∀ s t a b : Nat, a ≤ s → s < t → s * s + a ≠ t * t + b := by
    intro s t a b ha hst he
    have h1 : (s + 1) * (s + 1) ≤ t * t := Nat.mul_le_mul hst hst
    have h2 : (s + 1) * (s + 1) = s * s + 2 * s + 1 := by
      rw [Nat.add_mul, Nat.mul_add, Nat.one_mul, Nat.mul_one]; omega
    omega
  rcases Nat.lt_trichotomy (i + d) (j + k) with hl | he | hl
  · exact (key _ _ _ _ (Nat.le_add_right i d) hl h).elim
  · rw [he] at h; omega
  · exact (key _ _ _ _ (Nat.le_add_right j k) hl h.symm).elim

open Classical in
/-- The frames as threads. -/
noncomputable def flat (fr : Nat → Nat → Thread W) (k : Nat) : Thread W :=
  if h : ∃ p : Nat × Nat, frameId p.1 p.2 = k then fr h.choose.1 h.choose.2 else .idle

theorem flat_frame (fr : Nat → Nat → Thread W) (i d : Nat) : flat fr (frameId i d) = fr i d := by
  unfold flat
  have h : ∃ p : Nat × Nat, frameId p.1 p.2 = frameId i d := ⟨(i, d), rfl⟩
  rw [dif_pos h]
  obtain ⟨h1, h2⟩ := frameId_inj h.choose_spec
  rw [h1, h2]

theorem flat_cases (k : Nat) : (∃ i d, k = frameId i d) ∨ ∀ fr : Nat → Nat → Thread W, flat fr k = .idle := by
  by_cases h : ∃ p : Nat × Nat, frameId p.1 p.2 = k
  · obtain ⟨⟨i, d⟩, rfl⟩ := h; exact .inl ⟨i, d, rfl⟩
  · exact .inr fun fr => by unfold flat; rw [dif_neg h]

theorem flat_upd (fr : Nat → Nat → Thread W) (i d : Nat) (x : Thread W) :
    flat (updF fr i d x) = upd (flat fr) (frameId i d) x := by
  funext k
  rcases flat_cases (W := W) k with ⟨j, e, rfl⟩ | h
  · rw [flat_frame]
    simp only [updF, upd]
    by_cases hc : j = i ∧ e = d
    · obtain ⟨rfl, rfl⟩ := hc; simp
    · rw [if_neg hc, if_neg fun he => hc (frameId_inj he), flat_frame]
  · rw [h]
    simp only [upd]
    split
    · rename_i he
      subst he
      have := h (updF fr i d x)
      rw [flat_frame] at this
      simpa [updF] using this.symm
    · exact (h fr).symm

/-- The frames as the threads of `GState`. -/
noncomputable def NState.flat (n : NState W) : GState W := ⟨n.mem, Verif.flat n.fr⟩

theorem gvis_snoc (t : List GEv) (x : GEv) : GEv.vis (t ++ [x]) = GEv.vis t ++ GEv.vis [x] := by
  induction t with
  | nil => rfl
  | cons y t ih => cases y <;> simp [GEv.vis, ih]
theorem nvis_snoc (t : List NEv) (x : NEv) : NEv.vis (t ++ [x]) = NEv.vis t ++ NEv.vis [x] := by
  induction t with
  | nil => rfl
  | cons y t ih => cases y <;> simp [NEv.vis, ih]

theorem NRun.flat {A : Backend W} {P : Call → Prop} {m0 : Mem} {tr : List NEv} {n : NState W} (h : NRun A P m0 tr n) :
    ∃ gtr, GRun A P ⟨m0, fun _ => .idle⟩ gtr n.flat ∧ GEv.vis gtr = NEv.vis tr := by
  induction h with
  | nil =>
    refine ⟨[], ?_, rfl⟩
    have : (NState.flat (W := W) ⟨m0, fun _ _ => .idle, fun _ => 0⟩) = ⟨m0, fun _ => .idle⟩ := by
      simp only [NState.flat]
      congr 1
      funext k
      rcases flat_cases (W := W) k with ⟨j, e, rfl⟩ | h
      · rw [flat_frame]
      · rw [h]
    rw [this]
    exact .nil
  | @snoc tr n ev n' h hs ih =>
    obtain ⟨gtr, hg, hv⟩ := ih
    cases hs with
    | inv i c B rs r hidle hp hv' hB hpre =>
      refine ⟨_, hg.snoc (ev := .h (.inv (frameId i (n.top i)) c)) ?_, ?_⟩
      · have := GStep.inv (A := A) (P := P) n.flat (frameId i (n.top i)) c B rs r
          (by simp only [NState.flat, flat_frame]; exact hidle) hp hv' hB hpre
        simpa only [NState.flat, flat_upd] using this
      · rw [gvis_snoc, nvis_snoc, hv]; rfl
    | own i c B pc rs r ins ev c' fr' hrun hi hst hfr hd =>
      refine ⟨_, hg.snoc (.own n.flat (frameId i (n.top i)) c B pc rs r ins ev c' (Verif.flat fr') ?_ hi hst ?_ ?_), ?_⟩
      · simp only [NState.flat, flat_frame]; exact hrun
      · rw [flat_frame]; exact hfr
      · intro k hk
        rcases flat_cases (W := W) k with ⟨j, e, rfl⟩ | h
        · simp only [NState.flat, flat_frame]
          exact hd j e fun ⟨h1, h2⟩ => hk (by rw [h1, h2])
        · simp only [NState.flat, h]; exact .idle
      · rw [gvis_snoc, nvis_snoc, hv]; rfl
    | ret i c B rs r hrun =>
      refine ⟨_, hg.snoc (ev := .h (.ret (frameId i (n.top i)) c (c.result B rs))) ?_, ?_⟩
      · have := GStep.ret (A := A) (P := P) n.flat (frameId i (n.top i)) c B rs r
          (by simp only [NState.flat, flat_frame]; exact hrun)
        simpa only [NState.flat, flat_upd] using this
      · rw [gvis_snoc, nvis_snoc, hv]; rfl
    | enter i => exact ⟨gtr, hg, by rw [nvis_snoc, hv]; simp [NEv.vis]⟩
    | leave i d ht hidle => exact ⟨gtr, hg, by rw [nvis_snoc, hv]; simp [NEv.vis]⟩
    | ext m' fr' hd =>
      refine ⟨_, hg.snoc (.ext n.flat m' (Verif.flat fr') ?_), ?_⟩
      · intro k
        rcases flat_cases (W := W) k with ⟨j, e, rfl⟩ | h
        · simp only [NState.flat, flat_frame]; exact hd j e
        · simp only [NState.flat, h]; exact .idle
      · rw [gvis_snoc, nvis_snoc, hv]; rfl

/-- C57 for every back end. -/
theorem Backend.signalSafe {A : Backend W} {P : Call → Prop} (hl : A.Linearizable P) (h6 : A.ProgressOK) : A.SignalSafe P where
  distinct := fun _ _ _ _ => frameId_inj
  atomic := by
    intro m0 tr n h
    obtain ⟨gtr, hg, hv⟩ := h.flat
    obtain ⟨str, s, h1, h2, h3, h4⟩ := hl _ _ _ hg
    exact ⟨str, s, h1, h2.trans hv, h3, fun i d hi => h4 _ (by simp only [NState.flat, flat_frame]; exact hi)⟩
  finishes := by
    intro m0 tr n h i c B pc rs r hr
    obtain ⟨gtr, hg, -⟩ := h.flat
    obtain ⟨hB, t, c0, h0, hp, hl⟩ := local_runs hg (frameId i (n.top i)) c B pc rs r
      (by simp only [NState.flat, flat_frame]; exact hr)
    obtain ⟨N, hN, hf⟩ := h6 B hB.isBlock
    exact ⟨N, hN, hf c0 t _ h0 hp hl⟩

/-! ### Runs exist -/

/-- The running frame of thread `i`, left alone, finishes its operation. -/
theorem nfinish_alone {A : Backend W} {P : Call → Prop} {m0 : Mem} (i : Nat) {c : Call}
    {B : Block W c.width} (N : Nat) : ∀ (tr : List NEv) (n : NState W) (pc rs r),
    NRun A P m0 tr n → n.fr i (n.top i) = .run c B pc rs r → Finishes A.e B.code N ⟨pc, rs, n.mem, r⟩ →
    ∃ tr' n' res, NRun A P m0 (tr ++ tr' ++ [.ret i (n.top i) c res]) n' ∧ n'.top = n.top ∧ n'.fr i (n.top i) = .idle ∧
      (∀ ev ∈ tr', ev = .own i (n.top i)) ∧
      ∀ d, d ≠ n.top i → ∀ c B pc rs r, n.fr i d = .run c B pc rs r → ∃ r', n'.fr i d = .run c B pc rs r' := by
  have fin : ∀ (tr : List NEv) (n : NState W) (rs r), NRun A P m0 tr n →
      n.fr i (n.top i) = .run c B B.code.length rs r →
      ∃ tr' n' res, NRun A P m0 (tr ++ tr' ++ [.ret i (n.top i) c res]) n' ∧ n'.top = n.top ∧ n'.fr i (n.top i) = .idle ∧
        (∀ ev ∈ tr', ev = .own i (n.top i)) ∧
        ∀ d, d ≠ n.top i → ∀ c B pc rs r, n.fr i d = .run c B pc rs r → ∃ r', n'.fr i d = .run c B pc rs r' := by
    intro tr n rs r hr hth
    refine ⟨[], { n with fr := updF n.fr i (n.top i) .idle }, c.result B rs, by rw [List.append_nil]; exact hr.snoc (.ret n i c B rs r hth), rfl, ?_, by simp, ?_⟩
    · simp [updF]
    · intro d hd c B pc rs r h; exact ⟨r, by simp [updF, hd, h]⟩
  induction N with
  | zero =>
    intro tr n pc rs r hr hth hf
    have : pc = B.code.length := hf
    subst this
    exact fin tr n rs r hr hth
  | succ N ih =>
    intro tr n pc rs r hr hth hf
    rcases hf with hf | ⟨ins, hi, ⟨c', hq⟩, h3⟩
    · have : pc = B.code.length := hf
      subst this
      exact fin tr n rs r hr hth
    · have hq' := hq
      obtain ⟨ev, hs, _⟩ := hq
      have hstep : NStep A P n (.own i (n.top i))
          ⟨c'.mem, fun j d => if j = i ∧ d = n.top i then .run c B c'.pc c'.rs c'.resv else dropResv (n.fr j d), n.top⟩ := by
        refine .own n i c B pc rs r ins ev c' _ hth hi hs (by simp) ?_
        intro j d hj
        simp only [if_neg hj]
        exact disturbed_drop _ _ _
      obtain ⟨tr', n', res, h1, h2, h2', h4, h5⟩ := ih (tr ++ [.own i (n.top i)]) _ c'.pc c'.rs c'.resv
        (hr.snoc hstep) (by simp) (h3 c' hq')
      refine ⟨.own i (n.top i) :: tr', n', res, by simpa using h1, h2, h2', ?_, ?_⟩
      · intro x hx
        rcases List.mem_cons.1 hx with rfl | hx
        · rfl
        · exact h4 x hx
      · intro d hd c B pc rs r h
        exact h5 d hd c B pc rs none (by simp [hd, h, dropResv])

/-- Runs as in C57 exist: a thread calls `c1`, executes its first instruction (if there is one), is interrupted, the handler calls
`c2`, which returns, the handler returns, and `c1` returns. -/
theorem Backend.interrupted_run {A : Backend W} (h6 : A.ProgressOK) (m0 : Mem) (c1 c2 : Call) (hv1 : c1.Valid) (hv2 : c2.Valid)
    {B1 : Block W c1.width} {B2 : Block W c2.width} (hB1 : A.Runs c1 B1) (hB2 : A.Runs c2 B2) {rs1 rs2 : RS W}
    (hp1 : B1.pre rs1) (hp2 : B2.pre rs2) (hlen : B1.code ≠ []) :
    ∃ t2 t1 r1 r2 n, NRun A (fun _ => True) m0
        ([.inv 0 0 c1, .own 0 0, .enter 0, .inv 0 1 c2] ++ t2 ++ [.ret 0 1 c2 r2, .leave 0] ++ t1 ++ [.ret 0 0 c1 r1]) n ∧
      (∀ x ∈ t2, x = .own 0 1) ∧ ∀ x ∈ t1, x = .own 0 0 := by
  have s1 := (NRun.nil (A := A) (P := fun _ => True) (m0 := m0)).snoc (.inv _ 0 c1 B1 rs1 none rfl trivial hv1 hB1 hp1)
  obtain ⟨N1, -, hf1⟩ := h6 B1 hB1.isBlock
  have hf := hf1 ⟨0, rs1, m0, none⟩ [] ⟨0, rs1, m0, none⟩ rfl hp1 .nil
  obtain ⟨ins, hi, c', hq⟩ : ∃ i, B1.code[0]? = some i ∧ ∃ c', QStep A.e i (⟨0, rs1, m0, none⟩ : Cfg W) c' := by
    have hne : (0 : Nat) ≠ B1.code.length := fun h => hlen (List.eq_nil_of_length_eq_zero h.symm)
    cases N1 with
    | zero => exact absurd hf hne
    | succ N => rcases hf with hf | ⟨i, hi, hc, -⟩
                · exact absurd hf hne
                · exact ⟨i, hi, hc⟩
  obtain ⟨ev, hst, _⟩ := hq
  have s2 := s1.snoc (.own _ 0 c1 B1 0 rs1 none ins ev c' (fun j d => if j = 0 ∧ d = 0 then .run c1 B1 c'.pc c'.rs c'.resv else .idle)
    (by simp [updF]) hi hst (by simp) (by
      rintro j d hj
      simp only [updF] at hj ⊢
      rw [if_neg hj, if_neg hj]; exact .idle))
  have s3 := (s2.snoc (.enter _ 0)).snoc (.inv _ 0 c2 B2 rs2 none (by simp [upd]) trivial hv2 hB2 hp2)
  obtain ⟨N2, -, hf2⟩ := h6 B2 hB2.isBlock
  obtain ⟨t2, n2, r2, h2, ht, hid, ho2, hk⟩ := nfinish_alone 0 N2 _ _ 0 rs2 none s3 (by simp [updF, upd])
    (hf2 ⟨0, rs2, _, none⟩ [] _ rfl hp2 .nil)
  simp only [upd, if_true, Nat.zero_add] at ht hid ho2 hk h2
  have htop : n2.top 0 = 1 := by rw [ht]; simp [upd]
  obtain ⟨r', hfr⟩ := hk 0 (by decide) c1 B1 c'.pc c'.rs c'.resv (by simp [updF])
  have s4 := h2.snoc (.leave _ 0 0 htop hid)
  obtain ⟨gtr, hg, -⟩ := s4.flat
  obtain ⟨-, t, c0, g0, gp, gl⟩ := local_runs hg (frameId 0 0) c1 B1 c'.pc c'.rs r'
    (by simp only [NState.flat, flat_frame]; exact hfr)
  obtain ⟨t1, n1, r1, h1, -, -, ho1, -⟩ := nfinish_alone 0 N1 _ _ c'.pc c'.rs r' s4 (by simp [upd, hfr]) (hf1 c0 t _ g0 gp gl)
  simp only [upd, if_true] at h1 ho1
  refine ⟨t2, t1, r1, r2, n1, ?_, ho2, ho1⟩
  simpa using h1

end Verif
