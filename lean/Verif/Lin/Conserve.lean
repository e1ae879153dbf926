/-
C36 (swap conserves values) and C31 (no lost updates): proofs.
-/
import Verif.Lin.HistoryProof

namespace Verif

theorem upd_self {α : Type _} (f : Nat → α) (i : Nat) : upd f i (f i) = f := by
  funext j; simp only [upd]; split
  · rename_i h; rw [h]
  · rfl

/-- what the threads in `act` hold -/
def heldBy {β : Type} (held : Nat → SThread → List β) (th : Nat → SThread) (act : List Nat) : List β :=
  act.flatMap fun j => held j (th j)

theorem heldBy_upd_notMem {β : Type} {held : Nat → SThread → List β} {th : Nat → SThread} {act : List Nat}
    {i : Nat} {x : SThread} (h : i ∉ act) : heldBy held (upd th i x) act = heldBy held th act := by
  induction act with
  | nil => rfl
  | cons j act ih =>
    simp only [List.mem_cons, not_or] at h
    have : j ≠ i := fun hj => h.1 hj.symm
    simp only [heldBy, List.flatMap_cons] at ih ⊢
    rw [ih h.2]
    simp [upd, this]

theorem heldBy_upd {β : Type} (held : Nat → SThread → List β) (th : Nat → SThread) {act : List Nat} {i : Nat}
    (hn : act.Nodup) (hi : i ∈ act) :
    ∃ R, ∀ x, List.Perm (heldBy held (upd th i x) act) (held i x ++ R) := by
  obtain ⟨l1, l2, rfl⟩ := List.append_of_mem hi
  rw [List.nodup_append] at hn
  obtain ⟨h1, h2, h3⟩ := hn
  rw [List.nodup_cons] at h2
  have hi1 : i ∉ l1 := fun h => h3 i h i (by simp) rfl
  refine ⟨heldBy held th l1 ++ heldBy held th l2, fun x => ?_⟩
  have e1 := heldBy_upd_notMem (held := held) (th := th) (x := x) hi1
  have e2 := heldBy_upd_notMem (held := held) (th := th) (x := x) h2.1
  have : heldBy held (upd th i x) (l1 ++ i :: l2) = heldBy held th l1 ++ (held i x ++ heldBy held th l2) := by
    simp only [heldBy, List.flatMap_append, List.flatMap_cons] at e1 e2 ⊢
    rw [e1, e2]
    simp [upd]
  rw [this, ← List.append_assoc, ← List.append_assoc]
  exact List.Perm.append_right _ List.perm_append_comm

theorem pts_append (a b : List SEv) : SEv.pts (a ++ b) = SEv.pts a ++ SEv.pts b := by
  induction a with
  | nil => rfl
  | cons x t ih => cases x <;> simp [SEv.pts, ih]
theorem rets_append (a b : List VEv) : VEv.rets (a ++ b) = VEv.rets a ++ VEv.rets b := by
  induction a with
  | nil => rfl
  | cons x t ih =>
    cases x with
    | h y => cases y <;> simp [VEv.rets, ih]
    | ext => simp [VEv.rets, ih]
theorem invs_append (a b : List VEv) : VEv.invs (a ++ b) = VEv.invs a ++ VEv.invs b := by
  induction a with
  | nil => rfl
  | cons x t ih =>
    cases x with
    | h y => cases y <;> simp [VEv.invs, ih]
    | ext => simp [VEv.invs, ih]

/-- answers not yet returned -/
def heldRet (i : Nat) : SThread → List (Nat × Call × Ret)
  | .done c r => [(i, c, r)]
  | _ => []
/-- calls that have not yet taken effect -/
def heldCall (i : Nat) : SThread → List (Nat × Call)
  | .pending c => [(i, c)]
  | _ => []

/-- Effects correspond to answers and to calls, up to what is in flight. -/
theorem SRun.counts {e : Endian} {m0 : Mem} {str : List SEv} {s : SState}
    (h : SRun e ⟨m0, fun _ => .idle⟩ str s) :
    ∃ act : List Nat, act.Nodup ∧ (∀ i, i ∉ act → s.th i = .idle) ∧
      List.Perm (SEv.pts str) (VEv.rets (SEv.vis str) ++ heldBy heldRet s.th act) ∧
      List.Perm (VEv.invs (SEv.vis str))
        ((SEv.pts str).map (fun x => (x.1, x.2.1)) ++ heldBy heldCall s.th act) := by
  induction h with
  | nil => exact ⟨[], List.nodup_nil, fun _ _ => rfl, List.Perm.refl _, List.Perm.refl _⟩
  | snoc h hs ih =>
    rename_i tr s ev s'
    obtain ⟨act, hn, hidle, h1, h2⟩ := ih
    rw [vis_append_s, pts_append]
    cases hs with
    | ext m' =>
      refine ⟨act, hn, hidle, ?_, ?_⟩
      · simpa [SEv.vis, SEv.pts, rets_append, VEv.rets] using h1
      · simpa [SEv.vis, SEv.pts, invs_append, VEv.invs] using h2
    | inv i c hth =>
      -- make sure that `i` is in the list
      obtain ⟨act, hn, hidle, h1, h2, hi⟩ : ∃ act : List Nat, act.Nodup ∧ (∀ i, i ∉ act → s.th i = .idle) ∧
          List.Perm (SEv.pts tr) (VEv.rets (SEv.vis tr) ++ heldBy heldRet s.th act) ∧
          List.Perm (VEv.invs (SEv.vis tr))
            ((SEv.pts tr).map (fun x => (x.1, x.2.1)) ++ heldBy heldCall s.th act) ∧ i ∈ act := by
        by_cases hi : i ∈ act
        · exact ⟨act, hn, hidle, h1, h2, hi⟩
        · refine ⟨i :: act, List.nodup_cons.2 ⟨hi, hn⟩, fun j hj => hidle j fun h => hj (by simp [h]), ?_, ?_, by simp⟩
          · simpa [heldBy, hth, heldRet] using h1
          · simpa [heldBy, hth, heldCall] using h2
      obtain ⟨R1, hR1⟩ := heldBy_upd heldRet s.th hn hi
      obtain ⟨R2, hR2⟩ := heldBy_upd heldCall s.th hn hi
      refine ⟨act, hn, ?_, ?_, ?_⟩
      · intro j hj
        have : j ≠ i := fun h => hj (h ▸ hi)
        simp only [upd, if_neg this]; exact hidle j hj
      · simp only [SEv.vis, SEv.pts, rets_append, VEv.rets, List.append_nil]
        refine h1.trans (List.Perm.append_left _ ?_)
        have := hR1 (s.th i)
        rw [upd_self, hth] at this
        exact this.trans (hR1 (.pending c)).symm
      · simp only [SEv.vis, SEv.pts, invs_append, VEv.invs, List.append_nil]
        have := hR2 (s.th i)
        rw [upd_self, hth] at this
        have h2' := h2.trans (List.Perm.append_left _ this)
        refine (List.Perm.append_right _ h2').trans ?_
        rw [List.append_assoc]
        refine List.Perm.append_left _ ?_
        exact (List.perm_append_comm).trans (hR2 (.pending c)).symm
    | pt i c r m' hth hsem =>
      have hi : i ∈ act := Decidable.byContradiction fun hi => by rw [hidle i hi] at hth; cases hth
      obtain ⟨R1, hR1⟩ := heldBy_upd heldRet s.th hn hi
      obtain ⟨R2, hR2⟩ := heldBy_upd heldCall s.th hn hi
      refine ⟨act, hn, ?_, ?_, ?_⟩
      · intro j hj
        have : j ≠ i := fun h => hj (h ▸ hi)
        simp only [upd, if_neg this]; exact hidle j hj
      · simp only [SEv.vis, SEv.pts, rets_append, VEv.rets, List.append_nil]
        have := hR1 (s.th i)
        rw [upd_self, hth] at this
        have h1' := h1.trans (List.Perm.append_left _ this)
        refine (List.Perm.append_right _ h1').trans ?_
        rw [List.append_assoc]
        refine List.Perm.append_left _ ?_
        exact (List.perm_append_comm).trans (hR1 (.done c r)).symm
      · simp only [SEv.vis, SEv.pts, invs_append, VEv.invs, List.append_nil, List.map_append, List.map_cons,
          List.map_nil, List.append_assoc]
        have := hR2 (s.th i)
        rw [upd_self, hth] at this
        refine h2.trans (List.Perm.append_left _ (this.trans ?_))
        simp only [heldCall, List.cons_append, List.nil_append]
        exact List.Perm.cons _ (hR2 (.done c r)).symm
    | ret i c r hth =>
      have hi : i ∈ act := Decidable.byContradiction fun hi => by rw [hidle i hi] at hth; cases hth
      obtain ⟨R1, hR1⟩ := heldBy_upd heldRet s.th hn hi
      obtain ⟨R2, hR2⟩ := heldBy_upd heldCall s.th hn hi
      refine ⟨act, hn, ?_, ?_, ?_⟩
      · intro j hj
        have : j ≠ i := fun h => hj (h ▸ hi)
        simp only [upd, if_neg this]; exact hidle j hj
      · simp only [SEv.vis, SEv.pts, rets_append, VEv.rets, List.append_nil, List.append_assoc]
        have := hR1 (s.th i)
        rw [upd_self, hth] at this
        refine h1.trans (List.Perm.append_left _ (this.trans ?_))
        simp only [heldRet, List.cons_append, List.nil_append]
        exact List.Perm.cons _ (hR1 .idle).symm
      · simp only [SEv.vis, SEv.pts, invs_append, VEv.invs, List.append_nil]
        refine h2.trans (List.Perm.append_left _ ?_)
        have := hR2 (s.th i)
        rw [upd_self, hth] at this
        exact this.trans (hR2 .idle).symm

/-- At a quiescent point, effects are exactly answers and exactly calls. -/
theorem SRun.quiescent {e : Endian} {m0 : Mem} {str : List SEv} {s : SState}
    (h : SRun e ⟨m0, fun _ => .idle⟩ str s) (hq : ∀ i, s.th i = .idle) :
    List.Perm (SEv.pts str) (VEv.rets (SEv.vis str)) ∧
      List.Perm (VEv.invs (SEv.vis str)) ((SEv.pts str).map fun x => (x.1, x.2.1)) := by
  obtain ⟨act, _, _, h1, h2⟩ := h.counts
  have hz : ∀ {β : Type} (held : Nat → SThread → List β), (∀ i, held i .idle = []) →
      heldBy held s.th act = [] := by
    intro β held hh
    simp [heldBy, hq, hh]
  rw [hz heldRet fun _ => rfl, List.append_nil] at h1
  rw [hz heldCall fun _ => rfl, List.append_nil] at h2
  exact ⟨h1, h2⟩

/-- calls that took effect were made -/
theorem SRun.pt_inv {e : Endian} {m0 : Mem} {str : List SEv} {s : SState}
    (h : SRun e ⟨m0, fun _ => .idle⟩ str s) {i : Nat} {c : Call} {r : Ret} (hm : SEv.pt i c r ∈ str) :
    VEv.h (.inv i c) ∈ SEv.vis str := by
  have hp : ∀ l : List SEv, SEv.pt i c r ∈ l → (i, c, r) ∈ SEv.pts l := by
    intro l
    induction l with
    | nil => intro h; simp at h
    | cons x t ih =>
      intro h
      rcases List.mem_cons.1 h with rfl | h'
      · simp [SEv.pts]
      · cases x <;> simp [SEv.pts, ih h']
  have hi : ∀ l : List VEv, (i, c) ∈ VEv.invs l → VEv.h (.inv i c) ∈ l := by
    intro l
    induction l with
    | nil => intro h; simp [VEv.invs] at h
    | cons x t ih =>
      intro h
      cases x with
      | h y =>
        cases y with
        | inv j d =>
          simp only [VEv.invs, List.mem_cons] at h
          rcases h with h | h
          · cases h; simp
          · exact List.mem_cons_of_mem _ (ih h)
        | ret => exact List.mem_cons_of_mem _ (ih h)
      | ext => exact List.mem_cons_of_mem _ (ih h)
  obtain ⟨act, _, _, _, h2⟩ := h.counts
  apply hi
  refine h2.mem_iff.2 (List.mem_append.2 (.inl (List.mem_map.2 ⟨(i, c, r), hp _ hm, rfl⟩)))

theorem ext_vis {m m' : Mem} {str : List SEv} (h : SEv.ext m m' ∈ str) : VEv.ext m m' ∈ SEv.vis str := by
  induction str with
  | nil => simp at h
  | cons x t ih =>
    rcases List.mem_cons.1 h with rfl | h'
    · simp [SEv.vis]
    · cases x <;> simp [SEv.vis, ih h']

/-! ### C36 -/

theorem off_swap {w a : Nat} {c : Call} {r : Ret} (hw : w % 8 = 0) (hw0 : w ≠ 0) (h : c.Off w a) :
    swapIn w a c = [] ∧ swapOut w a c r = [] ∧ ∀ i, casOk w a i c r = [] := by
  have : ¬ (c.width = w ∧ c.addr = a) := by
    rintro ⟨h1, h2⟩; unfold Call.Off at h; rw [h1, h2] at h; omega
  cases c <;> cases r <;> simp only [Call.width, Call.addr] at this <;>
    simp [swapIn, swapOut, casOk, this] <;> (intros; split <;> simp_all)

theorem swap_chain {e : Endian} {w a : Nat} (hw : w % 8 = 0) (hw0 : w ≠ 0) {s0 s : SState} {str : List SEv}
    (h : SRun e s0 str s)
    (hpt : ∀ i c r, SEv.pt i c r ∈ str → (c.On w a ∧ LoadOrSwap i c) ∨ c.Off w a)
    (hext : ∀ m m', SEv.ext m m' ∈ str → load e m' a w = load e m a w) :
    List.Perm (load e s0.mem a w :: (SEv.pts str).flatMap fun (_, c, _) => swapIn w a c)
      (load e s.mem a w :: (SEv.pts str).flatMap fun (_, c, r) => swapOut w a c r) := by
  induction h with
  | nil => exact List.Perm.refl _
  | snoc h hs ih =>
    rename_i tr s ev s'
    have ih := ih (fun i c r hm => hpt i c r (List.mem_append.2 (.inl hm)))
      (fun m m' hm => hext m m' (List.mem_append.2 (.inl hm)))
    rw [pts_append]
    cases hs with
    | inv => simpa [SEv.pts] using ih
    | ret => simpa [SEv.pts] using ih
    | ext m' => rw [show load e m' a w = _ from hext s.mem m' (by simp)]; simpa [SEv.pts] using ih
    | pt i c r m' hth hsem =>
      simp only [SEv.pts, List.flatMap_append, List.flatMap_cons, List.flatMap_nil, List.append_nil]
      rcases hpt i c r (by simp) with ⟨hon, hq⟩ | hoff
      · cases c with
        | load o w' a' =>
          obtain ⟨v, ⟨rfl, rfl⟩, rfl⟩ := hsem
          simpa [swapIn, swapOut] using ih
        | swap o w' a' v =>
          obtain ⟨rfl, rfl⟩ : w' = w ∧ a' = a := hon
          obtain ⟨x, ⟨rfl, rfl⟩, rfl⟩ := hsem
          simp only [swapIn, swapOut, and_self, if_true, BitVec.setWidth_eq, load_store hw]
          -- init :: ins ++ [v] ~ v :: outs ++ [cur]
          have h1 := List.Perm.append_right [v] ih
          refine List.Perm.trans h1 ?_
          refine List.Perm.trans List.perm_append_comm ?_
          refine List.Perm.cons _ ?_
          exact (List.perm_append_comm (l₁ := [load e s.mem a' w']))
        | store => cases hq
        | cas => cases hq
        | casWeak => cases hq
      · obtain ⟨h1, h2, _⟩ := off_swap (r := r) hw hw0 hoff
        rw [h1, h2, List.append_nil, List.append_nil, sem_off hw hsem hoff]
        exact ih

/-- C36 from linearizability. -/
theorem Backend.Linearizable.swapConserves {W : Nat} {A : Backend W} {P : Call → Prop}
    (hl : A.Linearizable P) : A.SwapConserves P := by
  intro w a hw hw0 m0 tr g hr hq hreg
  obtain ⟨str, s, h1, h2, h3, h4⟩ := hl m0 tr g hr
  have hs : ∀ i, s.th i = .idle := fun i => h4 i (hq i)
  obtain ⟨p1, p2⟩ := h1.quiescent hs
  rw [← h2] at hreg ⊢
  have hc := swap_chain hw hw0 h1 (fun i c r hm => hreg.1 i c (h1.pt_inv hm))
    (fun m m' hm => hreg.2 m m' (ext_vis hm))
  rw [← h3]
  refine List.Perm.trans (List.Perm.cons _ ?_) (hc.trans (List.Perm.cons _ ?_))
  · have := List.Perm.flatMap_right (fun x : Nat × Call => swapIn w a x.2) p2
    rw [List.flatMap_map] at this
    exact this
  · exact List.Perm.flatMap_right _ p1

/-! ### C31 -/

theorem updateChain_append {w : Nat} {x y z : BitVec w} {l l' : List (Nat × BitVec w × BitVec w)}
    (h : UpdateChain x l y) (h' : UpdateChain y l' z) : UpdateChain x (l ++ l') z := by
  induction l generalizing x with
  | nil => cases (show x = y from h); exact h'
  | cons p l ih => obtain ⟨i, old, new⟩ := p; exact ⟨h.1, ih h.2⟩

theorem update_chain {e : Endian} {w a : Nat} (hw : w % 8 = 0) (hw0 : w ≠ 0)
    {f : Nat → BitVec w → Option (BitVec w)} {s0 s : SState}
    {str : List SEv} (h : SRun e s0 str s)
    (hpt : ∀ i c r, SEv.pt i c r ∈ str → (c.On w a ∧ UpdateBy f i c) ∨ c.Off w a)
    (hext : ∀ m m', SEv.ext m m' ∈ str → load e m' a w = load e m a w) :
    UpdateChain (load e s0.mem a w) ((SEv.pts str).flatMap fun (i, c, r) => casOk w a i c r)
      (load e s.mem a w) ∧
    ∀ i old new, (i, old, new) ∈ ((SEv.pts str).flatMap fun (i, c, r) => casOk w a i c r) →
      f i old = some new := by
  induction h with
  | nil => exact ⟨rfl, by simp [SEv.pts]⟩
  | snoc h hs ih =>
    rename_i tr s ev s'
    have ih := ih (fun i c r hm => hpt i c r (List.mem_append.2 (.inl hm)))
      (fun m m' hm => hext m m' (List.mem_append.2 (.inl hm)))
    rw [pts_append]
    cases hs with
    | inv => simpa [SEv.pts] using ih
    | ret => simpa [SEv.pts] using ih
    | ext m' => rw [show load e m' a w = _ from hext s.mem m' (by simp)]; simpa [SEv.pts] using ih
    | pt i c r m' hth hsem =>
      simp only [SEv.pts, List.flatMap_append, List.flatMap_cons, List.flatMap_nil, List.append_nil]
      have key : UpdateChain (load e s.mem a w) (casOk w a i c r) (load e m' a w) ∧
          ∀ j old new, (j, old, new) ∈ casOk w a i c r → f j old = some new := by
        rcases hpt i c r (by simp) with ⟨hon, hq⟩ | hoff
        · cases c with
          | load o w' a' =>
            obtain ⟨v, ⟨rfl, rfl⟩, rfl⟩ := hsem
            exact ⟨rfl, by simp [casOk]⟩
          | swap => cases hq
          | store => cases hq
          | cas so fo w' a' old new =>
            obtain ⟨rfl, rfl⟩ : w' = w ∧ a' = a := hon
            obtain ⟨x, ok, ⟨rfl, ⟨h1, rfl, rfl⟩ | ⟨h1, rfl, rfl⟩⟩, rfl⟩ := hsem
            · simp only [casOk, and_self, if_true, BitVec.setWidth_eq, load_store hw]
              refine ⟨⟨h1, rfl⟩, ?_⟩
              intro j o n hm
              simp only [List.mem_singleton, Prod.mk.injEq] at hm
              obtain ⟨rfl, rfl, rfl⟩ := hm
              simpa [UpdateBy] using hq
            · exact ⟨rfl, by simp [casOk]⟩
          | casWeak so fo w' a' old new =>
            obtain ⟨rfl, rfl⟩ : w' = w ∧ a' = a := hon
            obtain ⟨x, ok, ⟨rfl, ⟨h1, rfl, rfl⟩ | ⟨rfl, rfl⟩⟩, rfl⟩ := hsem
            · simp only [casOk, and_self, if_true, BitVec.setWidth_eq, load_store hw]
              refine ⟨⟨h1, rfl⟩, ?_⟩
              intro j o n hm
              simp only [List.mem_singleton, Prod.mk.injEq] at hm
              obtain ⟨rfl, rfl, rfl⟩ := hm
              simpa [UpdateBy] using hq
            · exact ⟨rfl, by simp [casOk]⟩
        · obtain ⟨_, _, h3⟩ := off_swap (r := r) hw hw0 hoff
          rw [h3 i, sem_off hw hsem hoff]
          exact ⟨rfl, by simp⟩
      refine ⟨updateChain_append ih.1 key.1, ?_⟩
      intro j old new hm
      rcases List.mem_append.1 hm with hm | hm
      · exact ih.2 j old new hm
      · exact key.2 j old new hm

/-- C31 from linearizability. -/
theorem Backend.Linearizable.noLostUpdates {W : Nat} {A : Backend W} {P : Call → Prop}
    (hl : A.Linearizable P) : A.NoLostUpdates P := by
  intro w a hw hw0 f m0 tr g hr hq hreg
  obtain ⟨str, s, h1, h2, h3, h4⟩ := hl m0 tr g hr
  have hs : ∀ i, s.th i = .idle := fun i => h4 i (hq i)
  obtain ⟨p1, _⟩ := h1.quiescent hs
  rw [← h2] at hreg ⊢
  have hc := update_chain hw hw0 h1 (fun i c r hm => hreg.1 i c (h1.pt_inv hm))
    (fun m m' hm => hreg.2 m m' (ext_vis hm))
  rw [← h3]
  exact ⟨_, List.Perm.flatMap_right _ p1, hc⟩

/-- A chain of additions adds up. -/
theorem updateChain_sum {w : Nat} {x y : BitVec w} {l : List (Nat × BitVec w × BitVec w)} (d : Nat → BitVec w)
    (h : UpdateChain x l y) (hl : ∀ i old new, (i, old, new) ∈ l → new = old + d i) :
    y = x + (l.map fun p => d p.1).foldr (· + ·) 0 := by
  induction l generalizing x with
  | nil => cases (show x = y from h); simp
  | cons p l ih =>
    obtain ⟨i, old, new⟩ := p
    obtain ⟨rfl, h2⟩ := h
    rw [ih h2 fun j o n hm => hl j o n (List.mem_cons_of_mem _ hm)]
    rw [hl i x new (by simp)]
    simp [BitVec.add_assoc]

theorem perm_sum {w : Nat} {l l' : List (BitVec w)} (h : List.Perm l l') :
    l.foldr (· + ·) 0 = l'.foldr (· + ·) 0 := by
  induction h with
  | nil => rfl
  | cons x _ ih => rw [List.foldr_cons, List.foldr_cons, ih]
  | swap x y l => simp only [List.foldr_cons]; rw [← BitVec.add_assoc, BitVec.add_comm y x, BitVec.add_assoc]
  | trans _ _ h1 h2 => exact h1.trans h2

/-- C31 for counters: if thread `i` adds `d i` with every update, the final value is the initial value plus
the sum over the successful updates. -/
theorem Backend.NoLostUpdates.counter {W : Nat} {A : Backend W} {P : Call → Prop} (hn : A.NoLostUpdates P)
    (w a : Nat) (hw : w % 8 = 0) (hw0 : w ≠ 0) (d : Nat → BitVec w) (m0 : Mem) (tr : List GEv)
    (g : GState W) (hr : GRun A P ⟨m0, fun _ => .idle⟩ tr g) (hq : ∀ i, g.th i = .idle)
    (hreg : VRegular A.e w a (UpdateBy fun i v => some (v + d i)) (GEv.vis tr)) :
    load A.e g.mem a w = load A.e m0 a w +
      (((VEv.rets (GEv.vis tr)).flatMap fun (i, c, r) => casOk w a i c r).map fun p => d p.1).foldr
        (· + ·) 0 := by
  obtain ⟨l, h1, h2, h3⟩ := hn w a hw hw0 _ m0 tr g hr hq hreg
  rw [updateChain_sum d h2 fun i o n hm => (Option.some.inj (h3 i o n hm)).symm]
  rw [perm_sum (h1.map _)]

end Verif
