/-
On riscv64, mips64 and loongarch64 a strong 32-bit compare_exchange can fail although the values are equal
(`C04_*_word_fails`), as a weak one may. Here: what holds nevertheless, if the calls of `compare_exchange` are
regarded as calls of `compare_exchange_weak`; in particular C31 and C36 hold without exception.
-/
import Verif.Lin.Conserve
import Verif.Core.BackendLemmas
import Verif.Lin.Proof

namespace Verif

/-- A call of `compare_exchange` regarded as one of `compare_exchange_weak`. -/
def Call.weaken : Call → Call
  | .cas s f w a old new => .casWeak s f w a old new
  | c => c

/-- The back end, with its `compare_exchange` offered as another `compare_exchange_weak`. -/
def Backend.weakened {W : Nat} (A : Backend W) : Backend W :=
  { A with
    Cas := fun _ _ _ _ _ _ _ => False
    CasWeak := fun s f w a old new B => A.Cas s f w a old new B ∨ A.CasWeak s f w a old new B }

variable {W : Nat}

theorem Good.weakened {A : Backend W} {sc : List Mon} (h : Good A sc) : Good A.weakened sc where
  load := h.load
  store := h.store
  swap := h.swap
  cas := fun _ _ _ _ _ _ _ hB => hB.elim
  casWeak := fun s f w a old new B hB => hB.elim (h.cas s f w a old new B) (h.casWeak s f w a old new B)
  ord := h.ord

theorem Backend.weakened_progress {A : Backend W} (h : A.ProgressOK) : A.weakened.ProgressOK := by
  intro w B hB
  refine h B ?_
  cases hB with
  | load h => exact .load h
  | store h => exact .store h
  | swap h => exact .swap h
  | cas h => exact h.elim
  | casWeak h => exact h.elim .cas .casWeak

/-- C21 of a back end whose `compare_exchange` is only weak. -/
theorem Good.linearizable_weakened {A : Backend W} {sc : List Mon} (h : Good A sc) (hp : A.ProgressOK) :
    A.weakened.Linearizable (fun _ => True) :=
  Backend.linearizable_of _ h.weakened.loadsAtomic h.weakened.storesAtomic h.weakened.swapsAtomic
    (fun _ _ _ _ _ _ _ _ hB => hB.elim) h.weakened.weakCasAtomic (Backend.weakened_progress hp)

/-! ### Runs -/

def HEv.weaken : HEv → HEv
  | .inv i c => .inv i c.weaken
  | .ret i c r => .ret i c.weaken r
def GEv.weaken : GEv → GEv
  | .h x => .h x.weaken
  | .own i ev m m' => .own i ev m m'
  | .ext m m' => .ext m m'
def VEv.weaken : VEv → VEv
  | .h x => .h x.weaken
  | .ext m m' => .ext m m'
def Thread.weaken : Thread W → Thread W
  | .run (.cas s f w a old new) B pc rs r => .run (.casWeak s f w a old new) B pc rs r
  | t => t

theorem disturbed_weaken {m m' : Mem} {t t' : Thread W} (h : Disturbed m m' t t') : Disturbed m m' t.weaken t'.weaken := by
  cases h with
  | idle => exact .idle
  | run c B pc rs r r' h => cases c <;> exact .run _ _ _ _ _ _ h

theorem upd_weaken (th : Nat → Thread W) (i : Nat) (t : Thread W) :
    (fun j => (upd th i t j).weaken) = upd (fun j => (th j).weaken) i t.weaken := by
  funext j; simp only [upd]; split <;> rfl

theorem gstep_weaken {A : Backend W} {P : Call → Prop} {g g' : GState W} {ev : GEv} (h : GStep A P g ev g') :
    GStep A.weakened (fun _ => True) ⟨g.mem, fun i => (g.th i).weaken⟩ ev.weaken ⟨g'.mem, fun i => (g'.th i).weaken⟩ := by
  cases h with
  | inv i c B rs r hidle hp hv hB hpre =>
    simp only [upd_weaken]
    cases c
    case cas s f w a old new =>
      exact .inv ⟨g.mem, fun i => (g.th i).weaken⟩ i (.casWeak s f w a old new) B rs r
        (by simp only [hidle]; rfl) trivial hv (.inl hB) hpre
    case casWeak s f w a old new =>
      exact .inv ⟨g.mem, fun i => (g.th i).weaken⟩ i (.casWeak s f w a old new) B rs r
        (by simp only [hidle]; rfl) trivial hv (.inr hB) hpre
    all_goals
      exact .inv ⟨g.mem, fun i => (g.th i).weaken⟩ i _ B rs r (by simp only [hidle]; rfl) trivial hv hB hpre
  | own i c B pc rs r ins ev c' th' hrun hi hs hth hd =>
    cases c
    case cas s f w a old new =>
      exact .own ⟨g.mem, fun i => (g.th i).weaken⟩ i (.casWeak s f w a old new) B pc rs r ins ev c' (fun i => (th' i).weaken)
        (by simp only [hrun]; rfl) hi hs (by simp only [hth]; rfl) fun j hj => disturbed_weaken (hd j hj)
    all_goals
      exact .own ⟨g.mem, fun i => (g.th i).weaken⟩ i _ B pc rs r ins ev c' (fun i => (th' i).weaken)
        (by simp only [hrun]; rfl) hi hs (by simp only [hth]; rfl) fun j hj => disturbed_weaken (hd j hj)
  | ret i c B rs r hrun =>
    simp only [upd_weaken]
    cases c
    case cas s f w a old new =>
      exact .ret ⟨g.mem, fun i => (g.th i).weaken⟩ i (.casWeak s f w a old new) B rs r (by simp only [hrun]; rfl)
    all_goals
      exact .ret ⟨g.mem, fun i => (g.th i).weaken⟩ i _ B rs r (by simp only [hrun]; rfl)
  | ext m' th' hd =>
    exact .ext ⟨g.mem, fun i => (g.th i).weaken⟩ m' (fun i => (th' i).weaken) fun j => disturbed_weaken (hd j)

theorem grun_weaken {A : Backend W} {P : Call → Prop} {m0 : Mem} {tr : List GEv} {g : GState W}
    (h : GRun A P ⟨m0, fun _ => .idle⟩ tr g) :
    GRun A.weakened (fun _ => True) ⟨m0, fun _ => .idle⟩ (tr.map GEv.weaken) ⟨g.mem, fun i => (g.th i).weaken⟩ := by
  induction h with
  | nil => exact .nil
  | snoc h hs ih => rw [List.map_append]; exact .snoc ih (gstep_weaken hs)

theorem vis_weaken (tr : List GEv) : GEv.vis (tr.map GEv.weaken) = (GEv.vis tr).map VEv.weaken := by
  induction tr with
  | nil => rfl
  | cons x t ih => cases x <;> simp [GEv.weaken, GEv.vis, VEv.weaken, ih]

theorem rets_weaken (v : List VEv) : VEv.rets (v.map VEv.weaken) = (VEv.rets v).map fun z => (z.1, z.2.1.weaken, z.2.2) := by
  induction v with
  | nil => rfl
  | cons x t ih =>
    cases x with
    | h y => cases y <;> simp [VEv.weaken, HEv.weaken, VEv.rets, ih]
    | ext => simp [VEv.weaken, VEv.rets, ih]
theorem invs_weaken (v : List VEv) : VEv.invs (v.map VEv.weaken) = (VEv.invs v).map fun z => (z.1, z.2.weaken) := by
  induction v with
  | nil => rfl
  | cons x t ih =>
    cases x with
    | h y => cases y <;> simp [VEv.weaken, HEv.weaken, VEv.invs, ih]
    | ext => simp [VEv.weaken, VEv.invs, ih]

theorem on_weaken (c : Call) (w a : Nat) : c.weaken.On w a ↔ c.On w a := by cases c <;> exact Iff.rfl
theorem off_weaken (c : Call) (w a : Nat) : c.weaken.Off w a ↔ c.Off w a := by cases c <;> exact Iff.rfl
theorem swapIn_weaken (w a : Nat) (c : Call) : swapIn w a c.weaken = swapIn w a c := by cases c <;> rfl
theorem swapOut_weaken (w a : Nat) (c : Call) (r : Ret) : swapOut w a c.weaken r = swapOut w a c r := by
  cases c <;> cases r <;> rfl
theorem casOk_weaken (w a i : Nat) (c : Call) (r : Ret) : casOk w a i c.weaken r = casOk w a i c r := by
  cases c
  case cas => cases r with
    | cas _ _ ok => cases ok <;> rfl
    | _ => rfl
  all_goals rfl

theorem vregular_weaken {e : Endian} {w a : Nat} {Q Q' : Nat → Call → Prop} (hQ : ∀ i c, Q i c → Q' i c.weaken) {v : List VEv}
    (h : VRegular e w a Q v) : VRegular e w a Q' (v.map VEv.weaken) := by
  constructor
  · intro i c hm
    obtain ⟨x, hx, he⟩ := List.mem_map.1 hm
    cases x with
    | ext => cases he
    | h y =>
      cases y with
      | ret => cases he
      | inv j d =>
        injection he with he
        injection he with he1 he2
        subst he1 he2
        rcases h.1 _ _ hx with ⟨h1, h2⟩ | h1
        · exact .inl ⟨(on_weaken _ _ _).2 h1, hQ _ _ h2⟩
        · exact .inr ((off_weaken _ _ _).2 h1)
  · intro m m' hm
    obtain ⟨x, hx, he⟩ := List.mem_map.1 hm
    cases x with
    | ext => cases he; exact h.2 _ _ hx
    | h => cases he

/-- C36 for a back end whose `compare_exchange` is only weak. -/
theorem Backend.swapConserves_of_weakened {A : Backend W} (h : A.weakened.SwapConserves fun _ => True) (P : Call → Prop) :
    A.SwapConserves P := by
  intro w a hw hw0 m0 tr g hr hq hreg
  have := h w a hw hw0 m0 _ _ (grun_weaken hr) (fun i => by simp only [hq]; rfl) (by
    rw [vis_weaken]
    exact vregular_weaken (fun i c hc => by cases c <;> first | exact hc | cases hc) hreg)
  rw [vis_weaken, rets_weaken, invs_weaken, List.flatMap_map, List.flatMap_map] at this
  simp only [swapIn_weaken, swapOut_weaken] at this
  exact this

/-- C31 for a back end whose `compare_exchange` is only weak. -/
theorem Backend.noLostUpdates_of_weakened {A : Backend W} (h : A.weakened.NoLostUpdates fun _ => True) (P : Call → Prop) :
    A.NoLostUpdates P := by
  intro w a hw hw0 f m0 tr g hr hq hreg
  have := h w a hw hw0 f m0 _ _ (grun_weaken hr) (fun i => by simp only [hq]; rfl) (by
    rw [vis_weaken]
    exact vregular_weaken (fun i c hc => by cases c <;> first | exact hc | cases hc) hreg)
  rw [vis_weaken, rets_weaken, List.flatMap_map] at this
  simp only [casOk_weaken] at this
  exact this

end Verif
