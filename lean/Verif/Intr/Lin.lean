/-
Linearizability on one core with interrupts, from certificates of the operations.
-/
import Verif.Intr.System
import Verif.Intr.Cert
import Verif.Lin.Conserve

namespace Verif
variable {W : Nat}

/-- The answer of a call from the bits and the boolean its block returns. -/
def Call.ret : (c : Call) → BitVec c.width → Bool → Ret
  | .load _ w _, x, _ => .bits w x
  | .store _ _ _ _, _, _ => .unit
  | .swap _ w _ _, x, _ => .bits w x
  | .cas _ _ w _ _ _, x, ok => .cas w x ok
  | .casWeak _ _ w _ _ _, x, ok => .cas w x ok

theorem Call.result_eq (c : Call) (B : Block W c.width) (rs : RS W) :
    c.result B rs = c.ret (B.out rs) (B.ok rs) := by cases c <;> rfl

/-- A certificate for one block of a call. -/
abbrev CallCert (A : IBackend W) (c : Call) (B : Block W c.width) :=
  Cert A.e A.ien B c.addr (fun m m' out ok => c.Sem A.e m m' (c.ret out ok))

/-- All blocks of the back end have certificates. -/
def IBackend.Certified (A : IBackend W) : Prop :=
  ∀ c B, c.Valid → A.Runs c B → Nonempty (CallCert A c B)

/-- The canonical thread for a call in a phase. -/
def Ph.toS (c : Call) : Ph c.width → SThread
  | .before => .pending c
  | .inside _ => .pending c
  | .after out ok => .done c (c.ret out ok)

/-- Memory of the canonical object. -/
def Ph.smem {w : Nat} (m : Mem) : Ph w → Mem
  | .inside m0 => m0
  | _ => m

/-- An interrupted activation and its canonical thread. -/
def SuspRel (A : IBackend W) : IAct W → SThread → Prop
  | .idle, t => t = .idle
  | .run c B pc rs, t => ∃ (C : CallCert A c B) (ph : Ph c.width),
      (∀ m, C.J ph pc rs m) ∧ (∀ m0, ph ≠ .inside m0) ∧ t = ph.toS c

/-- The running activation, its canonical thread, and the memories of both. -/
def TopRel (A : IBackend W) (m : Mem) : IAct W → SThread → Mem → Prop
  | .idle, t, sm => t = .idle ∧ sm = m
  | .run c B pc rs, t, sm => ∃ (C : CallCert A c B) (ph : Ph c.width),
      C.J ph pc rs m ∧ t = ph.toS c ∧ sm = ph.smem m

/-- All interrupted activations. -/
def SuspAll (A : IBackend W) (th : Nat → SThread) : List (IAct W) → Prop
  | [] => True
  | a :: r => SuspRel A a (th r.length) ∧ SuspAll A th r

theorem suspAll_upd {A : IBackend W} {th : Nat → SThread} {i : Nat} {x : SThread} :
    ∀ {r : List (IAct W)}, r.length ≤ i → SuspAll A th r → SuspAll A (upd th i x) r
  | [], _, _ => trivial
  | a :: r, hi, h => by
    simp only [List.length_cons] at hi
    refine ⟨?_, suspAll_upd (by omega) h.2⟩
    have : r.length ≠ i := by omega
    simpa [upd, this] using h.1

/-- The simulation. -/
structure ISim (A : IBackend W) (g : IState W) (s : SState) : Prop where
  top : TopRel A g.mem g.top (s.th g.rest.length) s.mem
  susp : SuspAll A s.th g.rest
  above : ∀ i, g.rest.length < i → s.th i = .idle

theorem ivis_append (a b : List IEv) : IEv.vis (a ++ b) = IEv.vis a ++ IEv.vis b := by
  induction a with
  | nil => rfl
  | cons x t ih => cases x <;> simp [IEv.vis, ih]
theorem svis_append (a b : List SEv) : SEv.vis (a ++ b) = SEv.vis a ++ SEv.vis b := by
  induction a with
  | nil => rfl
  | cons x t ih => cases x <;> simp [SEv.vis, ih]

theorem upd_same {α : Type _} (f : Nat → α) (i : Nat) (x : α) : upd f i x i = x := by simp [upd]
theorem upd_above {th : Nat → SThread} {n : Nat} {x : SThread} (h : ∀ i, n < i → th i = .idle) :
    ∀ i, n < i → upd th n x i = .idle := by
  intro i hi
  have : i ≠ n := by omega
  simpa [upd, this] using h i hi

/-- One step of the machine is matched by at most one step of the canonical object. -/
theorem isim_step {A : IBackend W} {P : Call → Prop} (hA : A.Certified) {g g' : IState W} {ev : IEv}
    (hs : IStep A P g ev g') {s : SState} (h : ISim A g s) :
    ∃ l s', (l = [] ∧ s' = s ∨ ∃ x, l = [x] ∧ SStep A.e s x s') ∧ SEv.vis l = IEv.vis [ev] ∧ ISim A g' s' := by
  cases hs with
  | inv m rest c B rs hp hv hB hpre =>
    obtain ⟨ht, hsu, hab⟩ := h
    obtain ⟨C⟩ := hA c B hv hB
    refine ⟨_, _, .inr ⟨_, rfl, .inv s rest.length c ht.1⟩, rfl, ⟨?_, suspAll_upd (Nat.le_refl _) hsu, upd_above hab⟩⟩
    exact ⟨C, .before, C.init _ _ hpre, upd_same _ _ _, ht.2⟩
  | own m rest c B pc rs ins ev c' hi hst =>
    obtain ⟨⟨C, ph, hJ, hth, hm⟩, hsu, hab⟩ := h
    obtain ⟨-, ph', hn, hJ'⟩ := C.step ph ins ⟨pc, rs, m, none⟩ ev c' hJ hi hst
    simp only at hth hm hsu hab hn
    have done : ∀ {out ok} (hph : ph' = .after out ok), ph.toS c = .pending c →
        c.Sem A.e s.mem c'.mem (c.ret out ok) →
        ∃ l s', (l = [] ∧ s' = s ∨ ∃ x, l = [x] ∧ SStep A.e s x s') ∧
          SEv.vis l = IEv.vis [IEv.own rest.length ev m c'.mem] ∧
          ISim A ⟨c'.mem, .run c B c'.pc c'.rs, rest⟩ s' := by
      intro out ok hph hpe hsem
      subst hph
      refine ⟨_, _, .inr ⟨_, rfl, .pt s rest.length c (c.ret out ok) c'.mem (hth.trans hpe) hsem⟩, rfl,
        ⟨⟨C, _, hJ', upd_same _ _ _, rfl⟩, suspAll_upd (Nat.le_refl _) hsu, upd_above hab⟩⟩
    generalize hmm : c'.mem = mm at hn done hJ'
    cases hn with
    | stay => exact ⟨[], s, .inl ⟨rfl, rfl⟩, rfl, ⟨⟨C, .before, hJ', hth, hm⟩, hsu, hab⟩⟩
    | enter => exact ⟨[], s, .inl ⟨rfl, rfl⟩, rfl, ⟨⟨C, .inside m, hJ', hth, hm⟩, hsu, hab⟩⟩
    | one hsp => exact done rfl rfl (by rw [hm]; exact hsp)
    | go m0 => exact ⟨[], s, .inl ⟨rfl, rfl⟩, rfl, ⟨⟨C, .inside m0, hJ', hth, hm⟩, hsu, hab⟩⟩
    | leave hsp => exact done rfl rfl (by rw [hm]; exact hsp)
    | rest out ok => exact ⟨[], s, .inl ⟨rfl, rfl⟩, rfl, ⟨⟨C, .after out ok, hJ', hth, hm⟩, hsu, hab⟩⟩
  | ret m rest c B rs =>
    obtain ⟨⟨C, ph, hJ, hth, hm⟩, hsu, hab⟩ := h
    have := C.final _ _ _ hJ
    subst this
    rw [Call.result_eq]
    exact ⟨_, _, .inr ⟨_, rfl, .ret s rest.length c _ hth⟩, rfl,
      ⟨⟨upd_same _ _ _, hm⟩, suspAll_upd (Nat.le_refl _) hsu, upd_above hab⟩⟩
  | ext m rest m' =>
    obtain ⟨⟨ht, hm⟩, hsu, hab⟩ := h
    simp only at hm
    subst hm
    exact ⟨_, _, .inr ⟨_, rfl, .ext s m'⟩, rfl, ⟨⟨ht, rfl⟩, hsu, hab⟩⟩
  | irqIdle m rest =>
    obtain ⟨⟨ht, hm⟩, hsu, hab⟩ := h
    refine ⟨[], s, .inl ⟨rfl, rfl⟩, rfl, ⟨⟨hab _ (Nat.lt_succ_self _), hm⟩, ⟨ht, hsu⟩, ?_⟩⟩
    intro i hi
    simp only [List.length_cons] at hi
    exact hab i (Nat.lt_of_succ_lt hi)
  | irqRun m rest c B pc rs he =>
    obtain ⟨⟨C, ph, hJ, hth, hm⟩, hsu, hab⟩ := h
    have hni := (C.irq _ _ _ _ m hJ he).2
    have hm' : s.mem = m := by
      cases ph with
      | inside m0 => exact absurd rfl (hni m0)
      | _ => exact hm
    refine ⟨[], s, .inl ⟨rfl, rfl⟩, rfl, ⟨⟨hab _ (Nat.lt_succ_self _), hm'⟩,
      ⟨⟨C, ph, fun m' => (C.irq _ _ _ _ m' hJ he).1, hni, hth⟩, hsu⟩, ?_⟩⟩
    intro i hi
    simp only [List.length_cons] at hi
    exact hab i (Nat.lt_of_succ_lt hi)
  | reti m t rest =>
    obtain ⟨⟨ht, hm⟩, ⟨hsr, hsu⟩, hab⟩ := h
    refine ⟨[], s, .inl ⟨rfl, rfl⟩, rfl, ⟨?_, hsu, ?_⟩⟩
    · cases t with
      | idle => exact ⟨hsr, hm⟩
      | run c B pc rs =>
        obtain ⟨C, ph, hJ, hni, hth⟩ := hsr
        refine ⟨C, ph, hJ m, hth, ?_⟩
        cases ph with
        | inside m0 => exact absurd rfl (hni m0)
        | _ => exact hm
    · intro i hi
      rcases Nat.lt_or_ge (rest.length + 1) i with hi' | hi'
      · exact hab i (by simpa using hi')
      · have : i = (t :: rest).length := by simp only [List.length_cons] at *; omega
        subst this
        exact ht

theorem isim_run {A : IBackend W} {P : Call → Prop} (hA : A.Certified) {m0 : Mem} {tr : List IEv} {g : IState W}
    (hr : ISRun A P ⟨m0, .idle, []⟩ tr g) :
    ∃ str s, SRun A.e ⟨m0, fun _ => .idle⟩ str s ∧ SEv.vis str = IEv.vis tr ∧ ISim A g s := by
  induction hr with
  | nil => exact ⟨[], _, .nil, rfl, ⟨⟨rfl, rfl⟩, trivial, fun _ _ => rfl⟩⟩
  | snoc h hs ih =>
    obtain ⟨str, s, h1, h2, h3⟩ := ih
    obtain ⟨l, s', h4, h5, h6⟩ := isim_step hA hs h3
    refine ⟨str ++ l, s', ?_, by rw [svis_append, ivis_append, h2, h5], h6⟩
    rcases h4 with ⟨rfl, rfl⟩ | ⟨x, rfl, h4⟩
    · simpa using h1
    · exact .snoc h1 h4

theorem IBackend.linearizable_of {A : IBackend W} (P : Call → Prop) (hA : A.Certified) : A.Linearizable P := by
  intro m0 tr g hr
  obtain ⟨str, s, h1, h2, h3⟩ := isim_run hA hr
  refine ⟨str, s, h1, h2, ?_, h3.above⟩
  intro ht
  have := h3.top
  rw [ht] at this
  exact ⟨this.2, this.1⟩

theorem IBackend.Linearizable.quiet {A : IBackend W} {P : Call → Prop} (hl : A.Linearizable P) {m0 m : Mem}
    {tr : List IEv} (hr : ISRun A P ⟨m0, .idle, []⟩ tr ⟨m, .idle, []⟩) :
    ∃ str s, SRun A.e ⟨m0, fun _ => .idle⟩ str s ∧ SEv.vis str = IEv.vis tr ∧ s.mem = m ∧ ∀ i, s.th i = .idle := by
  obtain ⟨str, s, h1, h2, h3, h4⟩ := hl m0 tr _ hr
  refine ⟨str, s, h1, h2, (h3 rfl).1, ?_⟩
  intro i
  rcases Nat.eq_zero_or_pos i with rfl | hi
  · exact (h3 rfl).2
  · exact h4 i hi

theorem IBackend.Linearizable.swapConserves {A : IBackend W} {P : Call → Prop}
    (hl : A.Linearizable P) : A.SwapConserves P := by
  intro w a hw hw0 m0 m tr hr hreg
  obtain ⟨str, s, h1, h2, h3, hs⟩ := hl.quiet hr
  obtain ⟨p1, p2⟩ := h1.quiescent hs
  rw [← h2] at hreg ⊢
  have hc := swap_chain hw hw0 h1 (fun i c r hm => hreg.1 i c (h1.pt_inv hm))
    (fun m m' hm => hreg.2 m m' (ext_vis hm))
  rw [← h3]
  refine List.Perm.trans (List.Perm.cons _ ?_) (hc.trans (List.Perm.cons _ ?_))
  · have := List.Perm.flatMap_right (fun x : Nat × Call => swapIn w a x.2) p2
    rw [List.flatMap_map] at this
    exact this
  · exact List.Perm.flatMap_right _ p1

theorem IBackend.Linearizable.noLostUpdates {A : IBackend W} {P : Call → Prop}
    (hl : A.Linearizable P) : A.NoLostUpdates P := by
  intro w a hw hw0 f m0 m tr hr hreg
  obtain ⟨str, s, h1, h2, h3, hs⟩ := hl.quiet hr
  obtain ⟨p1, _⟩ := h1.quiescent hs
  rw [← h2] at hreg ⊢
  have hc := update_chain hw hw0 h1 (fun i c r hm => hreg.1 i c (h1.pt_inv hm))
    (fun m m' hm => hreg.2 m m' (ext_vis hm))
  rw [← h3]
  exact ⟨_, List.Perm.flatMap_right _ p1, hc⟩

end Verif
