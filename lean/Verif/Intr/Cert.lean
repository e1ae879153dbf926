/-
Proof method for atomic sections: a phase (before, inside, after the section) is attached to every point of
a run.
-/
import Verif.Intr.Spec
import Verif.Core.Attr
import Verif.Core.Alloc

namespace Verif

/-- Where a run is: before its atomic section, inside (the section started in memory `m`), or after (the
result is known). -/
inductive Ph (w : Nat) where
  | before
  | inside (m : Mem)
  | after (out : BitVec w) (ok : Bool)

/-- Phase change allowed in an own step from memory `m` to `m'`. -/
inductive Ph.Next {w : Nat} (spec : Mem → Mem → BitVec w → Bool → Prop) : Ph w → Mem → Mem → Ph w → Prop where
  | stay (m) : Next spec .before m m .before
  | enter (m m') : Next spec .before m m' (.inside m)
  | one {m m' out ok} (h : spec m m' out ok) : Next spec .before m m' (.after out ok)
  | go (m0 m m') : Next spec (.inside m0) m m' (.inside m0)
  | leave {m0 m m' out ok} (h : spec m0 m' out ok) : Next spec (.inside m0) m m' (.after out ok)
  | rest (out ok m) : Next spec (.after out ok) m m (.after out ok)

/-- A certificate that block `B` is atomic on the `w`-bit object at `a`. -/
structure Cert (e : Endian) {W w : Nat} (ien : RS W → Bool) (B : Block W w) (a : Nat)
    (spec : Mem → Mem → BitVec w → Bool → Prop) where
  J : Ph w → Nat → RS W → Mem → Prop
  init : ∀ rs m, B.pre rs → J .before 0 rs m
  irq : ∀ ph pc rs m m', J ph pc rs m → ien rs = true → J ph pc rs m' ∧ ∀ m0, ph ≠ .inside m0
  step : ∀ ph i (c : Cfg W) ev c', J ph c.pc c.rs c.mem → B.code[c.pc]? = some i → Step e i c ev c' →
    (∀ x, (x < a ∨ a + w / 8 ≤ x) → c'.mem x = c.mem x) ∧
    ∃ ph', Ph.Next spec ph c.mem c'.mem ph' ∧ J ph' c'.pc c'.rs c'.mem
  final : ∀ ph rs m, J ph B.code.length rs m → ph = .after (B.out rs) (B.ok rs)

/-- What the phase says about the trace so far. -/
def Ph.Trace {w : Nat} (spec : Mem → Mem → BitVec w → Bool → Prop) (tr : List TEv) (m : Mem) : Ph w → Prop
  | .before => ∀ ev m1 m2, TEv.own ev m1 m2 ∈ tr → m1 = m2
  | .inside m0 => ∃ pre sec, tr = pre ++ sec ∧ sec ≠ [] ∧ OwnChain m0 sec m ∧
      ∀ ev m1 m2, TEv.own ev m1 m2 ∈ pre → m1 = m2
  | .after out ok => AtomicSection tr fun m m' => spec m m' out ok

theorem OwnChain.snoc {m m1 m2 : Mem} {t : List TEv} {ev : Ev} (h : OwnChain m t m1) :
    OwnChain m (t ++ [.own ev m1 m2]) m2 := by
  induction t generalizing m with
  | nil => exact ⟨h, rfl⟩
  | cons x t ih => cases x with
    | own ev a b => exact ⟨h.1, ih h.2⟩
    | env a b => exact h

theorem AtomicSection.snoc {tr : List TEv} {spec : Mem → Mem → Prop} (h : AtomicSection tr spec) (x : TEv)
    (hx : ∀ ev m m', x = .own ev m m' → m = m') : AtomicSection (tr ++ [x]) spec := by
  obtain ⟨pre, sec, post, m, m', rfl, h1, h2, h3, h4⟩ := h
  refine ⟨pre, sec, post ++ [x], m, m', by simp, h1, h2, h3, ?_⟩
  intro ev a b hm
  simp only [List.mem_append, List.mem_singleton] at hm
  rcases hm with hm | hm | hm
  · exact h4 _ _ _ (List.mem_append.2 (.inl hm))
  · exact h4 _ _ _ (List.mem_append.2 (.inr hm))
  · exact hx _ _ _ hm.symm

theorem Ph.Next.trace {w : Nat} {spec : Mem → Mem → BitVec w → Bool → Prop} {ph ph' : Ph w} {m m' : Mem}
    (h : Ph.Next spec ph m m' ph') {tr : List TEv} (ht : ph.Trace spec tr m) (ev : Ev) :
    ph'.Trace spec (tr ++ [.own ev m m']) m' := by
  cases h with
  | stay =>
    intro ev' a b hm
    simp only [List.mem_append, List.mem_singleton] at hm
    rcases hm with hm | hm
    · exact ht _ _ _ hm
    · cases hm; rfl
  | enter => exact ⟨tr, _, rfl, by simp, ⟨rfl, rfl⟩, ht⟩
  | one h => exact ⟨tr, [.own ev m m'], [], m, m', by simp, by simp, ⟨rfl, rfl⟩, h, by simpa [Ph.Trace] using ht⟩
  | go m0 =>
    obtain ⟨pre, sec, rfl, h1, h2, h3⟩ := ht
    exact ⟨pre, sec ++ [.own ev m m'], by simp, by simp, h2.snoc, h3⟩
  | @leave m0 _ _ out ok h =>
    obtain ⟨pre, sec, rfl, h1, h2, h3⟩ := ht
    exact ⟨pre, sec ++ [.own ev m m'], [], m0, m', by simp, by simp, h2.snoc, h, by simpa using h3⟩
  | rest out ok =>
    exact AtomicSection.snoc ht _ (by intro ev' a b h; cases h; rfl)

namespace Cert
variable {e : Endian} {W w : Nat} {ien : RS W → Bool} {B : Block W w} {a : Nat}
  {spec : Mem → Mem → BitVec w → Bool → Prop}

theorem run (C : Cert e ien B a spec) {c0 : Cfg W} {tr : List TEv} {c : Cfg W} (h0 : c0.pc = 0)
    (hp : B.pre c0.rs) (hr : IRun e ien B.code c0 tr c) :
    (∃ ph, C.J ph c.pc c.rs c.mem ∧ ph.Trace spec tr c.mem) ∧
    ∀ ev m m', TEv.own ev m m' ∈ tr → ∀ x, (x < a ∨ a + w / 8 ≤ x) → m' x = m x := by
  induction hr with
  | nil => exact ⟨⟨.before, h0 ▸ C.init _ _ hp, by simp [Ph.Trace]⟩, by simp⟩
  | own h hi hs ih =>
    obtain ⟨⟨ph, hJ, hT⟩, hN⟩ := ih
    obtain ⟨h1, ph', h2, h3⟩ := C.step ph _ _ _ _ hJ hi hs
    refine ⟨⟨ph', h3, h2.trace hT _⟩, ?_⟩
    intro ev m m' hm
    simp only [List.mem_append, List.mem_singleton] at hm
    rcases hm with hm | hm
    · exact hN _ _ _ hm
    · cases hm; exact h1
  | irq h he m' ih =>
    obtain ⟨⟨ph, hJ, hT⟩, hN⟩ := ih
    obtain ⟨h1, h2⟩ := C.irq _ _ _ _ m' hJ he
    refine ⟨⟨ph, h1, ?_⟩, ?_⟩
    · cases ph with
      | before => intro ev a b hm; exact hT ev a b (by simpa using hm)
      | inside m0 => exact absurd rfl (h2 m0)
      | after out ok => exact AtomicSection.snoc hT _ (by simp)
    · intro ev m m'' hm
      exact hN ev m m'' (by simpa using hm)

theorem section_ (C : Cert e ien B a spec) {tr : List TEv} {rs0 rs : RS W}
    (h : B.ICompleted e ien tr rs0 rs) : AtomicSection tr fun m m' => spec m m' (B.out rs) (B.ok rs) := by
  obtain ⟨c0, c, h0, hp, hr, hend, rfl, rfl⟩ := h
  obtain ⟨⟨ph, hJ, hT⟩, _⟩ := C.run h0 hp hr
  rw [hend] at hJ
  have := C.final _ _ _ hJ
  subst this
  exact hT

end Cert

/-! ### Computing a certificate for programs that only jump forward -/

section iwp
variable (e : Endian) {W w : Nat} (ien : RS W → Bool) (B : Block W w) (a : Nat)
  (spec : Mem → Mem → BitVec w → Bool → Prop) (s t : Nat)

/-- Phase in which the instruction at `pc` is executed. -/
def Ph.enterAt {w : Nat} (s pc : Nat) (m : Mem) : Ph w → Ph w
  | .before => if pc = s then .inside m else .before
  | ph => ph

/-- `K` holds at `pc'` after a step from memory `m` to `m'`; the section ends when `t` is reached. -/
def nxt (K : Ph w → Nat → RS W → Mem → Prop) (ph : Ph w) (pc : Nat) (m : Mem) (pc' : Nat) (rs' : RS W)
    (m' : Mem) : Prop :=
  match ph.enterAt s pc m with
  | .before => m' = m ∧ K .before pc' rs' m'
  | .inside m0 => if pc' = t then spec m0 m' (B.out rs') (B.ok rs') ∧ K (.after (B.out rs') (B.ok rs')) pc' rs' m'
      else K (.inside m0) pc' rs' m'
  | .after out ok => m' = m ∧ K (.after out ok) pc' rs' m'

/-- All successors of the instruction satisfy `K`. -/
def iIns (K : Ph w → Nat → RS W → Mem → Prop) (ph : Ph w) (pc : Nat) (rs : RS W) (m : Mem) : Instr W → Prop
  | .op f => ∀ o, nxt B spec s t K ph pc m (pc + 1) (f o rs) m
  | .br c l => (c rs = true → nxt B spec s t K ph pc m l rs m) ∧
      (c rs = false → nxt B spec s t K ph pc m (pc + 1) rs m)
  | .ld _ addr v k => nxt B spec s t K ph pc m (pc + 1) (k (load e m (addr rs) v) rs) m
  | .st _ addr v x => a ≤ addr rs ∧ addr rs + v / 8 ≤ a + w / 8 ∧ v % 8 = 0 ∧
      nxt B spec s t K ph pc m (pc + 1) rs (store e m (addr rs) v (x rs))
  | _ => False

/-- The rest of the program, at most `n` instructions. -/
def iwp : Nat → Ph w → Nat → RS W → Mem → Prop
  | 0, _, _, _, _ => False
  | n + 1, ph, pc, rs, m => (ien rs = true → ∀ m0, ph ≠ .inside m0) ∧
      ∀ m1, (ien rs = false → m1 = m) →
        match B.code[pc]? with
        | none => ph = .after (B.out rs) (B.ok rs)
        | some i => iIns e B a spec s t (iwp n) ph pc rs m1 i

theorem nxt_next {K : Ph w → Nat → RS W → Mem → Prop} {ph : Ph w} {pc : Nat} {m : Mem} {pc' : Nat} {rs' : RS W}
    {m' : Mem} (h : nxt B spec s t K ph pc m pc' rs' m') :
    ∃ ph', Ph.Next spec ph m m' ph' ∧ K ph' pc' rs' m' := by
  cases ph with
  | before =>
    simp only [nxt, Ph.enterAt] at h
    by_cases hs : pc = s
    · simp only [hs, if_true] at h
      by_cases ht : pc' = t
      · simp only [ht, if_true] at h
        subst ht
        exact ⟨_, .one h.1, h.2⟩
      · simp only [ht, if_false] at h
        exact ⟨_, .enter _ _, h⟩
    · simp only [hs, if_false] at h
      obtain ⟨rfl, h⟩ := h
      exact ⟨_, .stay _, h⟩
  | inside m0 =>
    simp only [nxt, Ph.enterAt] at h
    by_cases ht : pc' = t
    · simp only [ht, if_true] at h
      subst ht
      exact ⟨_, .leave h.1, h.2⟩
    · simp only [ht, if_false] at h
      exact ⟨_, .go _ _ _, h⟩
  | after out ok =>
    simp only [nxt, Ph.enterAt] at h
    obtain ⟨rfl, h⟩ := h
    exact ⟨_, .rest _ _ _, h⟩

/-- A certificate from `iwp`. -/
def certOf (N : Nat) (h0 : ∀ rs m, B.pre rs → iwp e ien B a spec s t N .before 0 rs m) :
    Cert e ien B a spec where
  J ph pc rs m := ∃ n, iwp e ien B a spec s t n ph pc rs m
  init rs m h := ⟨N, h0 rs m h⟩
  irq ph pc rs m m' h he := by
    obtain ⟨n, h⟩ := h
    cases n with
    | zero => exact h.elim
    | succ n =>
      refine ⟨⟨n + 1, h.1, fun m1 _ => h.2 m1 (by simp [he])⟩, h.1 he⟩
  step ph i c ev c' h hi hs := by
    obtain ⟨n, h⟩ := h
    cases n with
    | zero => exact h.elim
    | succ n =>
      have h := h.2 c.mem (fun _ => rfl)
      rw [hi] at h
      cases hs with
      | op f _ o =>
        obtain ⟨ph', h1, h2⟩ := nxt_next B spec s t (h o)
        exact ⟨fun _ _ => rfl, ph', h1, n, h2⟩
      | br cond l =>
        by_cases hc : cond c.rs = true
        · obtain ⟨ph', h1, h2⟩ := nxt_next B spec s t (h.1 hc)
          exact ⟨fun _ _ => rfl, ph', h1, n, by simpa only [hc, if_true] using h2⟩
        · obtain ⟨ph', h1, h2⟩ := nxt_next B spec s t (h.2 (by simpa using hc))
          exact ⟨fun _ _ => rfl, ph', h1, n, by simpa [hc] using h2⟩
      | ld acc addr v k =>
        obtain ⟨ph', h1, h2⟩ := nxt_next B spec s t h
        exact ⟨fun _ _ => rfl, ph', h1, n, h2⟩
      | st acc addr v x =>
        obtain ⟨ha, hb, hv, h⟩ := h
        obtain ⟨ph', h1, h2⟩ := nxt_next B spec s t h
        exact ⟨fun y hy => store_outside (by omega), ph', h1, n, h2⟩
      | _ => exact h.elim
  final ph rs m h := by
    obtain ⟨n, h⟩ := h
    cases n with
    | zero => exact h.elim
    | succ n =>
      have h := h.2 m (fun _ => rfl)
      rw [List.getElem?_eq_none (Nat.le_refl _)] at h
      exact h

end iwp

attribute [asm] iwp iIns nxt Ph.enterAt

/-! ### Registers only: what holds at every point (`G`) and at the end (`Q`), whatever is read -/

/-- The rest of the program, at most `n` instructions, as far as registers are concerned. -/
def rwp {W : Nat} (P : List (Instr W)) (G Q : RS W → Prop) : Nat → Nat → RS W → Prop
  | 0, _, _ => False
  | n + 1, pc, rs => G rs ∧
      match P[pc]? with
      | none => Q rs
      | some (.op f) => ∀ o, rwp P G Q n (pc + 1) (f o rs)
      | some (.br c l) => (c rs = true → rwp P G Q n l rs) ∧ (c rs = false → rwp P G Q n (pc + 1) rs)
      | some (.ld _ _ v k) => ∀ x : BitVec v, rwp P G Q n (pc + 1) (k x rs)
      | some (.st _ _ _ _) => rwp P G Q n (pc + 1) rs
      | _ => False

theorem rwp_run {e : Endian} {W : Nat} {ien : RS W → Bool} {P : List (Instr W)} {G Q : RS W → Prop} {N : Nat}
    {c0 : Cfg W} {tr : List TEv} {c : Cfg W} (h0 : c0.pc = 0) (hw : rwp P G Q N 0 c0.rs)
    (hr : IRun e ien P c0 tr c) : ∃ n, rwp P G Q n c.pc c.rs := by
  induction hr with
  | nil => exact ⟨N, h0 ▸ hw⟩
  | own h hi hs ih =>
    obtain ⟨n, ih⟩ := ih
    cases n with
    | zero => exact ih.elim
    | succ n =>
      have ih := ih.2
      rw [hi] at ih
      cases hs with
      | op f _ o => exact ⟨n, ih o⟩
      | br cond l =>
        rename_i c _
        by_cases hc : cond c.rs = true
        · exact ⟨n, by simpa only [hc, if_true] using ih.1 hc⟩
        · exact ⟨n, by simpa [hc] using ih.2 (by simpa using hc)⟩
      | ld acc addr v k => exact ⟨n, ih _⟩
      | st acc addr v x => exact ⟨n, ih⟩
      | _ => exact ih.elim
  | irq h he m' ih => exact ih

theorem rwp_always {e : Endian} {W : Nat} {ien : RS W → Bool} {P : List (Instr W)} {G Q : RS W → Prop} {N : Nat}
    {c0 : Cfg W} {tr : List TEv} {c : Cfg W} (h0 : c0.pc = 0) (hw : rwp P G Q N 0 c0.rs)
    (hr : IRun e ien P c0 tr c) : G c.rs := by
  obtain ⟨n, h⟩ := rwp_run h0 hw hr
  cases n with
  | zero => exact h.elim
  | succ n => exact h.1

theorem rwp_end {e : Endian} {W : Nat} {ien : RS W → Bool} {P : List (Instr W)} {G Q : RS W → Prop} {N : Nat}
    {c0 : Cfg W} {tr : List TEv} {c : Cfg W} (h0 : c0.pc = 0) (hw : rwp P G Q N 0 c0.rs)
    (hr : IRun e ien P c0 tr c) (hend : c.pc = P.length) : Q c.rs := by
  obtain ⟨n, h⟩ := rwp_run h0 hw hr
  cases n with
  | zero => exact h.elim
  | succ n =>
    have h := h.2
    rw [hend, List.getElem?_eq_none (Nat.le_refl _)] at h
    exact h

/-- A block restores the status register and never enables interrupts on its own. -/
def Block.StatusOK {W w : Nat} (ien : RS W → Bool) (sreg : Nat) (B : Block W w) : Prop :=
  ∃ N, ∀ rs0, B.pre rs0 → rwp B.code (fun rs => ien rs0 = false → ien rs = false)
    (fun rs => rs.r sreg = rs0.r sreg) N 0 rs0

theorem IBackend.statusRestored {W : Nat} {A : IBackend W} {sreg : Nat}
    (h : ∀ {w : Nat} (B : Block W w), A.IsBlock B → B.StatusOK A.ien sreg) : A.StatusRestored sreg := by
  intro w B hB tr rs0 rs ⟨c0, c, h0, hp, hr, hend, h1, h2⟩
  obtain ⟨N, hN⟩ := h B hB
  subst h1 h2
  exact rwp_end h0 (hN _ hp) hr hend

theorem IBackend.nestsOK {W : Nat} {A : IBackend W} {sreg : Nat}
    (h : ∀ {w : Nat} (B : Block W w), A.IsBlock B → B.StatusOK A.ien sreg) : A.NestsOK := by
  intro w B hB c0 tr c h0 hp hoff hr
  obtain ⟨N, hN⟩ := h B hB
  have hG : ∀ tr c, IRun A.e A.ien B.code c0 tr c → A.ien c.rs = false :=
    fun tr c hr => rwp_always h0 (hN _ hp) hr hoff
  refine ⟨hG _ _ hr, ?_⟩
  clear hp hN
  induction hr with
  | nil => simp
  | own h hi hs ih => intro m m' hm; exact ih m m' (by simpa using hm)
  | irq h he m' ih => rw [hG _ _ h] at he; cases he

attribute [asm] rwp

end Verif
