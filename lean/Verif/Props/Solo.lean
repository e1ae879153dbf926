/-
C18: the result of an operation does not depend on the register bits that the compiler leaves undefined (the upper
bits of operands narrower than a register, all other registers, flags, the content of a failed store-conditional's
status, ...): two runs on the same memory that nobody disturbs have the same outcome.
-/
import Verif.Contract
import Verif.Intr.Spec

namespace Verif

/-- Nobody else changes memory during the run. -/
def Undisturbed (tr : List TEv) : Prop := ∀ m m', TEv.env m m' ∈ tr → m' = m

/-- A completed run of the block that nobody disturbs, from memory `m` and registers `rs0` to memory `m'` and
registers `rs`. -/
def Block.QuietRun {W w : Nat} (e : Endian) (B : Block W w) (rs0 : RS W) (m m' : Mem) (rs : RS W) : Prop :=
  ∃ c0 c tr, c0.pc = 0 ∧ c0.rs = rs0 ∧ c0.mem = m ∧ B.pre rs0 ∧ Run e B.code c0 tr c ∧ c.pc = B.code.length ∧
    c.mem = m' ∧ c.rs = rs ∧ Undisturbed tr

/-- Any two undisturbed runs of the block on the same memory, with whatever the compiler leaves in the registers, end
with the same memory and give the same answer. -/
def Block.Determined {W w : Nat} (e : Endian) (B : Block W w) : Prop :=
  ∀ rs1 rs2 m m1 m2 r1 r2, B.QuietRun e rs1 m m1 r1 → B.QuietRun e rs2 m m2 r2 →
    m1 = m2 ∧ B.out r1 = B.out r2 ∧ B.ok r1 = B.ok r2

/-- C18. The outcome of load, store, swap and compare_exchange on objects of the sizes `casSize` is determined by
memory and the arguments alone; a weak compare_exchange always reports the value it saw, and may only choose to fail. -/
structure Backend.GarbageOK {W : Nat} (A : Backend W) (casSize : Nat → Prop) : Prop where
  load : ∀ o w a B, A.Load o w a B → ∀ rs1 rs2 m m1 m2 r1 r2, B.QuietRun A.e rs1 m m1 r1 →
    B.QuietRun A.e rs2 m m2 r2 → m1 = m2 ∧ B.out r1 = B.out r2
  store : ∀ o w a v B, A.Store o w a v B → ∀ rs1 rs2 m m1 m2 r1 r2, B.QuietRun A.e rs1 m m1 r1 →
    B.QuietRun A.e rs2 m m2 r2 → m1 = m2
  swap : ∀ o w a v B, A.Swap o w a v B → ∀ rs1 rs2 m m1 m2 r1 r2, B.QuietRun A.e rs1 m m1 r1 →
    B.QuietRun A.e rs2 m m2 r2 → m1 = m2 ∧ B.out r1 = B.out r2
  cas : ∀ s f w a old new B, casSize w → A.Cas s f w a old new B → B.Determined A.e
  casWeak : ∀ s f w a old new B, A.CasWeak s f w a old new B → ∀ rs1 rs2 m m1 m2 r1 r2, B.QuietRun A.e rs1 m m1 r1 →
    B.QuietRun A.e rs2 m m2 r2 → B.out r1 = B.out r2 ∧ (B.ok r1 = B.ok r2 → m1 = m2)

/-- Entries lead from memory `m` to memory `m'`. -/
def Chain : Mem → List TEv → Mem → Prop
  | m, [], m' => m = m'
  | m, .own _ a b :: t, m' => m = a ∧ Chain b t m'
  | m, .env a b :: t, m' => m = a ∧ Chain b t m'

theorem Chain.append {m1 m2 m3 : Mem} {l1 l2 : List TEv} (h1 : Chain m1 l1 m2) (h2 : Chain m2 l2 m3) :
    Chain m1 (l1 ++ l2) m3 := by
  induction l1 generalizing m1 with
  | nil => simp only [Chain] at h1; subst h1; exact h2
  | cons x l ih => cases x <;> exact ⟨h1.1, ih h1.2⟩

theorem Chain.split {m1 m3 : Mem} {l1 l2 : List TEv} (h : Chain m1 (l1 ++ l2) m3) :
    ∃ m2, Chain m1 l1 m2 ∧ Chain m2 l2 m3 := by
  induction l1 generalizing m1 with
  | nil => exact ⟨m1, rfl, h⟩
  | cons x l ih =>
    cases x with
    | own ev a b => obtain ⟨m2, h1, h2⟩ := ih h.2; exact ⟨m2, ⟨h.1, h1⟩, h2⟩
    | env a b => obtain ⟨m2, h1, h2⟩ := ih h.2; exact ⟨m2, ⟨h.1, h1⟩, h2⟩

theorem Run.chain {e : Endian} {W : Nat} {P : List (Instr W)} {c0 c : Cfg W} {tr : List TEv} (h : Run e P c0 tr c) :
    Chain c0.mem tr c.mem := by
  induction h with
  | nil => rfl
  | own _ _ _ ih => exact ih.append ⟨rfl, rfl⟩
  | env _ m' _ _ ih => exact ih.append ⟨rfl, rfl⟩

theorem Chain.still {m m' : Mem} {l : List TEv} (h : Chain m l m') (hq : Undisturbed l)
    (ho : ∀ ev m1 m2, TEv.own ev m1 m2 ∈ l → m1 = m2) : m = m' := by
  induction l generalizing m with
  | nil => exact h
  | cons x l ih =>
    have hq' : Undisturbed l := fun a b hab => hq a b (List.mem_cons_of_mem _ hab)
    have ho' : ∀ ev m1 m2, TEv.own ev m1 m2 ∈ l → m1 = m2 := fun ev a b hab => ho ev a b (List.mem_cons_of_mem _ hab)
    cases x with
    | own ev a b =>
      have := ho ev a b List.mem_cons_self
      rw [h.1, this]; exact ih h.2 hq' ho'
    | env a b =>
      have := hq a b List.mem_cons_self
      rw [h.1, ← this]; exact ih h.2 hq' ho'

/-- In an undisturbed run an atomic operation relates the initial and the final memory. -/
theorem AtomicTrace.undisturbed {tr : List TEv} {spec : Mem → Mem → Prop} (h : AtomicTrace tr spec) {m m' : Mem}
    (hc : Chain m tr m') (hq : Undisturbed tr) : spec m m' := by
  obtain ⟨pre, ev, a, b, post, rfl, ho, hs⟩ := h
  obtain ⟨m2, h1, h2⟩ := hc.split
  have e1 := h1.still (fun x y hxy => hq x y (List.mem_append_left _ hxy))
    (fun ev x y hxy => ho ev x y (List.mem_append_left _ hxy))
  have e2 := h2.2.still (fun x y hxy => hq x y (List.mem_append_right _ (List.mem_cons_of_mem _ hxy)))
    (fun ev x y hxy => ho ev x y (List.mem_append_right _ hxy))
  rw [e1, h2.1, ← e2]; exact hs

theorem OwnChain.chain {m m' : Mem} {l : List TEv} (h : OwnChain m l m') : Chain m l m' := by
  induction l generalizing m with
  | nil => exact h
  | cons x l ih =>
    cases x with
    | own _ _ _ => exact ⟨h.1, ih h.2⟩
    | env _ _ => exact h.elim

theorem Chain.unique {m m1 m2 : Mem} {l : List TEv} (h1 : Chain m l m1) (h2 : Chain m l m2) : m1 = m2 := by
  induction l generalizing m with
  | nil => exact h1.symm.trans h2
  | cons x l ih => cases x <;> exact ih h1.2 h2.2

theorem Chain.start {m m' m1 m2 : Mem} {l : List TEv} (hl : l ≠ []) (h1 : Chain m l m1) (h2 : Chain m' l m2) :
    m = m' := by
  cases l with
  | nil => exact absurd rfl hl
  | cons x l => cases x <;> exact h1.1.trans h2.1.symm

/-- The same for atomic sections. -/
theorem AtomicSection.undisturbed {tr : List TEv} {spec : Mem → Mem → Prop} (h : AtomicSection tr spec) {m m' : Mem}
    (hc : Chain m tr m') (hq : Undisturbed tr) : spec m m' := by
  obtain ⟨pre, sec, post, a, b, rfl, hne, hch, hs, ho⟩ := h
  obtain ⟨m3, h1, h2⟩ := hc.split
  obtain ⟨m2, h0, h1⟩ := h1.split
  have e1 := h0.still (fun x y hxy => hq x y (List.mem_append_left _ (List.mem_append_left _ hxy)))
    (fun ev x y hxy => ho ev x y (List.mem_append_left _ hxy))
  have e2 := h2.still (fun x y hxy => hq x y (List.mem_append_right _ hxy))
    (fun ev x y hxy => ho ev x y (List.mem_append_right _ hxy))
  have e3 := Chain.start hne h1 hch.chain
  have e4 := Chain.unique (e3 ▸ h1) hch.chain
  rw [e1, ← e2, e4, e3]; exact hs

theorem Block.Atomic.quiet {W w : Nat} {e : Endian} {B : Block W w} {post : Mem → Mem → RS W → Prop}
    (h : B.Atomic e post) {rs0 m m' rs} (hr : B.QuietRun e rs0 m m' rs) : post m m' rs := by
  obtain ⟨c0, c, tr, h1, h2, h3, h4, h5, h6, h7, h8, h9⟩ := hr
  subst h2 h3 h7 h8
  exact (h tr c.rs ⟨c0, c, h1, h4, h5, h6, rfl⟩).undisturbed h5.chain h9

theorem cas_same {w : Nat} {e : Endian} {a : Nat} {old new : BitVec w} {m m1 m2 : Mem} {x1 x2 : BitVec w}
    {b1 b2 : Bool} (h1 : CasSpec e a w old new m m1 x1 b1) (h2 : CasSpec e a w old new m m2 x2 b2) :
    m1 = m2 ∧ x1 = x2 ∧ b1 = b2 := by
  obtain ⟨o1, h1⟩ := h1
  obtain ⟨o2, h2⟩ := h2
  refine ⟨?_, o1.trans o2.symm, ?_⟩
  · rcases h1 with ⟨x, _, y⟩ | ⟨x, _, y⟩ <;> rcases h2 with ⟨z, _, u⟩ | ⟨z, _, u⟩
    · rw [y, u]
    · exact absurd x z
    · exact absurd z x
    · rw [y, u]
  · rcases h1 with ⟨x, y, _⟩ | ⟨x, y, _⟩ <;> rcases h2 with ⟨z, u, _⟩ | ⟨z, u, _⟩
    · rw [y, u]
    · exact absurd x z
    · exact absurd z x
    · rw [y, u]

theorem cas_determined {W w : Nat} {e : Endian} {B : Block W w} {a : Nat} {old new : BitVec w}
    (h : B.Atomic e fun m m' rs => CasSpec e a w old new m m' (B.out rs) (B.ok rs)) : B.Determined e :=
  fun _ _ _ _ _ _ _ h1 h2 => cas_same (h.quiet h1) (h.quiet h2)

theorem Backend.garbageOK {W : Nat} {A : Backend W} {cs : Nat → Prop} (h1 : A.LoadsAtomic) (h2 : A.StoresAtomic)
    (h3 : A.SwapsAtomic) (h4 : ∀ s f w a old new B, cs w → A.Cas s f w a old new B →
      B.Atomic A.e fun m m' rs => CasSpec A.e a w old new m m' (B.out rs) (B.ok rs)) (h5 : A.WeakCasAtomic) :
    A.GarbageOK cs where
  load o w a B hB rs1 rs2 m m1 m2 r1 r2 q1 q2 := by
    obtain ⟨a1, a2⟩ := (h1 o w a B hB).quiet q1
    obtain ⟨b1, b2⟩ := (h1 o w a B hB).quiet q2
    exact ⟨a2.trans b2.symm, a1.trans b1.symm⟩
  store o w a v B hB rs1 rs2 m m1 m2 r1 r2 q1 q2 := by
    have a1 := (h2 o w a v B hB).quiet q1
    have b1 := (h2 o w a v B hB).quiet q2
    exact a1.trans b1.symm
  swap o w a v B hB rs1 rs2 m m1 m2 r1 r2 q1 q2 := by
    obtain ⟨a1, a2⟩ := (h3 o w a v B hB).quiet q1
    obtain ⟨b1, b2⟩ := (h3 o w a v B hB).quiet q2
    exact ⟨a2.trans b2.symm, a1.trans b1.symm⟩
  cas s f w a old new B hw hB := cas_determined (h4 s f w a old new B hw hB)
  casWeak s f w a old new B hB rs1 rs2 m m1 m2 r1 r2 q1 q2 := by
    obtain ⟨a1, a2⟩ := (h5 s f w a old new B hB).quiet q1
    obtain ⟨b1, b2⟩ := (h5 s f w a old new B hB).quiet q2
    refine ⟨a1.trans b1.symm, fun hok => ?_⟩
    rcases a2 with ⟨_, y, z⟩ | ⟨y, z⟩ <;> rcases b2 with ⟨_, u, v⟩ | ⟨u, v⟩
    · rw [z, v]
    · rw [y, u] at hok; cases hok
    · rw [y, u] at hok; cases hok
    · rw [z, v]

/-! ### Single-core back ends -/

/-- A completed run in which no interrupt handler changes memory. -/
def Block.IQuietRun {W w : Nat} (e : Endian) (ien : RS W → Bool) (B : Block W w) (rs0 : RS W) (m m' : Mem)
    (rs : RS W) : Prop :=
  ∃ c0 c tr, c0.pc = 0 ∧ c0.rs = rs0 ∧ c0.mem = m ∧ B.pre rs0 ∧ IRun e ien B.code c0 tr c ∧
    c.pc = B.code.length ∧ c.mem = m' ∧ c.rs = rs ∧ Undisturbed tr

/-- C18 with interrupts. -/
structure IBackend.GarbageOK {W : Nat} (A : IBackend W) : Prop where
  load : ∀ o w a B, A.Load o w a B → ∀ rs1 rs2 m m1 m2 r1 r2, B.IQuietRun A.e A.ien rs1 m m1 r1 →
    B.IQuietRun A.e A.ien rs2 m m2 r2 → m1 = m2 ∧ B.out r1 = B.out r2
  store : ∀ o w a v B, A.Store o w a v B → ∀ rs1 rs2 m m1 m2 r1 r2, B.IQuietRun A.e A.ien rs1 m m1 r1 →
    B.IQuietRun A.e A.ien rs2 m m2 r2 → m1 = m2
  swap : ∀ o w a v B, A.Swap o w a v B → ∀ rs1 rs2 m m1 m2 r1 r2, B.IQuietRun A.e A.ien rs1 m m1 r1 →
    B.IQuietRun A.e A.ien rs2 m m2 r2 → m1 = m2 ∧ B.out r1 = B.out r2
  cas : ∀ s f w a old new B, A.Cas s f w a old new B → ∀ rs1 rs2 m m1 m2 r1 r2, B.IQuietRun A.e A.ien rs1 m m1 r1 →
    B.IQuietRun A.e A.ien rs2 m m2 r2 → m1 = m2 ∧ B.out r1 = B.out r2 ∧ B.ok r1 = B.ok r2

theorem IBackend.section_quiet {W w : Nat} {A : IBackend W} {B : Block W w} {post : Mem → Mem → RS W → Prop}
    (h : A.SectionAtomic B post) {rs0 m m' rs} (hr : B.IQuietRun A.e A.ien rs0 m m' rs) : post m m' rs := by
  obtain ⟨c0, c, tr, h1, h2, h3, h4, h5, h6, h7, h8, h9⟩ := hr
  subst h2 h3 h7 h8
  exact (h tr c0.rs c.rs ⟨c0, c, h1, h4, h5, h6, rfl, rfl⟩).undisturbed h5.toRun.chain h9

theorem IBackend.garbageOK {W : Nat} {A : IBackend W} (h1 : A.LoadsAtomic) (h2 : A.StoresAtomic)
    (h3 : A.SwapsAtomic) (h4 : A.CasAtomic) : A.GarbageOK where
  load o w a B hB rs1 rs2 m m1 m2 r1 r2 q1 q2 := by
    obtain ⟨a1, a2⟩ := section_quiet (h1 o w a B hB) q1
    obtain ⟨b1, b2⟩ := section_quiet (h1 o w a B hB) q2
    exact ⟨a2.trans b2.symm, a1.trans b1.symm⟩
  store o w a v B hB rs1 rs2 m m1 m2 r1 r2 q1 q2 := by
    have a1 := section_quiet (h2 o w a v B hB) q1
    have b1 := section_quiet (h2 o w a v B hB) q2
    exact a1.trans b1.symm
  swap o w a v B hB rs1 rs2 m m1 m2 r1 r2 q1 q2 := by
    obtain ⟨a1, a2⟩ := section_quiet (h3 o w a v B hB) q1
    obtain ⟨b1, b2⟩ := section_quiet (h3 o w a v B hB) q2
    exact ⟨a2.trans b2.symm, a1.trans b1.symm⟩
  cas s f w a old new B hB rs1 rs2 m m1 m2 r1 r2 q1 q2 :=
    cas_same (section_quiet (h4 s f w a old new B hB) q1) (section_quiet (h4 s f w a old new B hB) q2)

end Verif
