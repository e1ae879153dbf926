/-
Labelled runs: as `Run`, but every own entry of the trace also names the instruction and the registers it was
executed with, so that the bytes it read and wrote are known.

`Implements` is the form in which every block is verified. It is stronger than `Block.Atomic` (Contract.lean): the
linearization point is the block's last memory access, only that access can be a write, and the specification holds
for every memory that agrees with the actual one on the bytes that access read. `Weak/SC.lean` needs this form.
-/
import Verif.Spec

namespace Verif

/-- `m` on the `n` bytes at `a`, `M` elsewhere. -/
def overlay (M m : Mem) (a n : Nat) : Mem := fun x => if a ≤ x ∧ x < a + n then m x else M x

theorem overlay_self {M m : Mem} {a n : Nat} (h : ∀ x, (x < a ∨ a + n ≤ x) → m x = M x) : overlay M m a n = m := by
  funext x
  simp only [overlay]
  split
  · rfl
  · rw [h]; omega

theorem overlay_store {e : Endian} {M m : Mem} {a w : Nat} {v : BitVec w} :
    overlay M (store e m a w v) a (w / 8) = store e M a w v := by
  funext x
  simp only [overlay, store]
  split <;> rfl

theorem load_congr_ceil {e : Endian} {m m' : Mem} {a w : Nat} (h : Agree m m' a ((w + 7) / 8)) :
    load e m a w = load e m' a w := by
  apply BitVec.eq_of_getLsbD_eq
  intro i hi
  rw [getLsbD_load, getLsbD_load]
  have : m (a + byteIdx e w (i / 8)) = m' (a + byteIdx e w (i / 8)) := by
    apply h
    · omega
    · cases e <;> simp only [byteIdx] <;> omega
  rw [this]

/-- The event accesses memory. -/
def Ev.isAccess : Ev → Bool
  | .rd _ | .wr _ | .rmw _ => true
  | _ => false
/-- The event writes memory. -/
def Ev.isWrite : Ev → Bool
  | .wr _ | .rmw _ => true
  | _ => false

/-- The bytes (address, number) whose content matters to the instruction. -/
def Instr.rdFoot {W : Nat} : Instr W → RS W → Nat × Nat
  | .ld _ addr w _, rs => (addr rs, (w + 7) / 8)
  | .ll _ _ addr w _, rs => (addr rs, (w + 7) / 8)
  | .rmw _ addr w _ _, rs => (addr rs, (w + 7) / 8)
  | .sc _ addr w _ _, rs => (addr rs, w / 8)
  | _, _ => (0, 0)
/-- The bytes the instruction writes (if it writes). -/
def Instr.wrFoot {W : Nat} : Instr W → RS W → Nat × Nat
  | .st _ addr w _, rs => (addr rs, w / 8)
  | .sc _ addr w _ _, rs => (addr rs, w / 8)
  | .rmw _ addr w _ _, rs => (addr rs, w / 8)
  | _, _ => (0, 0)
/-- A load-linked. -/
def Instr.isLL {W : Nat} : Instr W → Bool
  | .ll _ _ _ _ _ => true
  | _ => false
/-- A store-conditional. -/
def Instr.isSC {W : Nat} : Instr W → Bool
  | .sc _ _ _ _ _ => true
  | _ => false

/-- Labelled trace entries. -/
inductive LEv (W : Nat) where
  | own (ins : Instr W) (rs : RS W) (ev : Ev) (m m' : Mem)
  | env (m m' : Mem)

namespace LEv
variable {W : Nat}
/-- Forget the instruction. -/
def erase : LEv W → TEv
  | .own _ _ ev m m' => .own ev m m'
  | .env m m' => .env m m'
def isAccess : LEv W → Bool
  | .own _ _ ev _ _ => ev.isAccess
  | .env _ _ => false
def isWrite : LEv W → Bool
  | .own _ _ ev _ _ => ev.isWrite
  | .env _ _ => false
def isLL : LEv W → Bool
  | .own ins _ _ _ _ => ins.isLL
  | .env _ _ => false
end LEv

/-- Labelled runs. -/
inductive LRun (e : Endian) {W : Nat} (P : List (Instr W)) (c0 : Cfg W) : List (LEv W) → Cfg W → Prop where
  | nil : LRun e P c0 [] c0
  | own {tr c i ev c'} (h : LRun e P c0 tr c) (hi : P[c.pc]? = some i) (hs : Step e i c ev c') :
      LRun e P c0 (tr ++ [.own i c.rs ev c.mem c'.mem]) c'
  | env {tr c} (h : LRun e P c0 tr c) (m' : Mem) (r' : Option (Nat × Nat)) (hr : EnvResv c.mem m' c.resv r') :
      LRun e P c0 (tr ++ [.env c.mem m']) { c with mem := m', resv := r' }

/-- Labelled runs are runs. -/
theorem LRun.run {e : Endian} {W : Nat} {P : List (Instr W)} {c0 : Cfg W} {tr : List (LEv W)} {c : Cfg W}
    (h : LRun e P c0 tr c) : Run e P c0 (tr.map LEv.erase) c := by
  induction h with
  | nil => exact .nil
  | own _ hi hs ih => rw [List.map_append]; exact ih.own hi hs
  | env _ m' r' hr ih => rw [List.map_append]; exact ih.env m' r' hr
/-- Every run can be labelled. -/
theorem Run.label {e : Endian} {W : Nat} {P : List (Instr W)} {c0 : Cfg W} {tr : List TEv} {c : Cfg W}
    (h : Run e P c0 tr c) : ∃ ltr, LRun e P c0 ltr c ∧ ltr.map LEv.erase = tr := by
  induction h with
  | nil => exact ⟨[], .nil, rfl⟩
  | own _ hi hs ih =>
    obtain ⟨l, h, rfl⟩ := ih
    exact ⟨_, h.own hi hs, by simp [LEv.erase]⟩
  | env _ m' r' hr ih =>
    obtain ⟨l, h, rfl⟩ := ih
    exact ⟨_, h.env m' r' hr, by simp [LEv.erase]⟩

/-- Every own entry is a step. -/
theorem LRun.step {e : Endian} {W : Nat} {P : List (Instr W)} {c0 : Cfg W} {tr : List (LEv W)} {c : Cfg W}
    (h : LRun e P c0 tr c) {ins rs ev m m'} (hm : LEv.own ins rs ev m m' ∈ tr) :
    ∃ c1 c2 : Cfg W, P[c1.pc]? = some ins ∧ Step e ins c1 ev c2 ∧ c1.rs = rs ∧ c1.mem = m ∧ c2.mem = m' := by
  induction h with
  | nil => cases hm
  | own _ hi hs ih =>
    rcases List.mem_append.1 hm with hm | hm
    · exact ih hm
    · simp only [List.mem_singleton, LEv.own.injEq] at hm
      obtain ⟨rfl, rfl, rfl, rfl, rfl⟩ := hm
      exact ⟨_, _, hi, hs, rfl, rfl, rfl⟩
  | env _ m' r' hr ih =>
    rcases List.mem_append.1 hm with hm | hm
    · exact ih hm
    · simp at hm

/-- Only events that write change memory. -/
theorem Step.silent {e : Endian} {W : Nat} {i : Instr W} {c c' : Cfg W} {ev : Ev} (h : Step e i c ev c')
    (hw : ev.isWrite = false) : c'.mem = c.mem := by
  cases h <;> first | rfl | cases hw
/-- A step changes memory only in the footprint of the instruction. -/
theorem Step.wrFoot {e : Endian} {W : Nat} {i : Instr W} {c c' : Cfg W} {ev : Ev} (h : Step e i c ev c') {x : Nat}
    (hx : x < (i.wrFoot c.rs).1 ∨ (i.wrFoot c.rs).1 + (i.wrFoot c.rs).2 ≤ x) : c'.mem x = c.mem x := by
  cases h with
  | st => exact store_outside hx
  | scOk => exact store_outside hx
  | rmwYes => exact store_outside hx
  | _ => rfl

/-- The memory after the access, if memory was `M` before it. -/
def afterAccess {W : Nat} (ins : Instr W) (rs : RS W) (ev : Ev) (m' M : Mem) : Mem :=
  match ev.isWrite with
  | true => overlay M m' (ins.wrFoot rs).1 (ins.wrFoot rs).2
  | false => M

/-- The last memory access of the run is its only possible write, and `Q` holds of the memory before and after it:
not only of the actual memory, but of every memory with the same content in the bytes the access read. -/
def LocalTrace {W : Nat} (tr : List (LEv W)) (Q : Mem → Mem → Prop) : Prop :=
  ∃ pre ins rs ev m m' post, tr = pre ++ LEv.own ins rs ev m m' :: post ∧ ev.isAccess = true ∧
    (∀ x ∈ pre, x.isWrite = false) ∧ (∀ x ∈ post, x.isAccess = false) ∧
    ∀ M, Agree M m (ins.rdFoot rs).1 (ins.rdFoot rs).2 → Q M (afterAccess ins rs ev m' M)

/-- `P`, started at its first instruction in a register state satisfying `pre`, behaves atomically in every completed
run, whatever the environment does; `post` relates the memory before/after the linearization point, the final
registers and the ordering monitor. -/
def Implements (e : Endian) {W : Nat} (P : List (Instr W)) (pre : RS W → Prop)
    (post : Mem → Mem → RS W → Mon → Prop) : Prop :=
  ∀ (c0 : Cfg W) (tr : List (LEv W)) (c : Cfg W), c0.pc = 0 → pre c0.rs → LRun e P c0 tr c →
    c.pc = P.length → LocalTrace tr (fun m m' => post m m' c.rs (monOf (tr.map LEv.erase)))

theorem Ev.write_access {ev : Ev} (h : ev.isAccess = false) : ev.isWrite = false := by cases ev <;> simp_all [isAccess, isWrite]
theorem LEv.write_access {W : Nat} {x : LEv W} (h : x.isAccess = false) : x.isWrite = false := by
  cases x with
  | own => exact Ev.write_access h
  | env => rfl

theorem afterAccess_self {e : Endian} {W : Nat} {i : Instr W} {c c' : Cfg W} {ev : Ev} (h : Step e i c ev c') :
    afterAccess i c.rs ev c'.mem c.mem = c'.mem := by
  unfold afterAccess
  split
  · exact overlay_self fun x hx => h.wrFoot hx
  · rename_i hw; exact (h.silent hw).symm

/-- The local form implies atomicity. -/
theorem LocalTrace.atomic {e : Endian} {W : Nat} {P : List (Instr W)} {c0 : Cfg W} {tr : List (LEv W)} {c : Cfg W}
    (hr : LRun e P c0 tr c) {Q : Mem → Mem → Prop} (h : LocalTrace tr Q) : AtomicTrace (tr.map LEv.erase) Q := by
  obtain ⟨pre, ins, rs, ev, m, m', post, rfl, _, hpre, hpost, hQ⟩ := h
  have silent : ∀ ev' m1 m2, TEv.own ev' m1 m2 ∈ pre.map LEv.erase ++ post.map LEv.erase → m1 = m2 := by
    intro ev' m1 m2 hm
    rw [← List.map_append] at hm
    obtain ⟨x, hx, hx'⟩ := List.mem_map.1 hm
    have hw : x.isWrite = false := by
      rcases List.mem_append.1 hx with h | h
      · exact hpre _ h
      · exact LEv.write_access (hpost _ h)
    cases x with
    | env => simp [LEv.erase] at hx'
    | own ins1 rs1 ev1 a b =>
      simp only [LEv.erase, TEv.own.injEq] at hx'
      obtain ⟨rfl, rfl, rfl⟩ := hx'
      have hmem : LEv.own ins1 rs1 ev1 a b ∈ pre ++ LEv.own ins rs ev m m' :: post := by
        rcases List.mem_append.1 hx with h | h
        · exact List.mem_append.2 (.inl h)
        · exact List.mem_append.2 (.inr (List.mem_cons_of_mem _ h))
      obtain ⟨c1, c2, _, hs, _, rfl, rfl⟩ := hr.step hmem
      exact (hs.silent hw).symm
  obtain ⟨c1, c2, _, hs, rfl, rfl, rfl⟩ := hr.step (ins := ins) (rs := rs) (ev := ev) (m := m) (m' := m')
    (List.mem_append.2 (.inr List.mem_cons_self))
  have := hQ c1.mem (Agree.refl _ _ _)
  rw [afterAccess_self hs] at this
  exact ⟨pre.map LEv.erase, ev, c1.mem, c2.mem, post.map LEv.erase, by simp [LEv.erase], silent, this⟩

theorem LocalTrace.imp {W : Nat} {tr : List (LEv W)} {Q Q' : Mem → Mem → Prop} (h : LocalTrace tr Q)
    (hq : ∀ m m', Q m m' → Q' m m') : LocalTrace tr Q' := by
  obtain ⟨pre, ins, rs, ev, m, m', post, h1, h2, h3, h4, h5⟩ := h
  exact ⟨pre, ins, rs, ev, m, m', post, h1, h2, h3, h4, fun M hM => hq _ _ (h5 M hM)⟩

/-- The atomic form of `Implements`. -/
theorem Implements.run {e : Endian} {W : Nat} {P : List (Instr W)} {pre : RS W → Prop}
    {post : Mem → Mem → RS W → Mon → Prop} (h : Implements e P pre post) {c0 : Cfg W} {tr : List TEv} {c : Cfg W}
    (hpc : c0.pc = 0) (hpre : pre c0.rs) (hr : Run e P c0 tr c) (hend : c.pc = P.length) :
    AtomicTrace tr (fun m m' => post m m' c.rs (monOf tr)) := by
  obtain ⟨l, hl, rfl⟩ := hr.label
  exact (h c0 l c hpc hpre hl hend).atomic hl

end Verif
