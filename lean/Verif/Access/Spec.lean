/-
Which bytes an operation accesses at all, read or write (C39).

The machine (Verif/Core/Machine.lean) executes every single access atomically; real machines promise that
only for naturally aligned accesses, and reading outside the object may fault or race with a deallocation.
So: every access of every operation is naturally aligned and stays inside the object or, for a back end
that works on the containing word, inside the naturally aligned word around the object.
-/
import Verif.Lin.Machine
import Verif.Core.Alloc
import Verif.Core.Sizes
import Verif.Core.Progress

namespace Verif

/-- Address and number of bits of the memory access of an instruction. -/
def Instr.access {W : Nat} : Instr W → RS W → Option (Nat × Nat)
  | .ld _ addr w _, rs => some (addr rs, w)
  | .st _ addr w _, rs => some (addr rs, w)
  | .ll _ _ addr w _, rs => some (addr rs, w)
  | .sc _ addr w _ _, rs => some (addr rs, w)
  | .rmw _ addr w _ _, rs => some (addr rs, w)
  | _, _ => none

/-- The object sizes of the crate, in bits; also the sizes of single-copy atomic accesses. -/
def IsSize (w : Nat) : Prop := w = 8 ∨ w = 16 ∨ w = 32 ∨ w = 64 ∨ w = 128

/-- An access of `b` bits at `x`: of a usual size, naturally aligned, and inside the aligned `g`-byte block that
contains `a`. -/
def Inside (a g x b : Nat) : Prop := IsSize b ∧ x % (b / 8) = 0 ∧ a / g * g ≤ x ∧ x + b / 8 ≤ a / g * g + g

/-- Whatever happens around the block, whenever it is about to access memory, the access is `Inside`. -/
def Block.AccessesInside {W w : Nat} (e : Endian) (B : Block W w) (a g : Nat) : Prop :=
  ∀ (c0 : Cfg W) tr c i x n, c0.pc = 0 → B.pre c0.rs → Run e B.code c0 tr c → B.code[c.pc]? = some i →
    i.access c.rs = some (x, n) → Inside a g x n

/-- C39. `gran c` is the size in bytes of the word the back end uses for call `c` if the object is
smaller. -/
def Backend.AccessesOK {W : Nat} (A : Backend W) (gran : Call → Nat) : Prop :=
  ∀ (c : Call) (B : Block W c.width), A.Runs c B → c.addr % (c.width / 8) = 0 →
    B.AccessesInside A.e c.addr (max (c.width / 8) (gran c))

/-- Loads use words of 1 byte (the object itself), stores of `st`, swaps of `sw`, compare-exchanges of `cas`
bytes. -/
def gran (st sw cas : Nat) : Call → Nat
  | .load _ _ _ => 1
  | .store _ _ _ _ => st
  | .swap _ _ _ _ => sw
  | .cas _ _ _ _ _ _ => cas
  | .casWeak _ _ _ _ _ _ => cas

/-! ### Proof method -/

/-- `Inside` for the access of an instruction. -/
def Instr.Inside {W : Nat} (a g : Nat) (rs : RS W) : Instr W → Prop
  | .ld _ addr w _ => Verif.Inside a g (addr rs) w
  | .st _ addr w _ => Verif.Inside a g (addr rs) w
  | .ll _ _ addr w _ => Verif.Inside a g (addr rs) w
  | .sc _ addr w _ _ => Verif.Inside a g (addr rs) w
  | .rmw _ addr w _ _ => Verif.Inside a g (addr rs) w
  | _ => True

theorem Instr.Inside.access {W : Nat} {a g : Nat} {rs : RS W} {i : Instr W} (h : i.Inside a g rs) {x n : Nat}
    (ha : i.access rs = some (x, n)) : Verif.Inside a g x n := by
  cases i <;> simp only [Instr.access, Option.some.injEq, Prod.mk.injEq, reduceCtorEq] at ha <;>
    (obtain ⟨rfl, rfl⟩ := ha; exact h)

/-- A block whose address registers are not written. -/
theorem inside_of {W w : Nat} {e : Endian} {B : Block W w} {a g : Nat} (S : Nat → Prop)
    (hf : Frame e B.code S)
    (h : ∀ rs0 rs, B.pre rs0 → (∀ j, ¬ S j → rs.r j = rs0.r j) → ∀ i ∈ B.code, i.Inside a g rs) :
    B.AccessesInside e a g := by
  intro c0 tr c i x n _ hp hr hi ha
  exact (h c0.rs c.rs hp (fun j hj => hf c0 tr c hr j hj) i (List.mem_of_getElem? hi)).access ha

/-- The instruction does not change register `d`. -/
def Instr.Keeps {W : Nat} (d : Nat) : Instr W → Prop
  | .op f => ∀ o rs, (f o rs).r d = rs.r d
  | .ld _ _ w k => ∀ (x : BitVec w) rs, (k x rs).r d = rs.r d
  | .ll _ _ _ w k => ∀ (x : BitVec w) rs, (k x rs).r d = rs.r d
  | .sc _ _ _ _ k => ∀ b n rs, (k b n rs).r d = rs.r d
  | .rmw _ _ w _ k => ∀ (x : BitVec w) rs, (k x rs).r d = rs.r d
  | _ => True

theorem step_keeps {e : Endian} {W : Nat} {d : Nat} {i : Instr W} {c c' : Cfg W} {ev : Ev}
    (hf : i.Keeps d) (hs : Step e i c ev c') : c'.rs.r d = c.rs.r d := by
  cases hs with
  | op f _ o => exact hf o _
  | ld acc addr w k => exact hf _ _
  | ll acc tear addr w k => exact hf _ _
  | llTear acc addr w k _ mt => exact hf _ _
  | scOk acc addr w v k _ n h => exact hf _ _ _
  | scFail acc addr w v k _ n => exact hf _ _ _
  | rmwNo acc addr w f k _ h => exact hf _ _
  | rmwYes acc addr w f k _ y h => exact hf _ _
  | _ => rfl

/-- The instruction accesses no memory and does not jump before `k`. -/
def Instr.Tail {W : Nat} (k : Nat) : Instr W → Prop
  | .ld .. | .st .. | .ll .. | .sc .. | .rmw .. => False
  | .br _ t => k ≤ t
  | _ => True

theorem step_tail {e : Endian} {W : Nat} {k : Nat} {i : Instr W} {c c' : Cfg W} {ev : Ev}
    (hk : k ≤ c.pc) (hf : i.Tail k) (hs : Step e i c ev c') : k ≤ c'.pc := by
  cases hs with
  | br cond t => simp only [Instr.Tail] at hf ⊢; split <;> omega
  | _ => first | exact hf.elim | (simp only; omega)

/-- A block whose address register `d` is written only after position `k`, where nothing accesses memory
any more. -/
theorem inside_keeps {W w : Nat} {e : Endian} {B : Block W w} {a g : Nat} (d k : Nat)
    (h1 : ∀ i ∈ B.code.take k, i.Keeps d) (h2 : ∀ i ∈ B.code.drop k, i.Tail k)
    (h : ∀ rs0 rs, B.pre rs0 → rs.r d = rs0.r d → ∀ i ∈ B.code.take k, i.Inside a g rs) :
    B.AccessesInside e a g := by
  intro c0 tr c i x n h0 hp hr hi ha
  have hdrop : ∀ {pc i}, k ≤ pc → B.code[pc]? = some i → i ∈ B.code.drop k := by
    intro pc i hk hi
    refine List.mem_of_getElem? (i := pc - k) ?_
    rw [List.getElem?_drop, Nat.add_sub_cancel' hk]; exact hi
  have htake : ∀ {pc i}, ¬ k ≤ pc → B.code[pc]? = some i → i ∈ B.code.take k := by
    intro pc i hk hi
    refine List.mem_of_getElem? (i := pc) ?_
    rw [List.getElem?_take_of_lt (by omega)]; exact hi
  have key : k ≤ c.pc ∨ c.rs.r d = c0.rs.r d := by
    clear hi ha
    induction hr with
    | nil => exact .inr rfl
    | @own tr c c' i ev hr' hi hs ih =>
      by_cases hk : k ≤ c.pc
      · exact .inl (step_tail hk (h2 _ (hdrop hk hi)) hs)
      · have ih := ih.resolve_left hk
        exact .inr ((step_keeps (h1 _ (htake hk hi)) hs).trans ih)
    | env h1 m' r' hr ih => exact ih
  by_cases hk : k ≤ c.pc
  · have := h2 _ (hdrop hk hi)
    cases i <;> first | exact this.elim | simp [Instr.access] at ha
  · exact (h c0.rs c.rs hp (key.resolve_left hk) i (htake hk hi)).access ha

/-- Executes `P` from `pc` symbolically (at most `n` instructions): every access is `Inside`. -/
def awp {W : Nat} (P : List (Instr W)) (a g : Nat) : Nat → Nat → RS W → Prop
  | 0, _, _ => False
  | n + 1, pc, rs =>
    match P[pc]? with
    | none => True
    | some i => i.Inside a g rs ∧
      match i with
      | .op f => ∀ o, awp P a g n (pc + 1) (f o rs)
      | .br c t => if c rs = true then awp P a g n t rs else awp P a g n (pc + 1) rs
      | .ld _ _ w k => ∀ x : BitVec w, awp P a g n (pc + 1) (k x rs)
      | .ll _ _ _ w k => ∀ x : BitVec w, awp P a g n (pc + 1) (k x rs)
      | .sc _ _ _ _ k => ∀ b j, awp P a g n (pc + 1) (k b j rs)
      | .rmw _ _ w _ k => ∀ x : BitVec w, awp P a g n (pc + 1) (k x rs)
      | _ => awp P a g n (pc + 1) rs

theorem awp_step {W : Nat} {e : Endian} {P : List (Instr W)} {a g n : Nat} {c c' : Cfg W} {i : Instr W} {ev : Ev}
    (h : awp P a g n c.pc c.rs) (hi : P[c.pc]? = some i) (hs : Step e i c ev c') :
    ∃ n', awp P a g n' c'.pc c'.rs := by
  cases n with
  | zero => exact h.elim
  | succ n =>
    rw [awp, hi] at h
    obtain ⟨_, h⟩ := h
    refine ⟨n, ?_⟩
    cases hs with
    | op f _ o => exact h o
    | br cond t =>
      simp only at h ⊢
      split at h
      · rename_i hc; simp only [hc, if_true]; exact h
      · rename_i hc; rw [if_neg hc]; exact h
    | ld acc addr w k => exact h _
    | ll acc tear addr w k => exact h _
    | llTear acc addr w k _ mt => exact h _
    | scOk acc addr w v k _ j h' => exact h _ _
    | scFail acc addr w v k _ j => exact h _ _
    | rmwNo acc addr w f k _ h' => exact h _
    | rmwYes acc addr w f k _ y h' => exact h _
    | _ => exact h

/-- A block without loops. -/
theorem inside_straight {W w : Nat} {e : Endian} {B : Block W w} {a g : Nat} (N : Nat)
    (h : ∀ rs, B.pre rs → awp B.code a g N 0 rs) : B.AccessesInside e a g := by
  intro c0 tr c i x n h0 hp hr hi ha
  have key : ∃ n, awp B.code a g n c.pc c.rs := by
    clear hi ha
    induction hr with
    | nil => exact ⟨N, by rw [h0]; exact h _ hp⟩
    | own h1 hi hs ih => obtain ⟨n, ih⟩ := ih; exact awp_step ih hi hs
    | env h1 m' r' hr ih => exact ih
  obtain ⟨n, h⟩ := key
  cases n with
  | zero => exact h.elim
  | succ n =>
    rw [awp, hi] at h
    exact h.1.access ha

/-- The object itself. -/
theorem inside_obj {a w g : Nat} (h : a % (w / 8) = 0) (hw : IsSize w) (hg : g ≤ w / 8) : Inside a (max (w / 8) g) a w := by
  have h1 : max (w / 8) g = w / 8 := by omega
  have h2 : a / (w / 8) * (w / 8) = a := by
    have := Nat.div_add_mod a (w / 8)
    rw [Nat.mul_comm]; omega
  rw [h1]
  exact ⟨hw, h, by omega, by omega⟩

/-- The aligned word around a smaller object. -/
theorem inside_word {a n x : Nat} (hn : n ≤ 4) (h : x = 4 * (a / 4)) : Inside a (max n 4) x 32 := by
  have h1 : max n 4 = 4 := by omega
  rw [h1]
  subst h
  exact ⟨by simp [IsSize], by omega, by omega, by omega⟩

/-- `AccessesOK`, one operation at a time. -/
structure Backend.InsideAll {W : Nat} (A : Backend W) (st sw cas : Nat) : Prop where
  load : ∀ o w a B, A.Load o w a B → a % (w / 8) = 0 → B.AccessesInside A.e a (max (w / 8) 1)
  store : ∀ o w a v B, A.Store o w a v B → a % (w / 8) = 0 → B.AccessesInside A.e a (max (w / 8) st)
  swap : ∀ o w a v B, A.Swap o w a v B → a % (w / 8) = 0 → B.AccessesInside A.e a (max (w / 8) sw)
  cas : ∀ s f w a old new B, A.Cas s f w a old new B ∨ A.CasWeak s f w a old new B → a % (w / 8) = 0 →
    B.AccessesInside A.e a (max (w / 8) cas)

theorem Backend.InsideAll.ok {W : Nat} {A : Backend W} {st sw cas : Nat} (h : A.InsideAll st sw cas) :
    A.AccessesOK (gran st sw cas) := by
  intro c B hB hal
  cases c with
  | load o w a => exact h.load o w a B hB hal
  | store o w a v => exact h.store o w a v B hB hal
  | swap o w a v => exact h.swap o w a v B hB hal
  | cas s f w a old new => exact h.cas s f w a old new B (.inl hB) hal
  | casWeak s f w a old new => exact h.cas s f w a old new B (.inr hB) hal

attribute [asm] awp Instr.Inside Instr.Keeps Instr.Tail

/-- Reduces `AccessesInside` of a concrete loop-free block to `Inside` of its addresses. -/
macro "acc_straight" : tactic => `(tactic| (
  refine inside_straight 40 ?_
  intro rs hp
  simp [asm] at hp
  simp [asm, hp]))
/-- The same for a block whose address operand `o` is never written; `hf`: register contract. -/
macro "acc_frame" hf:term:max al:term:max o:term:max : tactic => `(tactic| (
  refine inside_of _ $hf ?_
  intro rs0 rs hp hfr
  have hd := hfr (Alloc.reg $al $o) (Alloc.not_outs (fun o' => by cases o' <;> decide))
  simp [asm] at hp
  simp [asm, hd, hp]))
/-- The same for a block that writes the address operand only after position `k`. -/
macro "acc_keeps" k:term:max al:term:max o:term:max : tactic => `(tactic| (
  refine inside_keeps (Alloc.reg $al $o) $k (by simp [asm]) (by simp [asm]) ?_
  intro rs0 rs hp hd
  simp [asm] at hp
  simp [asm, hd, hp]))
/-- Closes `Inside` for the object itself. -/
macro "acc_obj" hal:term:max hw:ident : tactic => `(tactic| (
  refine inside_obj $hal ?_ ?_ <;> (try simp only [SubSize, WordSize] at $hw:ident) <;> (try unfold IsSize) <;> omega))
/-- Closes `Inside` for an object of known size. -/
macro "acc_lit" hal:ident : tactic => `(tactic| (simp [Inside, IsSize] at $hal:ident ⊢; omega))
/-- Closes `Inside` for the word around the object. -/
macro "acc_sub" h:term:max hw:ident : tactic => `(tactic| (
  refine inside_word ?_ $h; (try simp only [SubSize, WordSize] at $hw:ident); omega))

end Verif
