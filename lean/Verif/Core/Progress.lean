/-
Progress (C20): a thread that runs alone finishes its operation.

"Alone" means: from some point on the environment takes no step, a store-conditional whose reservation
is still valid succeeds, and a double-width load-exclusive is not torn.
-/
import Verif.Core.BackendLemmas

namespace Verif

/-- A step of the thread when nobody interferes: any step of the machine, except a spurious
store-conditional failure and a torn load. -/
def QStep (e : Endian) {W : Nat} (i : Instr W) (c c' : Cfg W) : Prop :=
  ∃ ev, Step e i c ev c' ∧
    match i with
    | .sc _ addr w _ _ => c.resv = some (addr c.rs, w / 8) → ev ≠ .tau
    | .ll _ _ addr w _ => c'.resv = some (addr c.rs, w / 8)
    | _ => True

/-- Whatever happens (within `QStep`), the program is finished after at most `n` instructions, and it
never gets stuck before. -/
def Finishes (e : Endian) {W : Nat} (P : List (Instr W)) : Nat → Cfg W → Prop
  | 0, c => c.pc = P.length
  | n + 1, c => c.pc = P.length ∨
      ∃ i, P[c.pc]? = some i ∧ (∃ c', QStep e i c c') ∧ ∀ c', QStep e i c c' → Finishes e P n c'

/-- No operation needs more instructions than this when it is left alone. -/
abbrev maxAlone : Nat := 100

/-- C20 for one block: there is a bound (at most `maxAlone`) such that from every configuration that any run with any
environment can reach, the thread finishes within that number of instructions if it is left alone. -/
def Block.Progress {W w : Nat} (e : Endian) (B : Block W w) : Prop :=
  ∃ N, N ≤ maxAlone ∧ ∀ (c0 : Cfg W) (tr : List TEv) (c : Cfg W), c0.pc = 0 → B.pre c0.rs → Run e B.code c0 tr c →
    Finishes e B.code N c

/-- C20 for a back end. -/
def Backend.ProgressOK {W : Nat} (A : Backend W) : Prop :=
  ∀ {w : Nat} (B : Block W w), A.IsBlock B → B.Progress A.e

/-! ### Proof rule -/

/-- Predicates on (pc, registers, memory, reservation). -/
abbrev QAssn (W : Nat) := Nat → RS W → Mem → Option (Nat × Nat) → Prop

/-- All quiet successors of the instruction `i` at index `pc` satisfy `K`. -/
def qIns (e : Endian) {W : Nat} (K : QAssn W) (i : Instr W) (pc : Nat) (rs : RS W) (m : Mem)
    (resv : Option (Nat × Nat)) : Prop :=
  match i with
  | .op f => ∀ o, K (pc + 1) (f o rs) m resv
  | .fence _ => K (pc + 1) rs m resv
  | .br cond t => if cond rs = true then K t rs m resv else K (pc + 1) rs m resv
  | .ld _ addr w k => K (pc + 1) (k (load e m (addr rs) w) rs) m resv
  | .st _ addr w v => K (pc + 1) rs (store e m (addr rs) w (v rs)) none
  | .ll _ _ addr w k => K (pc + 1) (k (load e m (addr rs) w) rs) m (some (addr rs, w / 8))
  | .sc _ addr w v k =>
      if resv = some (addr rs, w / 8) then
        ∀ j, K (pc + 1) (k true j rs) (store e m (addr rs) w (v rs)) none
      else ∀ j, K (pc + 1) (k false j rs) m none
  | .rmw _ addr w f k =>
      (f rs (load e m (addr rs) w) = none → K (pc + 1) (k (load e m (addr rs) w) rs) m resv) ∧
      (∀ y, f rs (load e m (addr rs) w) = some y →
        K (pc + 1) (k (load e m (addr rs) w) rs) (store e m (addr rs) w y) none)
  | .clrex => K (pc + 1) rs m none

theorem qIns_sound {e : Endian} {W : Nat} {K : QAssn W} {i : Instr W} {c : Cfg W}
    (h : qIns e K i c.pc c.rs c.mem c.resv) :
    (∃ c', QStep e i c c') ∧ ∀ c', QStep e i c c' → K c'.pc c'.rs c'.mem c'.resv := by
  cases i with
  | op f =>
    refine ⟨⟨_, _, .op f c ⟨0⟩, trivial⟩, ?_⟩
    rintro c' ⟨ev, hs, _⟩; cases hs with | op _ _ o => exact h o
  | fence p =>
    refine ⟨⟨_, _, .fence p c, trivial⟩, ?_⟩
    rintro c' ⟨ev, hs, _⟩; cases hs; exact h
  | br cond t =>
    refine ⟨⟨_, _, .br cond t c, trivial⟩, ?_⟩
    rintro c' ⟨ev, hs, _⟩
    cases hs
    cases hc : cond c.rs with
    | true => simpa [qIns, hc] using h
    | false => simpa [qIns, hc] using h
  | ld acc addr w k =>
    refine ⟨⟨_, _, .ld acc addr w k c, trivial⟩, ?_⟩
    rintro c' ⟨ev, hs, _⟩; cases hs; exact h
  | st acc addr w v =>
    refine ⟨⟨_, _, .st acc addr w v c, trivial⟩, ?_⟩
    rintro c' ⟨ev, hs, _⟩; cases hs; exact h
  | ll acc tear addr w k =>
    refine ⟨⟨_, _, .ll acc tear addr w k c, rfl⟩, ?_⟩
    rintro c' ⟨ev, hs, hq⟩
    cases hs with
    | ll => exact h
    | llTear => simp at hq
  | sc acc addr w v k =>
    refine ⟨?_, ?_⟩
    · by_cases hr : c.resv = some (addr c.rs, w / 8)
      · exact ⟨_, _, .scOk acc addr w v k c 0 hr, fun _ => by simp⟩
      · exact ⟨_, _, .scFail acc addr w v k c 0, fun h' => absurd h' hr⟩
    · rintro c' ⟨ev, hs, hq⟩
      cases hs with
      | scOk _ _ _ _ _ _ j hr => simp only [qIns, hr, if_true] at h; exact h j
      | scFail _ _ _ _ _ _ j => simp only [qIns, if_neg (fun hr => hq hr rfl)] at h; exact h j
  | rmw acc addr w f k =>
    refine ⟨?_, ?_⟩
    · cases hf : f c.rs (load e c.mem (addr c.rs) w) with
      | none => exact ⟨_, _, .rmwNo acc addr w f k c hf, trivial⟩
      | some y => exact ⟨_, _, .rmwYes acc addr w f k c y hf, trivial⟩
    · rintro c' ⟨ev, hs, _⟩
      cases hs with
      | rmwNo _ _ _ _ _ _ hf => exact h.1 hf
      | rmwYes _ _ _ _ _ _ y hf => exact h.2 y hf
  | clrex =>
    refine ⟨⟨_, _, .clrex c, trivial⟩, ?_⟩
    rintro c' ⟨ev, hs, _⟩; cases hs; exact h

/-- Symbolic execution of quiet runs. -/
def qwp (e : Endian) {W : Nat} (P : List (Instr W)) : Nat → QAssn W
  | 0, pc => fun _ _ _ => pc = P.length
  | n + 1, pc => match P[pc]? with
    | some i => qIns e (qwp e P n) i pc
    | none => fun _ _ _ => pc = P.length

theorem qwp_sound {e : Endian} {W : Nat} {P : List (Instr W)} {n : Nat} {c : Cfg W}
    (h : qwp e P n c.pc c.rs c.mem c.resv) : Finishes e P n c := by
  induction n generalizing c with
  | zero => exact h
  | succ n ih =>
    simp only [qwp] at h
    cases hi : P[c.pc]? with
    | none => rw [hi] at h; exact .inl h
    | some i =>
      rw [hi] at h
      have := qIns_sound h
      exact .inr ⟨i, hi, this.1, fun c' hc => ih (this.2 c' hc)⟩

theorem Finishes.succ {e : Endian} {W : Nat} {P : List (Instr W)} {n : Nat} {c : Cfg W}
    (h : Finishes e P n c) : Finishes e P (n + 1) c := by
  induction n generalizing c with
  | zero => exact .inl h
  | succ n ih =>
    rcases h with h | ⟨i, h1, h2, h3⟩
    · exact .inl h
    · exact .inr ⟨i, h1, h2, fun c' hc => ih (h3 c' hc)⟩

theorem Finishes.mono {e : Endian} {W : Nat} {P : List (Instr W)} {n k : Nat} {c : Cfg W}
    (h : Finishes e P n c) (hk : n ≤ k) : Finishes e P k c := by
  induction hk with
  | refl => exact h
  | step _ ih => exact ih.succ

/-- The instruction at index `pc` jumps forward inside the program or to a loop head. -/
def Instr.Targets {W : Nat} (n : Nat) (heads : List Nat) (pc : Nat) : Instr W → Prop
  | .br _ t => t ≤ n ∧ (pc < t ∨ t ∈ heads)
  | _ => True

/-- All instructions of `P`, the first of which has index `pc`. -/
def AllTargets {W : Nat} (n : Nat) (heads : List Nat) : Nat → List (Instr W) → Prop
  | _, [] => True
  | pc, i :: P => i.Targets n heads pc ∧ AllTargets n heads (pc + 1) P

theorem AllTargets.get {W : Nat} {n : Nat} {heads : List Nat} {P : List (Instr W)} {b pc : Nat}
    {i : Instr W} (h : AllTargets n heads b P) (hi : P[pc]? = some i) : i.Targets n heads (b + pc) := by
  induction P generalizing b pc with
  | nil => simp at hi
  | cons j P ih =>
    cases pc with
    | zero => simp at hi; subst hi; exact h.1
    | succ pc =>
      have := ih h.2 (by simpa using hi)
      rwa [show b + 1 + pc = b + (pc + 1) by omega] at this

theorem step_pc {e : Endian} {W : Nat} {i : Instr W} {c c' : Cfg W} {ev : Ev} {n : Nat}
    {heads : List Nat} (hs : Step e i c ev c') (ht : i.Targets n heads c.pc) (hlt : c.pc < n) :
    c'.pc ≤ n ∧ (c.pc < c'.pc ∨ c'.pc ∈ heads) := by
  cases hs with
  | br cond t =>
    simp only
    split
    · exact ht
    · omega
  | _ => simp only; omega

theorem run_pc_le {e : Endian} {W : Nat} {P : List (Instr W)} {heads : List Nat}
    (ht : AllTargets P.length heads 0 P)
    {c0 : Cfg W} (h0 : c0.pc = 0) {tr : List TEv} {c : Cfg W} (h : Run e P c0 tr c) :
    c.pc ≤ P.length := by
  induction h with
  | nil => omega
  | env h m' r' hr ih => exact ih
  | own h hi hs ih =>
    rename_i tr c i ev c'
    have hlt : c.pc < P.length := by
      rcases Nat.lt_or_ge c.pc P.length with h | h
      · exact h
      · rw [List.getElem?_eq_none h] at hi; cases hi
    exact (step_pc hs (by simpa using ht.get hi) hlt).1

theorem qstep_exists {e : Endian} {W : Nat} (i : Instr W) (c : Cfg W) : ∃ c', QStep e i c c' := by
  have : qIns e (fun _ _ _ _ => True) i c.pc c.rs c.mem c.resv := by cases i <;> simp [qIns]
  exact (qIns_sound this).1

/-- Proof rule: jumps go forward or to a loop head, and from the loop heads symbolic execution reaches
the end, for every register state, memory and reservation. -/
theorem Block.progress_of {W w : Nat} {e : Endian} {B : Block W w} (N : Nat) (heads : List Nat)
    (ht : AllTargets B.code.length heads 0 B.code)
    (h : ∀ hd ∈ heads, ∀ rs m resv, qwp e B.code N hd rs m resv)
    (hl : N + B.code.length ≤ maxAlone := by first | exact Nat.le_of_ble_eq_true rfl | simp [asm]) :
    B.Progress e := by
  have key : ∀ d (c : Cfg W), c.pc ≤ B.code.length → B.code.length - c.pc ≤ d →
      Finishes e B.code (N + d) c := by
    intro d
    induction d with
    | zero =>
      intro c h1 h2
      have : c.pc = B.code.length := by omega
      cases N with
      | zero => exact this
      | succ n => exact .inl this
    | succ d ih =>
      intro c h1 h2
      rcases Nat.lt_or_ge c.pc B.code.length with hlt | hge
      · obtain ⟨i, hi⟩ : ∃ i, B.code[c.pc]? = some i := ⟨_, List.getElem?_eq_getElem hlt⟩
        refine .inr ⟨i, hi, qstep_exists i c, ?_⟩
        rintro c' ⟨ev, hs, _⟩
        obtain ⟨h3, h4⟩ := step_pc hs (by simpa using ht.get hi) hlt
        rcases h4 with h4 | h4
        · exact ih c' h3 (by omega)
        · exact (qwp_sound (c := c') (h _ h4 c'.rs c'.mem c'.resv)).mono (Nat.le_add_right N d)
      · exact .inl (by omega)
  exact ⟨N + B.code.length, hl, fun _ _ c h0 _ hr => key _ c (run_pc_le ht h0 hr) (by omega)⟩

/-- As `progress_of`, knowing in addition that registers which the block does not write still have the value
they had at the start. -/
theorem Block.progress_of_frame {W w : Nat} {e : Endian} {B : Block W w} (N : Nat) (heads : List Nat)
    (ht : AllTargets B.code.length heads 0 B.code) (hf : ∀ i ∈ B.code, i.Frame B.outs)
    (h : ∀ rs0, B.pre rs0 → ∀ hd ∈ heads, ∀ rs, (∀ j, ¬ B.outs j → rs.r j = rs0.r j) →
      ∀ m resv, qwp e B.code N hd rs m resv)
    (hl : N + B.code.length ≤ maxAlone := by first | exact Nat.le_of_ble_eq_true rfl | simp [asm]) :
    B.Progress e := by
  have key : ∀ rs0, B.pre rs0 → ∀ d (c : Cfg W), c.pc ≤ B.code.length → B.code.length - c.pc ≤ d →
      (∀ j, ¬ B.outs j → c.rs.r j = rs0.r j) → Finishes e B.code (N + d) c := by
    intro rs0 hpre d
    induction d with
    | zero =>
      intro c h1 h2 _
      have : c.pc = B.code.length := by omega
      cases N with
      | zero => exact this
      | succ n => exact .inl this
    | succ d ih =>
      intro c h1 h2 hfr
      rcases Nat.lt_or_ge c.pc B.code.length with hlt | hge
      · obtain ⟨i, hi⟩ : ∃ i, B.code[c.pc]? = some i := ⟨_, List.getElem?_eq_getElem hlt⟩
        refine .inr ⟨i, hi, qstep_exists i c, ?_⟩
        rintro c' ⟨ev, hs, _⟩
        obtain ⟨h3, h4⟩ := step_pc hs (by simpa using ht.get hi) hlt
        have hfr' : ∀ j, ¬ B.outs j → c'.rs.r j = rs0.r j := fun j hj =>
          (step_frame (hf _ (List.mem_of_getElem? hi)) hs hj).trans (hfr j hj)
        rcases h4 with h4 | h4
        · exact ih c' h3 (by omega) hfr'
        · exact (qwp_sound (c := c') (h rs0 hpre _ h4 c'.rs hfr' c'.mem c'.resv)).mono (Nat.le_add_right N d)
      · exact .inl (by omega)
  exact ⟨N + B.code.length, hl, fun c0 _ c h0 hp hr => key c0.rs hp _ c (run_pc_le ht h0 hr) (by omega)
    (frame_of hf c0 _ c hr)⟩

/-- An input operand that may not share its register with any output is never written. -/
theorem Alloc.not_outs {kind : Op → Kind} {al : Alloc kind} {o : Op}
    (h : ∀ o', (kind o').isOut = true → o' ≠ o ∧ (kind o').mayAlias (kind o) = false) :
    ¬ al.Outs (al.reg o) := by
  rintro ⟨o', h1, h2⟩
  exact al.ne o' o (h o' h1).1 (h o' h1).2 h2

theorem Finishes.exists_run {e : Endian} {W : Nat} {P : List (Instr W)} {n : Nat} {c0 c : Cfg W}
    {tr : List TEv} (hr : Run e P c0 tr c) (h : Finishes e P n c) :
    ∃ tr' c', Run e P c0 tr' c' ∧ c'.pc = P.length := by
  induction n generalizing c tr with
  | zero => exact ⟨tr, c, hr, h⟩
  | succ n ih =>
    rcases h with h | ⟨i, hi, ⟨c', hq⟩, h3⟩
    · exact ⟨tr, c, hr, h⟩
    · obtain ⟨ev, hs, _⟩ := hq
      exact ih (hr.own hi hs) (h3 c' ⟨ev, hs, ‹_›⟩)

/-- A block with progress has completed runs from every admissible start: the theorems about completed
runs are not vacuous. -/
theorem Block.Progress.completed {W w : Nat} {e : Endian} {B : Block W w} (h : B.Progress e)
    {rs : RS W} (hp : B.pre rs) : ∃ tr rs', B.Completed e tr rs' := by
  obtain ⟨N, -, hN⟩ := h
  obtain ⟨tr, c, h1, h2⟩ := (hN ⟨0, rs, fun _ => 0, none⟩ [] _ rfl hp .nil).exists_run .nil
  exact ⟨tr, c.rs, _, c, rfl, hp, h1, h2, rfl⟩

theorem Op.ctorIdx_inj : ∀ a b : Op, a.ctorIdx = b.ctorIdx → a = b := by
  intro a b h
  cases a <;> cases b <;> first | rfl | (exact absurd h (by decide))

/-- The allocation that gives every operand its own register. -/
def Alloc.std (kind : Op → Kind) : Alloc kind where
  reg o := o.ctorIdx
  ne a b h _ := fun h' => h (Op.ctorIdx_inj a b h')

@[simp] theorem Alloc.std_eq {kind : Op → Kind} {a b : Op} :
    (Alloc.std kind).reg a = (Alloc.std kind).reg b ↔ a = b :=
  ⟨fun h => Op.ctorIdx_inj a b h, by rintro rfl; rfl⟩

/-- A register file holding the given operands. -/
def argRegs {W : Nat} : List Arg → RS W
  | [] => ⟨fun _ => 0, false, 0⟩
  | x :: xs => (argRegs xs).set x.reg (x.v.setWidth W)

theorem argRegs_get {W : Nat} {xs : List Arg} (hd : (xs.map Arg.reg).Nodup) {x : Arg} (hx : x ∈ xs) :
    (argRegs (W := W) xs).r x.reg = x.v.setWidth W := by
  induction xs with
  | nil => cases hx
  | cons y ys ih =>
    simp only [List.map_cons, List.nodup_cons, List.mem_map, not_exists, not_and] at hd
    simp only [argRegs, RS.set_r]
    rcases List.mem_cons.1 hx with rfl | hx
    · simp
    · rw [if_neg (fun h => hd.1 x hx h)]; exact ih hd.2 hx

/-- If the operands are in different registers, some register file is an admissible start. -/
theorem argRegs_pre {W w : Nat} {B : Block W w} (hd : (B.args.map Arg.reg).Nodup)
    (hn : ∀ x ∈ B.args, x.n ≤ W) : B.pre (argRegs B.args) := by
  intro x hx
  rw [argRegs_get hd hx]
  have := hn x hx
  apply BitVec.eq_of_toNat_eq
  have h1 := x.v.isLt
  have h2 : 2 ^ x.n ≤ 2 ^ W := Nat.pow_le_pow_right (by decide) this
  rw [BitVec.toNat_setWidth, BitVec.toNat_setWidth, Nat.mod_eq_of_lt (Nat.lt_of_lt_of_le h1 h2),
    Nat.mod_eq_of_lt h1]

/-- Completed runs exist. -/
theorem Block.Progress.completed' {W w : Nat} {e : Endian} {B : Block W w} (h : B.Progress e)
    (hd : (B.args.map Arg.reg).Nodup) (hn : ∀ x ∈ B.args, x.n ≤ W) :
    ∃ tr rs', B.Completed e tr rs' := h.completed (argRegs_pre hd hn)

attribute [asm] qwp qIns AllTargets Instr.Targets

/-- Closes `B.Progress e` for a concrete loop-free block. -/
macro "progress_straight" : tactic =>
  `(tactic| exact Block.progress_of 0 [] (by simp [asm]) (by simp))
/-- Closes `B.Progress e` for a concrete block with one loop head; `n` bounds the number of
instructions executed from the loop head when running alone. -/
macro "progress_loop" n:num head:num : tactic =>
  `(tactic| (refine Block.progress_of $n [$head] (by simp [asm]) ?_;
             rintro hd (_ | ⟨_, ⟨⟩⟩) rs m resv; simp [asm]))
/-- As `progress_loop`, with one more fact for the simplifier. -/
macro "progress_loop" n:num head:num "with" t:term : tactic =>
  `(tactic| (refine Block.progress_of $n [$head] (by simp [asm]) ?_;
             rintro hd (_ | ⟨_, ⟨⟩⟩) rs m resv; simp [asm, $t:term]))
/-- For compare-and-swap loops: alone, the second round succeeds. `a` is the register holding the
expected value, `d` the register holding the address. -/
macro "progress_cas_loop" n:num head:num e:term:max a:term:max d:term:max : tactic =>
  `(tactic| (refine Block.progress_of (e := $e) $n [$head] (by simp [asm]) ?_;
             rintro hd (_ | ⟨_, ⟨⟩⟩) rs m resv;
             rcases Decidable.em (load $e m (RS.r rs $d).toNat _ = RS.r rs $a) with h | h;
             (· simp [asm, h]); (· simp [asm, h, Ne.symm h])))

end Verif
