/-
Register allocation of `asm!` operands, and the proof interface used by every architecture.

Rust reference, "Inline assembly / Operand type": an `in` operand may share its register with a
`lateout`/`inlateout` operand or with another `in` operand holding the same value; all outputs are in
different registers; `out`/`inout` registers are different from all inputs.  `Alloc kind` is an arbitrary
assignment obeying exactly these rules, and the theorems quantify over it.
-/
import Verif.Core.Sound

namespace Verif

/-- Operand names appearing in the `asm!` blocks of src/arch/*.rs (explicit registers such as
`r4`, `rbx` are operands too: they obey the same rules). -/
inductive Op where
  | src | dst | val | out | old | new | r | tmp | tmp2 | mask | shift | cr
  | val_lo | val_hi | out_lo | out_hi | old_lo | old_hi | new_lo | new_hi | prev_lo | prev_hi
  | tmp_lo | tmp_hi | out_ptr | fn_ptr | lr | inv_mask | dst_sft | prev | shift_c | rbx_tmp | x0 | x1 | x2 | x3 | x4 | x5
deriving DecidableEq, Repr

/-- Operand classes of `asm!`; `unused` = not an operand of the block. -/
inductive Kind where
  | inp | out | lateout | inout | inlateout | unused
deriving DecidableEq, Repr

/-- May operands of these classes share a register? -/
def Kind.mayAlias : Kind → Kind → Bool
  | .unused, _ => true
  | _, .unused => true
  | .inp, .inp => true
  | .inp, .lateout => true
  | .lateout, .inp => true
  | .inp, .inlateout => true
  | .inlateout, .inp => true
  | _, _ => false

/-- Is the operand an output (written by the block)? -/
def Kind.isOut : Kind → Bool
  | .out | .lateout | .inout | .inlateout => true
  | _ => false

/-- A register assignment the compiler may choose. -/
structure Alloc (kind : Op → Kind) where
  reg : Op → Nat
  ne : ∀ a b, a ≠ b → (kind a).mayAlias (kind b) = false → reg a ≠ reg b

instance (kind : Op → Kind) : CoeFun (Alloc kind) (fun _ => Op → Nat) := ⟨Alloc.reg⟩

/-- Distinct operands that may not share a register do not. -/
theorem Alloc.ne_eq {kind : Op → Kind} (al : Alloc kind) {a b : Op}
    (h : (decide (a = b) || (kind a).mayAlias (kind b)) = false) : (al a = al b) = False := by
  simp only [Bool.or_eq_false_iff, decide_eq_false_iff_not] at h
  simp only [eq_iff_iff, iff_false]
  exact al.ne a b h.1 h.2

/-- The registers an `asm!` block may change: those of its output operands. -/
def Alloc.Outs {kind : Op → Kind} (al : Alloc kind) (j : Nat) : Prop :=
  ∃ o, (kind o).isOut = true ∧ al o = j

theorem Implements.ensures {e : Endian} {W : Nat} {P : List (Instr W)} {pre : RS W → Prop}
    {post : Mem → Mem → RS W → Mon → Prop} {post' : RS W → Mon → Prop}
    (h : Implements e P pre post) (hp : ∀ m m' rs M, post m m' rs M → post' rs M) :
    Ensures e P pre post' := by
  intro c0 tr c h1 h2 h3 h4
  obtain ⟨_, _, _, _, _, _, _, hpost⟩ := h.run h1 h2 h3 h4
  exact hp _ _ _ _ hpost

theorem Implements.mono {e : Endian} {W : Nat} {P : List (Instr W)} {pre pre' : RS W → Prop}
    {post post' : Mem → Mem → RS W → Mon → Prop}
    (h : Implements e P pre post) (hpre : ∀ rs, pre' rs → pre rs)
    (hp : ∀ m m' rs M, post m m' rs M → post' m m' rs M) :
    Implements e P pre' post' := by
  intro c0 tr c h1 h2 h3 h4
  exact (h c0 tr c h1 (hpre _ h2) h3 h4).imp fun m m' => hp m m' _ _

/-- Proof rule for `Implements`: invariants at the cut points, weakest preconditions elsewhere. -/
theorem implements_of_wp {e : Endian} {W : Nat} {P : List (Instr W)} {pre : RS W → Prop}
    {Q : Mem → Mem → RS W → Mon → Prop} (cut : Cuts W) (N : Nat)
    (hcut : ∀ pc I, cut pc = some I → ∀ rs g, I rs g → wpAt e P cut (Last Q) N pc rs g)
    (h0 : ∀ rs m, pre rs → wp e P cut (Last Q) N 0 rs { snap := m, last := none, mon := {} }) :
    Implements e P pre Q := by
  intro c0 tr c hpc hpre hrun hend
  exact sound_atomic (valid_wp hcut) hpc ⟨N, h0 _ _ hpre⟩ hrun hend

/-- Straight-line programs need no cut point. -/
theorem implements_straight {e : Endian} {W : Nat} {P : List (Instr W)} {pre : RS W → Prop}
    {Q : Mem → Mem → RS W → Mon → Prop} (N : Nat)
    (h0 : ∀ rs m, pre rs → wp e P (fun _ => none) (Last Q) N 0 rs
      { snap := m, last := none, mon := {} }) :
    Implements e P pre Q :=
  implements_of_wp (fun _ => none) N (by intro _ _ h; cases h) h0

/-- Programs with one loop head. -/
theorem implements_loop {e : Endian} {W : Nat} {P : List (Instr W)} {pre : RS W → Prop}
    {Q : Mem → Mem → RS W → Mon → Prop} (head : Nat) (I : Assn W) (N : Nat)
    (hI : ∀ rs g, I rs g →
      wpAt e P (fun pc => if pc = head then some I else none) (Last Q) N head rs g)
    (h0 : ∀ rs m, pre rs → wp e P (fun pc => if pc = head then some I else none) (Last Q) N 0 rs
      { snap := m, last := none, mon := {} }) :
    Implements e P pre Q := by
  refine implements_of_wp _ N ?_ h0
  intro pc J h rs g hg
  split at h
  · rename_i hpc
    cases h
    subst hpc
    exact hI rs g hg
  · cases h

@[simp, asm] theorem clean_iff {g : Ghost} : g.Clean ↔ g.mon.wr = none := Iff.rfl
@[simp] theorem Mon.onRd_wr {M : Mon} {a : Acc} : (M.onRd a).wr = M.wr := rfl
@[simp] theorem Mon.onFence_wr {M : Mon} {p : Pairs} : (M.onFence p).wr = M.wr := rfl

/-! ### Register frame -/

/-- The instruction changes no register outside `S`. -/
def Instr.Frame {W : Nat} (S : Nat → Prop) : Instr W → Prop
  | .op f => ∀ o rs j, (f o rs).r j ≠ rs.r j → S j
  | .ld _ _ w k => ∀ (x : BitVec w) rs j, (k x rs).r j ≠ rs.r j → S j
  | .ll _ _ _ w k => ∀ (x : BitVec w) rs j, (k x rs).r j ≠ rs.r j → S j
  | .sc _ _ _ _ k => ∀ b n rs j, (k b n rs).r j ≠ rs.r j → S j
  | .rmw _ _ w _ k => ∀ (x : BitVec w) rs j, (k x rs).r j ≠ rs.r j → S j
  | _ => True

theorem step_frame {e : Endian} {W : Nat} {S : Nat → Prop} {i : Instr W} {c c' : Cfg W} {ev : Ev}
    (hf : i.Frame S) (hs : Step e i c ev c') {j : Nat} (hj : ¬ S j) : c'.rs.r j = c.rs.r j := by
  cases hs with
  | op f _ o => exact Decidable.byContradiction fun h => hj (hf o _ _ h)
  | ld acc addr w k => exact Decidable.byContradiction fun h => hj (hf _ _ _ h)
  | ll acc tear addr w k => exact Decidable.byContradiction fun h => hj (hf _ _ _ h)
  | llTear acc addr w k _ mt => exact Decidable.byContradiction fun h => hj (hf _ _ _ h)
  | scOk acc addr w v k _ n h => exact Decidable.byContradiction fun h => hj (hf _ _ _ _ h)
  | scFail acc addr w v k _ n => exact Decidable.byContradiction fun h => hj (hf _ _ _ _ h)
  | rmwNo acc addr w f k _ h => exact Decidable.byContradiction fun h => hj (hf _ _ _ h)
  | rmwYes acc addr w f k _ y h => exact Decidable.byContradiction fun h => hj (hf _ _ _ h)
  | _ => rfl

theorem frame_of {e : Endian} {W : Nat} {P : List (Instr W)} {S : Nat → Prop}
    (h : ∀ i ∈ P, i.Frame S) : Frame e P S := by
  intro c0 tr c hrun
  induction hrun with
  | nil => intro j _; rfl
  | own h1 hi hs ih =>
    intro j hj
    rw [step_frame (h _ (List.mem_of_getElem? hi)) hs hj, ih j hj]
  | env h1 m' r' hr ih => exact ih

theorem Alloc.outs_mem {kind : Op → Kind} {al : Alloc kind} {o : Op}
    (ho : ((kind o).isOut || false) = true) : al.Outs (al.reg o) = True := by
  simp only [eq_iff_iff, iff_true]
  exact ⟨o, by simpa using ho, rfl⟩

/-- The instruction changes no flag. -/
def Instr.KeepsFlags {W : Nat} : Instr W → Prop
  | .op f => ∀ o rs, (f o rs).z = rs.z ∧ (f o rs).cc = rs.cc
  | .ld _ _ w k => ∀ (x : BitVec w) rs, (k x rs).z = rs.z ∧ (k x rs).cc = rs.cc
  | .ll _ _ _ w k => ∀ (x : BitVec w) rs, (k x rs).z = rs.z ∧ (k x rs).cc = rs.cc
  | .sc _ _ _ _ k => ∀ b n rs, (k b n rs).z = rs.z ∧ (k b n rs).cc = rs.cc
  | .rmw _ _ w _ k => ∀ (x : BitVec w) rs, (k x rs).z = rs.z ∧ (k x rs).cc = rs.cc
  | _ => True

theorem step_flags {e : Endian} {W : Nat} {i : Instr W} {c c' : Cfg W} {ev : Ev}
    (hf : i.KeepsFlags) (hs : Step e i c ev c') : c'.rs.z = c.rs.z ∧ c'.rs.cc = c.rs.cc := by
  cases hs with
  | op f _ o => exact hf o _
  | ld acc addr w k => exact hf _ _
  | ll acc tear addr w k => exact hf _ _
  | llTear acc addr w k _ mt => exact hf _ _
  | scOk acc addr w v k _ n h => exact hf _ _ _
  | scFail acc addr w v k _ n => exact hf _ _ _
  | rmwNo acc addr w f k _ h => exact hf _ _
  | rmwYes acc addr w f k _ y h => exact hf _ _
  | _ => exact ⟨rfl, rfl⟩

theorem keepsFlags_of {e : Endian} {W : Nat} {P : List (Instr W)}
    (h : ∀ i ∈ P, i.KeepsFlags) : KeepsFlags e P := by
  intro c0 tr c hrun
  induction hrun with
  | nil => exact ⟨rfl, rfl⟩
  | own h1 hi hs ih =>
    have := step_flags (h _ (List.mem_of_getElem? hi)) hs
    exact ⟨this.1.trans ih.1, this.2.trans ih.2⟩
  | env h1 m' r' hr ih => exact ih

/-- Closes `∀ i ∈ P, i.Frame al.Outs` for a concrete program. -/
macro "frame_tac" : tactic =>
  `(tactic| (simp +contextual [asm, Instr.Frame, Alloc.outs_mem, Kind.isOut] <;>
    (repeat' apply And.intro) <;>
    (intros; rename_i h; revert h; (repeat' split) <;> intro h <;>
      first
        | exact absurd rfl h
        | (subst_vars; simp [asm, Alloc.outs_mem, Kind.isOut])
        | (have hj := (‹_ ∧ _› : _ ∧ _).2; subst hj; simp [asm, Alloc.outs_mem, Kind.isOut]))))

/-- Closes `∀ i ∈ P, i.KeepsFlags` for a concrete program. -/
macro "flags_tac" : tactic =>
  `(tactic| (simp [asm, Instr.KeepsFlags]))

/-- Closes the register contract of one concrete block. -/
macro "contract_tac" : tactic =>
  `(tactic| exact ⟨frame_of (by frame_tac), fun h => by
      first
        | exact absurd (show false = true from h) Bool.false_ne_true
        | exact keepsFlags_of (by flags_tac)⟩)

attribute [asm] RS.setIf_r RS.setIf_z RS.setIf_cc wp wpAt wpIns Ghost.fence Ghost.rd Ghost.ll Ghost.wr Ghost.rmw Last
  RS.set_r RS.set_z RS.set_cc RS.setZ_r RS.setZ_z RS.setZ_cc RS.setCC_r RS.setCC_z RS.setCC_cc
  Alloc.ne_eq Kind.mayAlias

end Verif
