/-
PowerPC: `isync` orders a load before everything later only if a conditional branch that depends on the loaded value, or
on the success of the store-conditional paired with the load, lies between the two (Power ISA Book II; powerpc.rs l.103-105, l.109). The
monitor of C13/C16 takes every `isync` for such a barrier; here it is proved that every `isync` these blocks execute
is one, in every execution.

"Depends" is the syntactic dependency of the Power ISA: through registers and the condition register, whatever the
values (`cmpw out, out` depends on `out`).
-/
import Verif.Props.PowerPC

namespace Verif.PowerPC

/-- What an instruction can use or set: a register, cr0, the reservation. -/
inductive Loc where
  | reg (n : Nat)
  | cr0
  | resv
deriving DecidableEq
open Loc

/-- locations used -/
def I.uses : I → List Loc
  | .l _ _ s | .larx _ _ s | .lq _ _ s | .lqarx _ _ s => [reg s]
  | .st _ v s => [reg v, reg s]
  | .stcx _ v s => [reg v, reg s, resv]
  | .stq vhi vlo s => [reg vhi, reg vlo, reg s]
  | .stqcx vhi vlo s => [reg vhi, reg vlo, reg s, resv]
  | .cmp _ a b => [reg a, reg b]
  | .bne _ => [cr0]
  | .slw _ a b | .srw _ a b | .and _ a b | .andc _ a b | .or _ a b | .xor _ a b | .orDot _ a b => [reg a, reg b]
  | .mfcr _ => [cr0]
  | .fence _ => []
/-- locations set -/
def I.defs : I → List Loc
  | .l _ t _ => [reg t]
  | .larx _ t _ => [reg t, resv]
  | .lq thi tlo _ => [reg thi, reg tlo]
  | .lqarx thi tlo _ => [reg thi, reg tlo, resv]
  | .st .. | .stq .. => []
  | .stcx .. | .stqcx .. => [cr0, resv]
  | .cmp .. => [cr0]
  | .slw t _ _ | .srw t _ _ | .and t _ _ | .andc t _ _ | .or t _ _ | .xor t _ _ => [reg t]
  | .orDot t _ _ => [reg t, cr0]
  | .mfcr t => [reg t]
  | .bne _ | .fence _ => []
/-- Is it a load? -/
def I.isLoad : I → Bool
  | .l .. | .larx .. | .lq .. | .lqarx .. => true
  | _ => false
/-- Is it a conditional branch? -/
def I.isBranch : I → Bool
  | .bne _ => true
  | _ => false
/-- Is it `isync`? -/
def I.isIsync : I → Prop
  | .fence p => p = isync
  | _ => False

/-- After the executed instructions (newest first), `x` depends on the last load. -/
def Depends : List I → Loc → Prop
  | [], _ => False
  | i :: before, x =>
    if x ∈ i.defs then i.isLoad = true ∨ ∃ y ∈ i.uses, Depends before y else i.isLoad = false ∧ Depends before x
/-- A conditional branch that depends on the last load has been executed since that load. -/
def Guarded : List I → Prop
  | [] => False
  | i :: before => i.isLoad = false ∧ ((i.isBranch = true ∧ ∃ x ∈ i.uses, Depends before x) ∨ Guarded before)

/-- Executions of a program, with the executed instructions, newest first. -/
inductive Exec (e : Endian) {W : Nat} (P : List I) (c0 : Cfg W) : List I → Cfg W → Prop
  | nil : Exec e P c0 [] c0
  | own {is c i ev c'} (h : Exec e P c0 is c) (hi : P[c.pc]? = some i) (hs : Step e (i.sem : Instr W) c ev c') :
      Exec e P c0 (i :: is) c'
  | env {is c} (h : Exec e P c0 is c) (m' : Mem) (r' : Option (Nat × Nat)) (hr : EnvResv c.mem m' c.resv r') :
      Exec e P c0 is { c with mem := m', resv := r' }

/-- Whenever the program comes to an `isync`, a branch that depends on the last load has been executed since that load. -/
def IsyncOK (P : List I) : Prop :=
  ∀ (e : Endian) (W : Nat) (c0 c : Cfg W) (is : List I) (i : I), c0.pc = 0 → Exec e P c0 is c → P[c.pc]? = some i →
    i.isIsync → Guarded is

/-- where the instruction can continue -/
def I.next (i : I) (pc pc' : Nat) : Prop := pc' = pc + 1 ∨ ∃ t, i = .bne t ∧ pc' = t

theorem next_of_step {e : Endian} {W : Nat} {i : I} {c c' : Cfg W} {ev : Ev} (h : Step e (i.sem : Instr W) c ev c') :
    i.next c.pc c'.pc := by
  cases i <;> simp only [I.sem, l, st, larx, stcx, lq, stq, lqarx, stqcx, cmp, bne, slw, srw, and, andc, or, xor, orDot, mfcr] at h <;>
    cases h <;> first | exact .inl rfl | skip
  rename_i t
  by_cases hz : (!c.rs.z) = true
  · exact .inr ⟨t, rfl, by simp [hz]⟩
  · exact .inl (by simp [hz])

/-- Facts about the executed instructions, one for each place. -/
theorem isyncOK_of {P : List I} (inv : Nat → List I → Prop) (h0 : inv 0 [])
    (hstep : ∀ pc i is pc', P[pc]? = some i → inv pc is → i.next pc pc' → inv pc' (i :: is))
    (hi : ∀ pc i is, P[pc]? = some i → i.isIsync → inv pc is → Guarded is) : IsyncOK P := by
  intro e W c0 c is i hpc hx hc hs
  refine hi _ _ _ hc hs ?_
  clear hc hs
  induction hx with
  | nil => rw [hpc]; exact h0
  | own _ hi hs ih => exact hstep _ _ _ _ hi ih (next_of_step hs)
  | env _ _ _ _ ih => exact ih

/-- Check one place after the other. -/
def placesOK (P : List I) (inv : Nat → List I → Prop) : List I → Nat → Prop
  | [], _ => True
  | i :: rest, pc => (∀ is, inv pc is → (i.isIsync → Guarded is) ∧ inv (pc + 1) (i :: is) ∧ ∀ t, i = .bne t → inv t (i :: is)) ∧
      placesOK P inv rest (pc + 1)

theorem placesOK_get {P : List I} {inv} : ∀ (l : List I) (k : Nat), placesOK P inv l k → ∀ j i, l[j]? = some i →
    ∀ is, inv (k + j) is → (i.isIsync → Guarded is) ∧ inv (k + j + 1) (i :: is) ∧ ∀ t, i = .bne t → inv t (i :: is)
  | [], _, _, _, _, h => by simp at h
  | x :: l, k, h, 0, i, hj => by
      simp at hj; subst hj; exact h.1
  | x :: l, k, h, j + 1, i, hj => by
      have := placesOK_get l (k + 1) h.2 j i (by simpa using hj)
      rwa [show k + (j + 1) = k + 1 + j by omega]

theorem isyncOK_places {P : List I} (inv : Nat → List I → Prop) (h0 : inv 0 []) (h : placesOK P inv P 0) : IsyncOK P := by
  have key := placesOK_get P 0 h
  refine isyncOK_of inv h0 (fun pc i is pc' hi hv hn => ?_) (fun pc i is hi hs hv => ?_)
  · have := key pc i hi is (by rwa [Nat.zero_add])
    rw [Nat.zero_add] at this
    rcases hn with rfl | ⟨t, ht, rfl⟩
    · exact this.2.1
    · exact this.2.2 _ ht
  · exact (key pc i hi is (by rwa [Nat.zero_add])).1 hs

/-- the programs that load nothing before an `isync`, e.g. stores: there is none -/
theorem isyncOK_none {P : List I} (h : ∀ i ∈ P, ¬ i.isIsync) : IsyncOK P :=
  isyncOK_of (fun _ _ => True) trivial (fun _ _ _ _ _ _ _ => trivial)
    (fun _ _ _ hi hs _ => absurd hs (h _ (List.mem_of_getElem? hi)))

/-- one proof per program, from the facts for each place -/
macro "isync_tac" " [" ts:Lean.Parser.Tactic.simpLemma,* "]" : tactic => `(tactic|
  simp +contextual [placesOK, I.isIsync, Depends, Guarded, I.defs, I.uses, I.isLoad, I.isBranch, $ts,*])

theorem loadAcq_isync (al : Op → Nat) (w : Nat) {f : Pairs} (hf : f ≠ isync) : IsyncOK (loadAcqProg al w f) := by
  refine isyncOK_places (fun pc is => match pc with
    | 0 | 1 => True
    | 2 => Depends is (reg (al .out))
    | 3 => Depends is cr0
    | _ => Guarded is) trivial ?_
  isync_tac [loadAcqProg, hf]

theorem lqAcq_isync (al : Op → Nat) {f : Pairs} (hf : f ≠ isync) : IsyncOK (lqAcqProg al f) := by
  refine isyncOK_places (fun pc is => match pc with
    | 0 | 1 => True
    | 2 => Depends is (reg (al .out_hi))
    | 3 => Depends is cr0
    | _ => Guarded is) trivial ?_
  isync_tac [lqAcqProg, hf]

theorem swap_isync (al : Op → Nat) (w : Nat) {f : Pairs × Pairs} (hf : f.2 ≠ isync) : IsyncOK (swapProg al w f) := by
  refine isyncOK_places (fun pc is => match pc with
    | 0 | 1 => True
    | 2 => Depends is resv
    | 3 => Depends is cr0
    | _ => Guarded is) trivial ?_
  isync_tac [swapProg, hf]

theorem swapq_isync (al : Op → Nat) {f : Pairs × Pairs} (hf : f.2 ≠ isync) : IsyncOK (swapqProg al f) := by
  refine isyncOK_places (fun pc is => match pc with
    | 0 | 1 => True
    | 2 => Depends is resv
    | 3 => Depends is cr0
    | _ => Guarded is) trivial ?_
  isync_tac [swapqProg, hf]

theorem subSwap_isync (al : Op → Nat) {f : Pairs × Pairs} (hf : f.2 ≠ isync) : IsyncOK (subSwapProg al f) := by
  refine isyncOK_places (fun pc is => match pc with
    | 0 | 1 | 2 => True
    | 3 | 4 | 5 => Depends is resv
    | 6 => Depends is cr0
    | _ => Guarded is) trivial ?_
  isync_tac [subSwapProg, hf]

theorem cas_isync (al : Op → Nat) (w k : Nat) {o : CO} (hf : o.release ≠ isync) : IsyncOK (casProg al w k o) := by
  refine isyncOK_places (fun pc is => match pc with
    | 0 | 1 => True
    | 2 => Depends is (reg (al .out))
    | 3 => Depends is cr0
    | _ => Guarded is) trivial ?_
  isync_tac [casProg, hf]

theorem weak_isync (al : Op → Nat) (w k : Nat) {o : CO} (hf : o.release ≠ isync) : IsyncOK (weakProg al w k o) := by
  refine isyncOK_places (fun pc is => match pc with
    | 0 | 1 => True
    | 2 => Depends is (reg (al .out))
    | 3 => Depends is cr0
    | _ => Guarded is) trivial ?_
  isync_tac [weakProg, hf]

theorem subCas_isync (al : Op → Nat) {o : CO} (hf : o.release ≠ isync) : IsyncOK (subCasProg al o) := by
  refine isyncOK_places (fun pc is => match pc with
    | 0 | 1 | 2 | 3 => True
    | 4 => Depends is (reg (al .out))
    | 5 => Depends is (reg (al .tmp))
    | 6 => Depends is cr0
    | _ => Guarded is) trivial ?_
  isync_tac [subCasProg, hf]

theorem subWeak_isync (al : Op → Nat) {o : CO} (hf : o.release ≠ isync) : IsyncOK (subWeakProg al o) := by
  refine isyncOK_places (fun pc is => match pc with
    | 0 | 1 | 2 | 3 => True
    | 4 => Depends is (reg (al .out))
    | 5 => Depends is (reg (al .tmp))
    | 6 => Depends is cr0
    | _ => Guarded is) trivial ?_
  isync_tac [subWeakProg, hf]

/-- The three scratch and result registers of the 128-bit compare-exchange differ. -/
theorem casq_ne (al : Alloc casqKind) : al .tmp_lo ≠ al .prev_hi ∧ al .tmp_lo ≠ al .tmp_hi ∧ al .prev_lo ≠ al .prev_hi := by
  simp [asm]

theorem casq_isync (al : Alloc casqKind) {o : CO} (hf : o.release ≠ isync) : IsyncOK (casqProg al o) := by
  refine isyncOK_places (fun pc is => match pc with
    | 0 | 1 => True
    | 2 => Depends is (reg (al .prev_hi))
    | 3 => Depends is (reg (al .prev_hi))
    | 4 => Depends is (reg (al .tmp_hi))
    | 5 => Depends is cr0
    | _ => Guarded is) trivial ?_
  isync_tac [casqProg, hf, casq_ne al, (casq_ne al).1.symm]

theorem weakq_isync (al : Alloc casqKind) {o : CO} (hf : o.release ≠ isync) : IsyncOK (weakqProg al o) := by
  refine isyncOK_places (fun pc is => match pc with
    | 0 | 1 => True
    | 2 => Depends is (reg (al .prev_hi))
    | 3 => Depends is (reg (al .prev_hi))
    | 4 => Depends is (reg (al .tmp_hi))
    | 5 => Depends is cr0
    | _ => Guarded is) trivial ?_
  isync_tac [weakqProg, hf, casq_ne al, (casq_ne al).1.symm]

theorem load_ne {o : Ordering} {f : Pairs} (h : loadOrd o = some (some f)) : f ≠ isync := by
  cases o <;> simp [loadOrd] at h <;> subst h <;> decide
theorem store_ne {o : Ordering} {f : Pairs} (h : storeOrd o = some f) : f ≠ isync := by
  cases o <;> simp [storeOrd] at h <;> subst h <;> decide
theorem rmw_ne (o : Ordering) : (rmwOrd o).2 ≠ isync := by cases o <;> decide
theorem casOrd_ne {s f : Ordering} {o : CO} (h : casOrd s f = some o) : o.release ≠ isync := by
  cases s <;> cases f <;> simp [casOrd, upgradeSuccessOrdering] at h <;> subst h <;> decide

/-- Program `P` is the code of block `B`. -/
inductive Source {W : Nat} (e : Endian) : {w : Nat} → Block W w → List I → Prop
  | load {al w p} : Source e (loadBlock al w p) (loadProg al w)
  | loadAcq {al w f p} : Source e (loadAcqBlock al w f p) (loadAcqProg al w f)
  | lq {al p} : Source e (lqBlock e al p) (lqProg al)
  | lqAcq {al f p} : Source e (lqAcqBlock e al f p) (lqAcqProg al f)
  | store {al w f p val} : Source e (storeBlock al w f p val) (storeProg al w f)
  | stq {al f p val} : Source e (stqBlock e al f p val) (stqProg al f)
  | swap {al w f p val} : Source e (swapBlock al w f p val) (swapProg al w f)
  | subSwap {al w f p val} : Source e (subSwapBlock e al w f p val) (subSwapProg al f)
  | swapq {al f p val} : Source e (swapqBlock e al f p val) (swapqProg al f)
  | cas {al w o p old new} : Source e (casBlock e al w o p old new) (casProg al w (cmpBits w) o)
  | subCas {al w o p old new} : Source e (subCasBlock e al w o p old new) (subCasProg al o)
  | casq {al o p old new} : Source e (casqBlock e al o p old new) (casqProg al o)
  | weak {al w o p old new} : Source e (weakBlock e al w o p old new) (weakProg al w (cmpBits w) o)
  | subWeak {al w o p old new} : Source e (subWeakBlock e al w o p old new) (subWeakProg al o)
  | weakq {al o p old new} : Source e (weakqBlock e al o p old new) (weakqProg al o)

theorem Source.code {W : Nat} {e : Endian} {w : Nat} {B : Block W w} {P : List I} (h : Source e B P) : B.code = P.map I.sem := by
  cases h <;> rfl

/-- C13, C16 on PowerPC: the barrier `isync` is one. In every execution of every block of the back end, whenever an `isync`
is reached, a conditional branch that depends on the last load has been executed since that load. -/
theorem C13_isync_powerpc {W : Nat} (e : Endian) (c : Conf) {w : Nat} {B : Block W w} (h : (backend e W c).IsBlock B) :
    ∃ P, Source e B P ∧ B.code = P.map I.sem ∧ IsyncOK P := by
  have main : ∃ P, Source e B P ∧ IsyncOK P := by
    rcases h with h | h | h | h | h
    · obtain ⟨al, p, _, hf⟩ | ⟨al, p, _, hf⟩ | ⟨al, _, p, hf⟩ | ⟨al, _, p, hf⟩ := h
      · exact ⟨_, .load, isyncOK_none (by simp [loadProg, I.isIsync])⟩
      · exact ⟨_, .loadAcq, loadAcq_isync _ _ (load_ne hf)⟩
      · exact ⟨_, .lq, isyncOK_none (by simp [lqProg, I.isIsync])⟩
      · exact ⟨_, .lqAcq, lqAcq_isync _ (load_ne hf)⟩
    · obtain ⟨al, p, _, _, hf⟩ | ⟨al, _, p, _, hf⟩ := h
      · exact ⟨_, .store, isyncOK_none (by simp [storeProg, I.isIsync, store_ne hf])⟩
      · exact ⟨_, .stq, isyncOK_none (by simp [stqProg, I.isIsync, store_ne hf])⟩
    · rcases h with _ | _ | _
      · exact ⟨_, .swap, swap_isync _ _ (rmw_ne _)⟩
      · exact ⟨_, .subSwap, subSwap_isync _ (rmw_ne _)⟩
      · exact ⟨_, .swapq, swapq_isync _ (rmw_ne _)⟩
    · obtain ⟨al, p, _, _, _, _, ho⟩ | ⟨al, p, _, _, _, _, _, _, ho⟩ | ⟨al, _, p, _, _, _, ho⟩ := h
      · exact ⟨_, .cas, cas_isync _ _ _ (casOrd_ne ho)⟩
      · exact ⟨_, .subCas, subCas_isync _ (casOrd_ne ho)⟩
      · exact ⟨_, .casq, casq_isync _ (casOrd_ne ho)⟩
    · obtain ⟨al, p, _, _, _, _, ho⟩ | ⟨al, p, _, _, _, _, _, _, ho⟩ | ⟨al, _, p, _, _, _, ho⟩ := h
      · exact ⟨_, .weak, weak_isync _ _ _ (casOrd_ne ho)⟩
      · exact ⟨_, .subWeak, subWeak_isync _ (casOrd_ne ho)⟩
      · exact ⟨_, .weakq, weakq_isync _ (casOrd_ne ho)⟩
  obtain ⟨P, h1, h2⟩ := main
  exact ⟨P, h1, h1.code, h2⟩

/-- Without the branch the property fails. -/
example : ¬ IsyncOK [.l 32 5 4, .fence isync] := by
  intro h
  have h1 : Exec (W := 32) .little [.l 32 5 4, .fence isync] ⟨0, argRegs [], fun _ => 0, none⟩ [.l 32 5 4] _ :=
    .own .nil rfl (.ld _ _ _ _ _)
  have := h _ _ _ _ _ (.fence isync) rfl h1 rfl rfl
  simp [Guarded, I.isLoad] at this

end Verif.PowerPC
