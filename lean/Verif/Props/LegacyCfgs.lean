/-
C26 for old compilers (src/arch_legacy, selected by src/lib.rs l.104): the same macros (src/arch/cfgs/*.rs) with the
implementations of src/arch_legacy/*.rs, for every set of cfg options.
-/
import Verif.Props.Cfgs

namespace Verif.Gen
open Cfg

/-- The implementations of trait `t` for type `ty` that exist in module `m` of src/arch_legacy. -/
def legacyImpls (env : Env) (m : Module) (t : Trait) (ty : Ty) : List (Impl Atom) :=
  (legacyImplsOf m).filter fun i => (i.trait_ == t && i.ty == ty) && i.cfg.eval env

/-- Module `m` of src/arch_legacy is compiled. -/
def legacySelected (env : Env) (m : Module) : Bool := (legacyModuleCfg m).eval env

/-- exactly one implementation -/
def legacyOneImplP (m : Module) (t : Trait) (ty : Ty) : P :=
  Pred.exactlyOne (((legacyImplsOf m).filter fun i => i.trait_ == t && i.ty == ty).map (·.cfg))
theorem legacyOneImplP_eval (env : Env) (m : Module) (t : Trait) (ty : Ty) :
    (legacyOneImplP m t ty).eval env = true ↔ (legacyImpls env m t ty).length = 1 := by
  rw [legacyOneImplP, Pred.eval_exactlyOne, legacyImpls, filter_map_eval]

/-- A claim about module `m` of src/arch_legacy, under `WF` and for targets on which the module is selected. -/
def legacyClaimP (m : Module) (q : P) : P := Pred.imp (wfP (archsOf m)) (Pred.imp (legacyModuleCfg m) q)

theorem legacyClaim_sound {m : Module} {q : P} (ht : (legacyClaimP m q).taut (atomsOf m) [] = true) {env : Env} (h : WF env)
    (hs : legacySelected env m = true) : q.eval env = true := by
  have h1 := Pred.taut_sound _ _ ht env
  rw [legacyClaimP, Pred.eval_imp, Pred.eval_imp] at h1
  exact h1 (wfP_eval h (archsOf_ok m).1 (archsOf_ok m).2) hs

theorem legacyCompl_taut (m : Module) (w : What) : (legacyClaimP m (complP m w)).taut (atomsOf m) [] = true := by
  cases m <;> cases w <;> decide +kernel

def legacyLoadStoreP (m : Module) (w : What) : P :=
  Pred.imp (expandsP m true w) (Pred.all ((tysOf w).map fun ty =>
    .and (legacyOneImplP m .load ty) (legacyOneImplP m .store ty)))

theorem legacyLoadStore_taut (m : Module) (w : What) : (legacyClaimP m (legacyLoadStoreP m w)).taut (atomsOf m) [] = true := by
  cases m <;> cases w <;> decide +kernel

def legacyRmwP (m : Module) (w : What) : P :=
  Pred.imp (.not noCmpxchg) (Pred.imp (expandsP m true w) (Pred.imp (expandsP m true .cas)
    (Pred.all ((tysOf w).map fun ty => .and (legacyOneImplP m .swap ty) (legacyOneImplP m .cas ty)))))

theorem legacyRmw_taut (m : Module) (w : What) : (legacyClaimP m (legacyRmwP m w)).taut (atomsOf m) [] = true := by
  cases m <;> cases w <;> decide +kernel

def legacyPtrP (m : Module) (x : Atom × What) : P :=
  Pred.imp (.atom x.1) (Pred.imp (expandsP m true x.2) (.and
    (Pred.all ([Ty.isize, .usize].map fun ty => .and (legacyOneImplP m .load ty) (legacyOneImplP m .store ty)))
    (Pred.imp (.not noCmpxchg) (Pred.imp (expandsP m true .cas)
      (Pred.all ([Ty.isize, .usize].map fun ty => .and (legacyOneImplP m .swap ty) (legacyOneImplP m .cas ty)))))))

theorem legacyPtr_taut (m : Module) : ∀ x ∈ ptrSizes, (legacyClaimP m (legacyPtrP m x)).taut (atomsOf m) [] = true := by
  cases m <;> decide +kernel

/-- C26 on old compilers. In the back end selected for the target, each of `cfg_has_atomic_w!` and `cfg_no_atomic_w!` is
defined exactly once, and exactly one of the two expands to its argument. -/
theorem C26_legacy_complementary (env : Env) (h : WF env) (m : Module) (hs : legacySelected env m = true) (w : What) :
    (defs env m true w).length = 1 ∧ (defs env m false w).length = 1 ∧
      (expands env m true w = true ↔ expands env m false w = false) := by
  have h1 := legacyClaim_sound (legacyCompl_taut m w) h hs
  simp only [complP, Pred.eval, Bool.and_eq_true, oneDefP_eval, Pred.eval_imp, expandsP_eval,
    Bool.not_eq_true'] at h1
  obtain ⟨⟨h2, h3⟩, h4, h5⟩ := h1
  refine ⟨h2, h3, h4, fun h6 => ?_⟩
  cases h7 : expands env m true w with
  | true => rfl
  | false => rw [h5 h7] at h6; cases h6

/-- C26 on old compilers. If `cfg_has_atomic_N!` expands, `AtomicLoad` and `AtomicStore` are implemented, exactly once, for
the signed and the unsigned N-bit integer. -/
theorem C26_legacy_load_store (env : Env) (h : WF env) (m : Module) (hs : legacySelected env m = true) (w : What)
    (hx : expands env m true w = true) (ty : Ty) (hty : ty ∈ tysOf w) :
    (legacyImpls env m .load ty).length = 1 ∧ (legacyImpls env m .store ty).length = 1 := by
  have h1 := legacyClaim_sound (legacyLoadStore_taut m w) h hs
  rw [legacyLoadStoreP, Pred.eval_imp, expandsP_eval] at h1
  have h2 := h1 hx
  rw [Pred.eval_all, List.all_map, List.all_eq_true] at h2
  have h3 := h2 ty hty
  simp only [Function.comp, Pred.eval, Bool.and_eq_true, legacyOneImplP_eval] at h3
  exact h3

/-- C26 on old compilers. If `cfg_has_atomic_N!` and `cfg_has_atomic_cas!` expand, `AtomicSwap` and `AtomicCompareExchange`
are implemented, exactly once, for the signed and the unsigned N-bit integer (unless
`--cfg atomic_maybe_uninit_no_cmpxchg` is given). -/
theorem C26_legacy_rmw (env : Env) (h : WF env) (hf : env .flag_atomic_maybe_uninit_no_cmpxchg = false) (m : Module)
    (hs : legacySelected env m = true) (w : What)
    (hx : expands env m true w = true) (hc : expands env m true .cas = true) (ty : Ty) (hty : ty ∈ tysOf w) :
    (legacyImpls env m .swap ty).length = 1 ∧ (legacyImpls env m .cas ty).length = 1 := by
  have h1 := legacyClaim_sound (legacyRmw_taut m w) h hs
  rw [legacyRmwP, Pred.eval_imp, Pred.eval_imp, Pred.eval_imp, expandsP_eval, expandsP_eval] at h1
  have h2 := h1 (by simp [noCmpxchg, Pred.eval, hf]) hx hc
  rw [Pred.eval_all, List.all_map, List.all_eq_true] at h2
  have h3 := h2 ty hty
  simp only [Function.comp, Pred.eval, Bool.and_eq_true, legacyOneImplP_eval] at h3
  exact h3

/-- C26 on old compilers. If `cfg_has_atomic_ptr!` expands, load and store (and, if `cfg_has_atomic_cas!` expands too, swap
and compare_exchange) are implemented for isize and usize. -/
theorem C26_legacy_ptr (env : Env) (h : WF env) (m : Module) (hs : legacySelected env m = true) (x : Atom × What)
    (hx : x ∈ ptrSizes) (hp : env x.1 = true) (he : expands env m true x.2 = true) (ty : Ty)
    (hty : ty = .isize ∨ ty = .usize) :
    (legacyImpls env m .load ty).length = 1 ∧ (legacyImpls env m .store ty).length = 1 ∧
      (env .flag_atomic_maybe_uninit_no_cmpxchg = false → expands env m true .cas = true →
        (legacyImpls env m .swap ty).length = 1 ∧ (legacyImpls env m .cas ty).length = 1) := by
  have h1 := legacyClaim_sound (legacyPtr_taut m x hx) h hs
  simp only [legacyPtrP, Pred.eval_imp, expandsP_eval, Pred.eval, Bool.and_eq_true, Pred.eval_all, List.all_map,
    List.all_eq_true, noCmpxchg, Bool.not_eq_true'] at h1
  obtain ⟨h2, h3⟩ := h1 hp he
  have hm : ty ∈ [Ty.isize, .usize] := by rcases hty with rfl | rfl <;> decide
  have h4 := h2 ty hm
  simp only [Function.comp, Pred.eval, Bool.and_eq_true, legacyOneImplP_eval] at h4
  refine ⟨h4.1, h4.2, fun hf hc => ?_⟩
  have h5 := h3 hf hc ty hm
  simp only [Function.comp, Pred.eval, Bool.and_eq_true, legacyOneImplP_eval] at h5
  exact h5

/-! ### Selection of the back end -/

def legacySelectP : P := Pred.imp armOK (Pred.exactlyOne (modules.map legacyModuleCfg))

theorem legacySelect_taut : ∀ a ∈ none :: archs.map some, legacySelectP.taut selectAtoms (archAsg a) = true := by
  decide +kernel

theorem legacySelect_eval (env : Env) (h : WF env) : legacySelectP.eval env = true := by
  by_cases hx : ∃ a ∈ archs, env a = true
  · obtain ⟨a, ha, hea⟩ := hx
    refine Pred.taut_sound' _ env selectAtoms (archAsg (some a)) ?_
      (legacySelect_taut _ (List.mem_cons_of_mem _ (List.mem_map.2 ⟨a, ha, rfl⟩)))
    intro x hx
    obtain ⟨b, hb, rfl⟩ := List.mem_map.1 hx
    by_cases hba : b = a
    · subst hba; simp [hea]
    · have : env b = false := by
        cases hb2 : env b with
        | false => rfl
        | true => exact absurd (h.arch b hb a ha hb2 hea) hba
      simp [this, hba]
  · refine Pred.taut_sound' _ env selectAtoms (archAsg none) ?_ (legacySelect_taut _ List.mem_cons_self)
    intro x hx'
    obtain ⟨b, hb, rfl⟩ := List.mem_map.1 hx'
    cases hb2 : env b with
    | false => simp
    | true => exact absurd ⟨b, hb, hb2⟩ hx

/-- C26 on old compilers. On every target exactly one back end (or the `unsupported` module) is compiled. On Arm this needs
that Armv8 targets also have `v6`. -/
theorem C26_legacy_one_module (env : Env) (h : WF env)
    (harm : (env .tf_v8 || env .amu_v8 || env .tf_v8m || env .amu_v8m) = true →
      (env .tf_v6 || env .amu_v6) = true) :
    (modules.filter fun m => legacySelected env m).length = 1 := by
  have h1 := legacySelect_eval env h
  rw [legacySelectP, Pred.eval_imp, Pred.eval_exactlyOne] at h1
  have h2 := h1 (by
    rw [armOK, Pred.eval_imp]
    intro h3
    simp only [Pred.eval_any, List.any_cons, List.any_nil, Pred.eval, Bool.or_false] at h3 ⊢
    exact harm (by simpa [Bool.or_assoc] using h3))
  rw [List.filter_map, List.length_map] at h2
  exact h2

/-- The hypotheses are met. -/
example : WF envAArch64 ∧ legacySelected envAArch64 .aarch64 = true ∧ WF envV6m ∧ legacySelected envV6m .arm = true := by
  refine ⟨⟨?_, ?_, ?_⟩, ?_, ⟨?_, ?_, ?_⟩, ?_⟩ <;> decide +kernel

end Verif.Gen
