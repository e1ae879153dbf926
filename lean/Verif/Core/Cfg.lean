/-
Conditional compilation: cfg predicates, their meaning, and a tautology checker with a soundness proof.
-/
namespace Verif.Cfg

/-- A cfg predicate over the options `α` (Rust reference, "conditional compilation"). -/
inductive Pred (α : Type) where
  | tt
  | ff
  | atom (a : α)
  | not (p : Pred α)
  | and (p q : Pred α)
  | or (p q : Pred α)
deriving Repr

namespace Pred
variable {α : Type}
/-- `all(p, q, ...)` -/
def all (l : List (Pred α)) : Pred α := l.foldr .and .tt
/-- `any(p, q, ...)` -/
def any (l : List (Pred α)) : Pred α := l.foldr .or .ff

/-- Truth of a predicate when exactly the options in `env` are set. -/
def eval (env : α → Bool) : Pred α → Bool
  | .tt => true
  | .ff => false
  | .atom a => env a
  | .not p => !p.eval env
  | .and p q => p.eval env && q.eval env
  | .or p q => p.eval env || q.eval env

@[simp] theorem eval_all (env : α → Bool) (l : List (Pred α)) : (all l).eval env = l.all (·.eval env) := by
  induction l with
  | nil => rfl
  | cons p l ih => simp only [all, List.foldr_cons, eval, List.all_cons] at ih ⊢; rw [← ih]
@[simp] theorem eval_any (env : α → Bool) (l : List (Pred α)) : (any l).eval env = l.any (·.eval env) := by
  induction l with
  | nil => rfl
  | cons p l ih => simp only [any, List.foldr_cons, eval, List.any_cons] at ih ⊢; rw [← ih]

/-- implication -/
def imp (p q : Pred α) : Pred α := .or (.not p) q
theorem eval_imp (env : α → Bool) (p q : Pred α) :
    (imp p q).eval env = true ↔ (p.eval env = true → q.eval env = true) := by
  simp only [imp, eval]
  cases p.eval env <;> cases q.eval env <;> simp

/-- none of the predicates holds -/
def noneOf (l : List (Pred α)) : Pred α := .not (any l)
/-- exactly one of the predicates holds -/
def exactlyOne : List (Pred α) → Pred α
  | [] => .ff
  | p :: l => .or (.and p (noneOf l)) (.and (.not p) (exactlyOne l))

theorem eval_noneOf (env : α → Bool) (l : List (Pred α)) :
    (noneOf l).eval env = true ↔ (l.filter (·.eval env)).length = 0 := by
  simp [noneOf, eval]

theorem eval_exactlyOne (env : α → Bool) (l : List (Pred α)) :
    (exactlyOne l).eval env = true ↔ (l.filter (·.eval env)).length = 1 := by
  induction l with
  | nil => simp [exactlyOne, eval]
  | cons p l ih =>
    have h0 := eval_noneOf env l
    simp only [exactlyOne, eval, Bool.or_eq_true, Bool.and_eq_true, Bool.not_eq_true', List.filter_cons]
    by_cases h : p.eval env = true
    · simp only [h, true_and, Bool.true_eq_false, false_and, or_false, if_true, List.length_cons, h0]
      omega
    · simp only [h, false_and, false_or, if_false, Bool.false_eq_true] at *
      simp only [ih, true_and]

/-- Conjunction, simplified. -/
def mkAnd : Pred α → Pred α → Pred α
  | .ff, _ => .ff
  | .tt, q => q
  | _, .ff => .ff
  | p, .tt => p
  | p, q => .and p q
/-- Disjunction, simplified. -/
def mkOr : Pred α → Pred α → Pred α
  | .tt, _ => .tt
  | .ff, q => q
  | _, .tt => .tt
  | p, .ff => p
  | p, q => .or p q
/-- Negation, simplified. -/
def mkNot : Pred α → Pred α
  | .tt => .ff
  | .ff => .tt
  | p => .not p

theorem eval_mkAnd (env : α → Bool) (p q : Pred α) : (mkAnd p q).eval env = (p.eval env && q.eval env) := by
  unfold mkAnd; split <;> simp [eval]
theorem eval_mkOr (env : α → Bool) (p q : Pred α) : (mkOr p q).eval env = (p.eval env || q.eval env) := by
  unfold mkOr; split <;> simp [eval]
theorem eval_mkNot (env : α → Bool) (p : Pred α) : (mkNot p).eval env = !p.eval env := by
  unfold mkNot; split <;> simp [eval]

/-- Fix option `a` to `b` and simplify. -/
def sub [DecidableEq α] (a : α) (b : Bool) : Pred α → Pred α
  | .tt => .tt
  | .ff => .ff
  | .atom c => if c = a then (if b then .tt else .ff) else .atom c
  | .not p => mkNot (p.sub a b)
  | .and p q => mkAnd (p.sub a b) (q.sub a b)
  | .or p q => mkOr (p.sub a b) (q.sub a b)

theorem eval_sub [DecidableEq α] {env : α → Bool} {a : α} {b : Bool} (h : env a = b) (p : Pred α) :
    (p.sub a b).eval env = p.eval env := by
  induction p with
  | tt => rfl
  | ff => rfl
  | atom c =>
    simp only [sub]
    split
    · rename_i hc; subst hc; subst h; cases hb : env c <;> simp [eval, hb]
    · rfl
  | not p ih => simp only [sub, eval_mkNot, eval, ih]
  | and p q ihp ihq => simp only [sub, eval_mkAnd, eval, ihp, ihq]
  | or p q ihp ihq => simp only [sub, eval_mkOr, eval, ihp, ihq]

/-- Fix several options. -/
def subs [DecidableEq α] (asg : List (α × Bool)) (p : Pred α) : Pred α :=
  asg.foldl (fun p x => p.sub x.1 x.2) p

theorem eval_subs [DecidableEq α] {env : α → Bool} (asg : List (α × Bool)) (h : ∀ x ∈ asg, env x.1 = x.2)
    (p : Pred α) : (subs asg p).eval env = p.eval env := by
  induction asg generalizing p with
  | nil => rfl
  | cons x l ih =>
    simp only [subs, List.foldl_cons] at ih ⊢
    rw [ih (fun y hy => h y (List.mem_cons_of_mem _ hy)), eval_sub (h x List.mem_cons_self)]

/-- Case splitting on the listed options, stopping as soon as the predicate is decided. -/
def tautS [DecidableEq α] : List α → Pred α → Bool
  | _, .tt => true
  | _, .ff => false
  | [], _ => false
  | a :: l, p => tautS l (p.sub a true) && tautS l (p.sub a false)

theorem tautS_sound [DecidableEq α] (env : α → Bool) (l : List α) (p : Pred α) (ht : tautS l p = true) :
    p.eval env = true := by
  induction l generalizing p with
  | nil => cases p <;> simp [tautS] at ht; rfl
  | cons a l ih =>
    have key : (p = .tt ∨ p = .ff) ∨ tautS (a :: l) p = (tautS l (p.sub a true) && tautS l (p.sub a false)) := by
      cases p <;> simp [tautS]
    rcases key with (rfl | rfl) | key
    · rfl
    · simp [tautS] at ht
    · rw [key, Bool.and_eq_true] at ht
      cases hb : env a with
      | true => rw [← eval_sub hb]; exact ih _ ht.1
      | false => rw [← eval_sub hb]; exact ih _ ht.2

/-- Checker under a partial assignment. -/
def taut [DecidableEq α] (p : Pred α) (l : List α) (asg : List (α × Bool)) : Bool :=
  tautS l (subs asg (p.and .tt))

theorem taut_sound' [DecidableEq α] (p : Pred α) (env : α → Bool) (l : List α) (asg : List (α × Bool))
    (h : ∀ x ∈ asg, env x.1 = x.2) (ht : p.taut l asg = true) : p.eval env = true := by
  have := tautS_sound env l _ ht
  rw [eval_subs asg h, eval, eval, Bool.and_true] at this
  exact this

/-- A predicate that passes the checker holds under every set of options. -/
theorem taut_sound [DecidableEq α] (p : Pred α) (l : List α) (ht : p.taut l [] = true) (env : α → Bool) :
    p.eval env = true :=
  taut_sound' p env l [] (by simp) ht

end Pred

/-- What a macro `cfg_{has,no}_atomic_*!` is about. -/
inductive What where
  | bits8 | bits16 | bits32 | bits64 | bits128 | cas
deriving DecidableEq, Repr

/-- One definition of a macro `cfg_{has,no}_atomic_*!`: `has` or `no`, what it is about, under which cfg it
exists, and whether it expands to its argument or to nothing. -/
structure MacroDef (α : Type) where
  has : Bool
  what : What
  cfg : Pred α
  expands : Bool

/-- The implementation traits of src/raw.rs. -/
inductive Trait where
  | load | store | swap | cas
deriving DecidableEq, Repr

/-- The primitive types. -/
inductive Ty where
  | i8 | u8 | i16 | u16 | i32 | u32 | i64 | u64 | i128 | u128 | isize | usize
deriving DecidableEq, Repr

/-- One trait implementation and the cfg under which it exists. -/
structure Impl (α : Type) where
  trait_ : Trait
  ty : Ty
  cfg : Pred α

end Verif.Cfg
