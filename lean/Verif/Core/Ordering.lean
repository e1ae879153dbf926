/-
`core::sync::atomic::Ordering` and the ordering helpers of src/utils.rs.
-/
namespace Verif

/-- `core::sync::atomic::Ordering` (the `#[non_exhaustive]` enum has exactly these variants). -/
inductive Ordering where
  | relaxed | acquire | release | acqRel | seqCst
deriving DecidableEq, Repr

namespace Ordering
/-- orders later accesses after the operation's read -/
def acquires : Ordering → Bool
  | .acquire | .acqRel | .seqCst => true
  | _ => false
/-- orders earlier accesses before the operation's write -/
def releases : Ordering → Bool
  | .release | .acqRel | .seqCst => true
  | _ => false
end Ordering

/-- Result of a Rust call that may panic. -/
inductive Res (α : Type) where
  | ok (a : α)
  | panic
deriving DecidableEq, Repr

/-- src/utils.rs l.84-91 `assert_load_ordering`. -/
def assertLoadOrdering : Ordering → Res Unit
  | .acquire | .relaxed | .seqCst => .ok ()
  | .release => .panic
  | .acqRel => .panic

/-- src/utils.rs l.96-103 `assert_store_ordering`. -/
def assertStoreOrdering : Ordering → Res Unit
  | .release | .relaxed | .seqCst => .ok ()
  | .acquire => .panic
  | .acqRel => .panic

/-- src/utils.rs l.108-124 `assert_compare_exchange_ordering` (the first `match` accepts every
success ordering). -/
def assertCompareExchangeOrdering (_success failure : Ordering) : Res Unit :=
  match failure with
  | .acquire | .relaxed | .seqCst => .ok ()
  | .release => .panic
  | .acqRel => .panic

/-- src/utils.rs l.130-137 `upgrade_success_ordering`. -/
def upgradeSuccessOrdering (success failure : Ordering) : Ordering :=
  match success, failure with
  | .relaxed, .acquire => .acquire
  | .release, .acquire => .acqRel
  | _, .seqCst => .seqCst
  | s, _ => s

end Verif
