/-
Proof of `MethodsAtomic` and `MethodsOrdered` from the properties of the back end.
-/
import Verif.Api.MethodSpec
import Verif.Api.Proof

namespace Verif

variable {W : Nat}

/-! ### The monitor of a longer trace -/

/-- `p` keeps no more in order than `q` -/
structure Pairs.Le (p q : Pairs) : Prop where
  rr : p.rr = true → q.rr = true
  rw : p.rw = true → q.rw = true
  wr : p.wr = true → q.wr = true
  ww : p.ww = true → q.ww = true
  lr : p.lr = true → q.lr = true

theorem Pairs.Le.rfl' (p : Pairs) : p.Le p := ⟨id, id, id, id, id⟩
theorem Pairs.Le.none (p : Pairs) : Pairs.none.Le p := by constructor <;> intro h <;> cases h
theorem Pairs.Le.union {p q : Pairs} (h : p.Le q) (x : Pairs) : (p.union x).Le (q.union x) := by
  constructor <;> simp only [Pairs.union, Bool.or_eq_true]
  · exact Or.imp_left h.rr
  · exact Or.imp_left h.rw
  · exact Or.imp_left h.wr
  · exact Or.imp_left h.ww
  · exact Or.imp_left h.lr

/-- `N` saw the same last accesses as `M` and at least its barriers -/
structure Mon.Le (M N : Mon) : Prop where
  before : M.before.Le N.before
  rd : ∀ a, M.rd = some a → N.rd = some a ∧ M.rdBefore.Le N.rdBefore ∧ M.rdAfter.Le N.rdAfter
  wr : ∀ a, M.wr = some a → N.wr = some a ∧ M.wrBefore.Le N.wrBefore ∧ M.wrAfter.Le N.wrAfter

theorem Mon.Le.ev {M N : Mon} (h : M.Le N) (ev : Ev) : (M.onEv ev).Le (N.onEv ev) := by
  cases ev with
  | tau => exact h
  | fence p =>
    exact ⟨h.before.union p, fun a ha => ⟨(h.rd a ha).1, (h.rd a ha).2.1, (h.rd a ha).2.2.union p⟩,
      fun a ha => ⟨(h.wr a ha).1, (h.wr a ha).2.1, (h.wr a ha).2.2.union p⟩⟩
  | rd a => exact ⟨h.before, fun b hb => ⟨hb, h.before, .rfl' _⟩, h.wr⟩
  | wr a => exact ⟨h.before, h.rd, fun b hb => ⟨hb, h.before, .rfl' _⟩⟩
  | rmw a => exact ⟨h.before, fun b hb => ⟨hb, h.before, .rfl' _⟩, fun b hb => ⟨hb, h.before, .rfl' _⟩⟩

theorem Mon.Le.foldl {M N : Mon} (h : M.Le N) (t : List TEv) :
    (t.foldl Mon.onTEv M).Le (t.foldl Mon.onTEv N) := by
  induction t generalizing M N with
  | nil => exact h
  | cons x t ih =>
    cases x with
    | own ev m m' => exact ih (h.ev ev)
    | env m m' => exact ih h

theorem monOf_le (t1 t2 : List TEv) : (monOf t2).Le (monOf (t1 ++ t2)) := by
  unfold monOf
  rw [List.foldl_append]
  exact Mon.Le.foldl (M := {}) ⟨Pairs.Le.none _, (fun a h => by cases h), (fun a h => by cases h)⟩ t2

theorem Mon.Le.acquires {imp : Pairs} {M N : Mon} (h : M.Le N) (ha : Acquires imp M = true) :
    Acquires imp N = true := by
  unfold Acquires at ha
  split at ha
  · rename_i a hM
    obtain ⟨hN, _, hl⟩ := h.rd a hM
    simp only [Acquires, hN]
    simp only [Bool.or_eq_true, Bool.and_eq_true] at ha ⊢
    exact ha.imp id (fun h => ⟨h.1.imp id hl.rr, h.2.imp id hl.rw⟩)
  · cases ha

theorem Mon.Le.releases {imp : Pairs} {M N : Mon} (h : M.Le N) (ha : Releases imp M = true) :
    Releases imp N = true := by
  unfold Releases at ha
  split at ha
  · rename_i a hM
    obtain ⟨hN, hl, _⟩ := h.wr a hM
    simp only [Releases, hN]
    simp only [Bool.or_eq_true, Bool.and_eq_true] at ha ⊢
    exact ha.imp id (fun h => ⟨h.1.imp id hl.rw, h.2.imp id hl.ww⟩)
  · cases ha

theorem monOf_env (t : List TEv) (m m' : Mem) : monOf (t ++ [.env m m']) = monOf t := by
  unfold monOf; rw [List.foldl_append]; rfl

/-! ### A method that checks the orderings and makes one call -/

/-- only environment entries -/
def EnvOnly (t : List TEv) : Prop := ∀ ev ∈ t, ∃ m m', ev = .env m m'

theorem EnvOnly.quiet {t : List TEv} (h : EnvOnly t) : Quiet t := fun _ _ _ hm => by
  obtain ⟨_, _, h⟩ := h _ hm; cases h

theorem EnvOnly.snoc {t : List TEv} (h : EnvOnly t) (m m' : Mem) : EnvOnly (t ++ [.env m m']) := fun ev hm =>
  (List.mem_append.1 hm).elim (h ev) (fun h => ⟨m, m', List.mem_singleton.1 h⟩)

theorem EnvOnly.foldl {t : List TEv} (h : EnvOnly t) (M : Mon) : t.foldl Mon.onTEv M = M := by
  induction t generalizing M with
  | nil => rfl
  | cons x t ih =>
    obtain ⟨m, m', rfl⟩ := h x (by simp)
    exact ih (fun ev hm => h ev (by simp [hm])) M

theorem EnvOnly.mon {t1 t t2 : List TEv} (h1 : EnvOnly t1) (h2 : EnvOnly t2) : monOf (t1 ++ t ++ t2) = monOf t := by
  unfold monOf; rw [List.foldl_append, List.foldl_append, h1.foldl, h2.foldl]

/-- what is known in each state of `checkedCall` -/
def CheckedInv {α : Type} (A : Backend W) (chk : Res Unit) (c : Call) (k : c.RetTy → α) (tr : List TEv)
    (cs : List Call) : Option α → Prop
  | none => EnvOnly tr ∧ cs = []
  | some a => chk = .ok () ∧ cs = [c] ∧ ∃ B t1 t t2 rs, A.Runs c B ∧ B.Completed A.e t rs ∧
      a = k (c.value B rs) ∧ tr = t1 ++ t ++ t2 ∧ EnvOnly t1 ∧ EnvOnly t2

theorem checked_inv {α : Type} {A : Backend W} {chk : Res Unit} {c : Call} {k : c.RetTy → α} {tr : List TEv}
    {cs : List Call} {s : (checkedCall chk c k).S} (hr : (checkedCall chk c k).Run A tr cs s) :
    CheckedInv A chk c k tr cs s := by
  induction hr with
  | start => exact ⟨fun _ h => (nomatch h), rfl⟩
  | env h m m' ih =>
    rename_i s
    cases s with
    | none => exact ⟨ih.1.snoc m m', ih.2⟩
    | some a =>
      obtain ⟨h0, h1, B, t1, t, t2, rs, h2, h3, h4, h5, h6, h7⟩ := ih
      exact ⟨h0, h1, B, t1, t, t2 ++ [.env m m'], rs, h2, h3, h4, by rw [h5]; simp, h6, h7.snoc m m'⟩
  | call h ha hB hr ih =>
    rename_i tr cs s c' k' B t rs
    cases s with
    | some a => simp [checkedCall] at ha
    | none =>
      simp only [checkedCall] at ha
      cases hc : chk with
      | panic => rw [hc] at ha; cases ha
      | ok u =>
        rw [hc] at ha
        cases ha
        exact ⟨by cases u; rfl, by rw [ih.2]; rfl, B, tr, t, [], rs, hB, hr, rfl, by simp, ih.1, fun _ h => (nomatch h)⟩

theorem checked_returns {α : Type} {A : Backend W} {chk : Res Unit} {c : Call} {k : c.RetTy → α} {tr : List TEv}
    {cs : List Call} {r : α} (h : (checkedCall chk c k).Returns A tr cs r) :
    chk = .ok () ∧ cs = [c] ∧ ∃ B t1 t t2 rs, A.Runs c B ∧ B.Completed A.e t rs ∧ r = k (c.value B rs) ∧
      tr = t1 ++ t ++ t2 ∧ EnvOnly t1 ∧ EnvOnly t2 := by
  obtain ⟨s, hr, hd⟩ := h
  have key := checked_inv hr
  cases s with
  | none =>
    simp only [checkedCall] at hd
    split at hd <;> cases hd
  | some a =>
    simp only [checkedCall] at hd
    cases hd
    exact key

theorem AtomicTrace.surround {t1 t t2 : List TEv} {spec : Mem → Mem → Prop} (h1 : EnvOnly t1) (h2 : EnvOnly t2)
    (h : AtomicTrace t spec) : AtomicTrace (t1 ++ t ++ t2) spec :=
  (AtomicTrace.prepend h1.quiet h).append h2.quiet

theorem AtomicTrace.const {t : List TEv} {P : Prop} {spec : Mem → Mem → Prop}
    (h : AtomicTrace t fun m m' => P ∧ spec m m') : P ∧ AtomicTrace t spec :=
  ⟨by obtain ⟨_, _, _, _, _, _, _, h⟩ := h; exact h.1, h.imp fun _ _ h => h.2⟩

theorem toResult_ok {w : Nat} {r : BitVec w × Bool} {x : BitVec w} (h : .ok x = toResult r) : r.2 = true ∧ r.1 = x := by
  unfold toResult at h; split at h
  · cases h; exact ⟨by assumption, rfl⟩
  · cases h
theorem toResult_error {w : Nat} {r : BitVec w × Bool} {x : BitVec w} (h : .error x = toResult r) :
    r.2 = false ∧ r.1 = x := by
  unfold toResult at h; split at h
  · cases h
  · cases h; rename_i hn; exact ⟨Bool.eq_false_iff.2 hn, rfl⟩

theorem weak_ok {e : Endian} {w a : Nat} {old new out : BitVec w} {ok : Bool} {t : List TEv} (hok : ok = true)
    (h : AtomicTrace t fun m m' => WeakCasSpec e a w old new m m' out ok) :
    out = old ∧ AtomicTrace t fun m m' => load e m a w = old ∧ m' = store e m a w new := by
  refine AtomicTrace.const (h.imp ?_)
  rintro m m' ⟨h, ⟨h1, _, h2⟩ | ⟨h1, _⟩⟩
  · exact ⟨h.trans h1, h1, h2⟩
  · rw [hok] at h1; cases h1

theorem weak_err {e : Endian} {w a : Nat} {old new out : BitVec w} {ok : Bool} {t : List TEv} (hok : ok = false)
    (h : AtomicTrace t fun m m' => WeakCasSpec e a w old new m m' out ok) :
    AtomicTrace t fun m m' => load e m a w = out ∧ m' = m := by
  refine h.imp ?_
  rintro m m' ⟨h, ⟨_, h1, _⟩ | ⟨_, h1⟩⟩
  · rw [hok] at h1; cases h1
  · exact ⟨h.symm, h1⟩

theorem strong_err {e : Endian} {w a : Nat} {old new out : BitVec w} {ok : Bool} {t : List TEv} (hok : ok = false)
    (h : AtomicTrace t fun m m' => CasSpec e a w old new m m' out ok) : out ≠ old := by
  obtain ⟨_, _, m, m', _, _, _, h, ⟨_, h1, _⟩ | ⟨h1, _⟩⟩ := h
  · rw [hok] at h1; cases h1
  · rw [h]; exact h1

/-- C01-C03 of the back end give C01-C03 of the methods. -/
theorem Backend.methodsAtomic {A : Backend W} (h1 : A.LoadsAtomic) (h2 : A.StoresAtomic)
    (h3 : A.SwapsAtomic) : A.MethodsAtomic where
  load := by
    intro w a o tr cs r h
    obtain ⟨_, hc, B, t1, t, t2, rs, hB, hr, rfl, rfl, e1, e2⟩ := checked_returns h
    exact ⟨hc, (h1 _ _ _ _ hB _ _ hr).surround e1 e2⟩
  store := by
    intro w a v o tr cs r h
    obtain ⟨_, hc, B, t1, t, t2, rs, hB, hr, -, rfl, e1, e2⟩ := checked_returns h
    exact ⟨hc, (h2 _ _ _ _ _ hB _ _ hr).surround e1 e2⟩
  swap := by
    intro w a v o tr cs r h
    obtain ⟨_, hc, B, t1, t, t2, rs, hB, hr, rfl, rfl, e1, e2⟩ := checked_returns h
    exact ⟨hc, (h3 _ _ _ _ _ hB _ _ hr).surround e1 e2⟩

/-- C04 of the back end gives C04 of the method. -/
theorem Backend.casMethodAtomic {A : Backend W} {S : Nat → Prop}
    (h4w : ∀ s f w a old new B, A.Cas s f w a old new B →
      B.Atomic A.e fun m m' rs => WeakCasSpec A.e a w old new m m' (B.out rs) (B.ok rs))
    (h4 : ∀ s f w a old new B, S w → A.Cas s f w a old new B →
      B.Atomic A.e fun m m' rs => CasSpec A.e a w old new m m' (B.out rs) (B.ok rs)) : A.CasMethodAtomic S where
  casOk := by
    intro w a old new s f tr cs p h
    obtain ⟨_, hc, B, t1, t, t2, rs, hB, hr, hp, rfl, e1, e2⟩ := checked_returns h
    obtain ⟨hok, rfl⟩ := toResult_ok hp
    have := weak_ok hok (h4w _ _ _ _ _ _ _ hB _ _ hr)
    exact ⟨hc, this.1, this.2.surround e1 e2⟩
  casErr := by
    intro w a old new s f tr cs p h
    obtain ⟨_, hc, B, t1, t, t2, rs, hB, hr, hp, rfl, e1, e2⟩ := checked_returns h
    obtain ⟨hok, rfl⟩ := toResult_error hp
    exact ⟨hc, (weak_err hok (h4w _ _ _ _ _ _ _ hB _ _ hr)).surround e1 e2,
      fun hS => strong_err hok (h4 _ _ _ _ _ _ _ hS hB _ _ hr)⟩

/-- C05 of the back end gives C05 of the method. -/
theorem Backend.weakCasMethodAtomic {A : Backend W} (h5 : A.WeakCasAtomic) : A.WeakCasMethodAtomic where
  casWeakOk := by
    intro w a old new s f tr cs p h
    obtain ⟨_, hc, B, t1, t, t2, rs, hB, hr, hp, rfl, e1, e2⟩ := checked_returns h
    obtain ⟨hok, rfl⟩ := toResult_ok hp
    have := weak_ok hok (h5 _ _ _ _ _ _ _ hB _ _ hr)
    exact ⟨hc, this.1, this.2.surround e1 e2⟩
  casWeakErr := by
    intro w a old new s f tr cs p h
    obtain ⟨_, hc, B, t1, t, t2, rs, hB, hr, hp, rfl, e1, e2⟩ := checked_returns h
    obtain ⟨hok, rfl⟩ := toResult_error hp
    exact ⟨hc, (weak_err hok (h5 _ _ _ _ _ _ _ hB _ _ hr)).surround e1 e2⟩

/-- The same if every strong compare-exchange is exact. -/
theorem Backend.casMethodAtomic' {A : Backend W} (h4 : A.CasAtomic) : A.CasMethodAtomic (fun _ => True) :=
  Backend.casMethodAtomic
    (fun _ _ _ _ _ _ _ hB _ _ hr => (h4 _ _ _ _ _ _ _ hB _ _ hr).imp fun _ _ h => h.weak)
    (fun _ _ _ _ _ _ _ _ hB => h4 _ _ _ _ _ _ _ hB)

/-! ### Orderings of `fetch_update` -/

section FU
variable {A : Backend W} {w a : Nat} {so fo : Ordering} {f : Closure w}

/-- what the events so far guarantee in each state -/
def FUOrd (A : Backend W) (so fo : Ordering) {f : Closure w} (tr : List TEv) : FU f → Prop
  | .start => True
  | .set _ _ _ => fo.acquires = true → Acquires A.imp (monOf tr) = true
  | .fin (.ok _) => (so.acquires = true → Acquires A.imp (monOf tr) = true) ∧
      (so.releases = true → Releases A.imp (monOf tr) = true)
  | .fin (.error _) => fo.acquires = true → Acquires A.imp (monOf tr) = true

theorem FUOrd.next {tr : List TEv} {prev : BitVec w} {s : f.σ}
    (h : fo.acquires = true → Acquires A.imp (monOf tr) = true) : FUOrd A so fo tr (FU.next f prev s) := by
  unfold FU.next; split <;> exact h

theorem fu_ord (ha : A.AcquireOK) (hl : A.ReleaseOK) (hf : A.FailureOK) {tr : List TEv} {cs : List Call}
    {s : (fetchUpdateM w a so fo f).S} (h : (fetchUpdateM w a so fo f).Run A tr cs s) : FUOrd A so fo tr s := by
  induction h with
  | start => trivial
  | env h m m' ih =>
    rename_i s
    cases s with
    | start => trivial
    | set => simp only [FUOrd, monOf_env] at ih ⊢; exact ih
    | fin r => cases r <;> (simp only [FUOrd, monOf_env] at ih ⊢; exact ih)
  | call h hact hB hr ih =>
    rename_i tr cs s c k B t rs
    cases s with
    | start =>
      simp only [fetchUpdateM] at hact
      split at hact
      · cases hact
        exact FUOrd.next fun ho => (monOf_le tr t).acquires (ha _ (.load hB ho hr))
      · cases hact
    | set prev next s' =>
      simp only [fetchUpdateM] at hact
      split at hact
      · cases hact
        simp only [Call.value]
        cases hok : B.ok rs with
        | true =>
          simp only [toResult, if_true]
          exact ⟨fun ho => (monOf_le tr t).acquires (ha _ (.cas (.inr hB) ho hr hok)),
            fun ho => (monOf_le tr t).releases (hl _ (.cas (.inr hB) ho hr hok))⟩
        | false =>
          simp only [toResult, Bool.false_eq_true, if_false]
          exact FUOrd.next fun ho => (monOf_le tr t).acquires (hf _ _ _ _ _ _ _ _ _ (.inr hB) ho hr hok)
      · cases hact
    | fin r => simp [fetchUpdateM] at hact

end FU

theorem seqCstReturn_run {A : Backend W} {tr : List TEv} (h : A.SeqCstReturn tr) :
    ∃ t, A.SeqCstRun t ∧ monOf tr = monOf t := by
  cases h with
  | load h =>
    obtain ⟨_, hc, B, t1, t, t2, rs, hB, hr, -, rfl, e1, e2⟩ := checked_returns h
    exact ⟨t, .load hB hr, e1.mon e2⟩
  | store h =>
    obtain ⟨_, hc, B, t1, t, t2, rs, hB, hr, -, rfl, e1, e2⟩ := checked_returns h
    exact ⟨t, .store hB hr, e1.mon e2⟩
  | swap h =>
    obtain ⟨_, hc, B, t1, t, t2, rs, hB, hr, -, rfl, e1, e2⟩ := checked_returns h
    exact ⟨t, .swap hB hr, e1.mon e2⟩
  | casOk h =>
    obtain ⟨_, hc, B, t1, t, t2, rs, hB, hr, hp, rfl, e1, e2⟩ := checked_returns h
    exact ⟨t, .casOk (.inl hB) hr (toResult_ok hp).1, e1.mon e2⟩
  | casErr h =>
    obtain ⟨_, hc, B, t1, t, t2, rs, hB, hr, hp, rfl, e1, e2⟩ := checked_returns h
    exact ⟨t, .casFail (.inl hB) hr (toResult_error hp).1, e1.mon e2⟩
  | casWeakOk h =>
    obtain ⟨_, hc, B, t1, t, t2, rs, hB, hr, hp, rfl, e1, e2⟩ := checked_returns h
    exact ⟨t, .casOk (.inr hB) hr (toResult_ok hp).1, e1.mon e2⟩
  | casWeakErr h =>
    obtain ⟨_, hc, B, t1, t, t2, rs, hB, hr, hp, rfl, e1, e2⟩ := checked_returns h
    exact ⟨t, .casFail (.inr hB) hr (toResult_error hp).1, e1.mon e2⟩

/-- C13-C16 of the back end give C13-C16 of the methods. -/
theorem Backend.methodsOrdered {A : Backend W} (ha : A.AcquireOK) (hl : A.ReleaseOK) (hs : A.SeqCstOK)
    (hf : A.FailureOK) : A.MethodsOrdered where
  load := by
    intro w a o tr cs r h ho
    obtain ⟨_, hc, B, t1, t, t2, rs, hB, hr, -, rfl, e1, e2⟩ := checked_returns h
    rw [e1.mon e2]; exact ha _ (.load hB ho hr)
  store := by
    intro w a v o tr cs r h ho
    obtain ⟨_, hc, B, t1, t, t2, rs, hB, hr, -, rfl, e1, e2⟩ := checked_returns h
    rw [e1.mon e2]; exact hl _ (.store hB ho hr)
  swap := by
    intro w a v o tr cs r h
    obtain ⟨_, hc, B, t1, t, t2, rs, hB, hr, -, rfl, e1, e2⟩ := checked_returns h
    rw [e1.mon e2]; exact ⟨fun ho => ha _ (.swap hB ho hr), fun ho => hl _ (.swap hB ho hr)⟩
  casOk := by
    intro w a old new s f tr cs r h
    obtain ⟨_, hc, B, t1, t, t2, rs, hB, hr, hp, rfl, e1, e2⟩ := checked_returns h
    have hok := (toResult_ok hp).1
    rw [e1.mon e2]
    exact ⟨fun ho => ha _ (.cas (.inl hB) ho hr hok), fun ho => hl _ (.cas (.inl hB) ho hr hok)⟩
  casErr := by
    intro w a old new s f tr cs r h ho
    obtain ⟨_, hc, B, t1, t, t2, rs, hB, hr, hp, rfl, e1, e2⟩ := checked_returns h
    rw [e1.mon e2]; exact hf _ _ _ _ _ _ _ _ _ (.inl hB) ho hr (toResult_error hp).1
  casWeakOk := by
    intro w a old new s f tr cs r h
    obtain ⟨_, hc, B, t1, t, t2, rs, hB, hr, hp, rfl, e1, e2⟩ := checked_returns h
    have hok := (toResult_ok hp).1
    rw [e1.mon e2]
    exact ⟨fun ho => ha _ (.cas (.inr hB) ho hr hok), fun ho => hl _ (.cas (.inr hB) ho hr hok)⟩
  casWeakErr := by
    intro w a old new s f tr cs r h ho
    obtain ⟨_, hc, B, t1, t, t2, rs, hB, hr, hp, rfl, e1, e2⟩ := checked_returns h
    rw [e1.mon e2]; exact hf _ _ _ _ _ _ _ _ _ (.inr hB) ho hr (toResult_error hp).1
  fetchUpdateOk := by
    rintro w a so fo g tr cs r ⟨s, hr, hd⟩
    have := fu_ord ha hl hf hr
    cases s with
    | start => simp only [fetchUpdateM] at hd; split at hd <;> cases hd
    | set => simp only [fetchUpdateM] at hd; split at hd <;> cases hd
    | fin r => simp only [fetchUpdateM, Act.done.injEq] at hd; subst hd; exact this
  fetchUpdateErr := by
    rintro w a so fo g tr cs r ⟨s, hr, hd⟩
    have := fu_ord ha hl hf hr
    cases s with
    | start => simp only [fetchUpdateM] at hd; split at hd <;> cases hd
    | set => simp only [fetchUpdateM] at hd; split at hd <;> cases hd
    | fin r => simp only [fetchUpdateM, Act.done.injEq] at hd; subst hd; exact this
  seqCst := by
    intro tr1 tr2 h1 h2
    obtain ⟨u1, g1, e1⟩ := seqCstReturn_run h1
    obtain ⟨u2, g2, e2⟩ := seqCstReturn_run h2
    rw [e1, e2]; exact hs _ _ g1 g2

end Verif
