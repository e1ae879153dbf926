/-
C31 for whole `fetch_update` calls, by any number of threads: their effects are one chain of updates, each applied to
what the previous one left; with the closure `|x| Some(x + 1)` the object counts them.
-/
import Verif.Api.Methods
import Verif.Lin.Object
import Verif.Lin.SC
import Verif.Weak.Conserve
import Verif.Weak.Weaken

namespace Verif

/-! ### Specification -/

/-- What the back end returned, as an answer in a history. -/
def Call.toRet : (c : Call) → c.RetTy → Ret
  | .load _ w _, x => .bits w x
  | .store _ _ _ _, _ => .unit
  | .swap _ w _ _, x => .bits w x
  | .cas _ _ w _ _ _, x => .cas w x.1 x.2
  | .casWeak _ _ w _ _ _, x => .cas w x.1 x.2

/-- The method, so far, has made the calls `l`, with the given answers, and is in state `s`. -/
inductive Method.Follows {α : Type} (M : Method α) : List (Call × Ret) → M.S → Prop where
  | start : Method.Follows M [] M.init
  | call {l s c k} (h : Method.Follows M l s) (ha : M.act s = .call c k) (x : c.RetTy) :
      Method.Follows M (l ++ [(c, c.toRet x)]) (k x)

/-- A `fetch_update(set, fetch, f)` of the object at `a` that has returned: its calls of the back end and their answers, and
its result. -/
structure FetchUpdate (w a : Nat) where
  set : Ordering
  fetch : Ordering
  f : Closure w
  calls : List (Call × Ret)
  result : Except (BitVec w) (BitVec w)

/-- The calls and the result are those of the method (src/lib.rs l.709-727). -/
def FetchUpdate.OK {w a : Nat} (u : FetchUpdate w a) : Prop :=
  ∃ s, (fetchUpdateM w a u.set u.fetch u.f).Follows u.calls s ∧ (fetchUpdateM w a u.set u.fetch u.f).act s = .done u.result

/-- The bits of the object a caller saw: those loaded, and those that came with an `Err`. -/
def seenBits (w : Nat) : List (Call × Ret) → List (BitVec w)
  | [] => []
  | (_, .bits _ v) :: t => v.setWidth w :: seenBits w t
  | (_, .cas _ v false) :: t => v.setWidth w :: seenBits w t
  | _ :: t => seenBits w t

/-- What the last of successive calls of the closure returns. -/
def Closure.last {w : Nat} (f : Closure w) (s : f.σ) : List (BitVec w) → Option (BitVec w)
  | [] => none
  | [v] => (f.call s v).1
  | v :: t => f.last (f.call s v).2 t

/-- What the update replaced and what by: the bits it returned, and what the closure made of them. -/
def FetchUpdate.writes {w a : Nat} (u : FetchUpdate w a) : Option (BitVec w × BitVec w) :=
  match u.result with
  | .ok prev => (u.f.last u.f.init (seenBits w u.calls)).map fun next => (prev, next)
  | .error _ => none

/-- The answers thread `i` got from the object, in order. -/
def threadCalls (w a i : Nat) (v : List VEv) : List (Call × Ret) :=
  (VEv.rets v).filterMap fun (j, c, r) => if j = i ∧ c.On w a then some (c, r) else none

/-- `l` is an order of all updates in which each was applied to what the previous one left, from the bits `init` to the bits
`final`; the updates of each thread are in program order. -/
structure OneChain {w a : Nat} (N : Nat) (ups : Nat → List (FetchUpdate w a)) (init final : BitVec w)
    (l : List (Nat × BitVec w × BitVec w)) : Prop where
  chain : UpdateChain init l final
  all : ∀ i, (ofThread i l).map (·.2) = (ups i).filterMap FetchUpdate.writes
  /-- every update that returned `Ok(prev)` replaced `prev`, by what the closure returned for it -/
  ok : ∀ i, ∀ u ∈ ups i, ∀ prev, u.result = .ok prev → ∃ next seen, u.writes = some (prev, next) ∧
    seenBits w u.calls = seen ++ [prev] ∧ u.f.last u.f.init (seen ++ [prev]) = some next
  threads : ∀ x ∈ l, x.1 < N

/-- The calls `calls i` that the threads `i < N` made are those of the `fetch_update`s `ups i`, one after the other. -/
structure ByFetchUpdate {w a : Nat} (N : Nat) (ups : Nat → List (FetchUpdate w a)) (calls : Nat → List (Call × Ret)) : Prop where
  threads : ∀ i, N ≤ i → ups i = []
  ok : ∀ i, ∀ u ∈ ups i, u.OK
  all : ∀ i, calls i = (ups i).flatMap (·.calls)

/-- C31 for `fetch_update`. If the threads `0 … N-1` access an object by `fetch_update` only, with any closures, then in
every run, whenever all have returned, there is one chain of the successful updates from the initial bits to the final
ones. -/
def Backend.UpdatesChain {W : Nat} (A : Backend W) (P : Call → Prop) : Prop :=
  ∀ (w a : Nat), w % 8 = 0 → w ≠ 0 → ∀ (m0 : Mem) (tr : List GEv) (g : GState W),
    GRun A P ⟨m0, fun _ => .idle⟩ tr g → (∀ i, g.th i = .idle) → VRegular A.e w a (fun _ _ => True) (GEv.vis tr) →
    ∀ (N : Nat) (ups : Nat → List (FetchUpdate w a)), ByFetchUpdate N ups (fun i => threadCalls w a i (GEv.vis tr)) →
      ∃ l, OneChain N ups (load A.e m0 a w) (load A.e g.mem a w) l

/-- The closure `|x| Some(x + 1)` (on the bits, with wrap-around). -/
def Closure.Increments {w : Nat} (f : Closure w) : Prop := ∀ s v, (f.call s v).1 = some (v + 1)

/-- The number of updates of the threads `0 … N-1`. -/
def total {w a : Nat} (N : Nat) (ups : Nat → List (FetchUpdate w a)) : Nat := ((List.range N).map fun i => (ups i).length).sum

/-- C31, a counter: the object has been incremented once for every `fetch_update(.., .., |x| Some(x + 1))`, and none of them
failed. -/
def Backend.Counts {W : Nat} (A : Backend W) (P : Call → Prop) : Prop :=
  ∀ (w a : Nat), w % 8 = 0 → w ≠ 0 → ∀ (m0 : Mem) (tr : List GEv) (g : GState W),
    GRun A P ⟨m0, fun _ => .idle⟩ tr g → (∀ i, g.th i = .idle) → VRegular A.e w a (fun _ _ => True) (GEv.vis tr) →
    ∀ (N : Nat) (ups : Nat → List (FetchUpdate w a)), ByFetchUpdate N ups (fun i => threadCalls w a i (GEv.vis tr)) →
      (∀ i, ∀ u ∈ ups i, u.f.Increments) →
      load A.e g.mem a w = load A.e m0 a w + BitVec.ofNat w (total N ups) ∧ ∀ i, ∀ u ∈ ups i, ∃ prev, u.result = .ok prev

/-- The calls on the object and their answers, in a thread of an axiomatic execution. -/
def objectCalls {W : Nat} (w a : Nat) (items : List (Item W)) : List (Call × Ret) :=
  ((opsOf items).filter fun d => d.call.On w a).map fun d => (d.call, d.ret)

/-- C31 for `fetch_update` on weak memory, with any orderings. -/
def Backend.UpdatesChainWeak {W : Nat} (A : Backend W) (P : Call → Prop) : Prop :=
  ∀ (w a : Nat) (X : AxShape W) (rf : Node → Nat → Option Node) (N : Nat) (items : Nat → List (Item W)),
    CohRun A P (fun _ _ => True) w a X rf N items →
    ∀ (ups : Nat → List (FetchUpdate w a)), ByFetchUpdate N ups (fun t => objectCalls w a (items t)) →
      ∃ (m : Mem) (l : List (Nat × BitVec w × BitVec w)), (∀ x, a ≤ x → x < a + w / 8 → X.Newest (fun _ => True) x (m x)) ∧
        OneChain N ups (load A.e X.m0 a w) (load A.e m a w) l

/-- C31 on weak memory, a counter, with any orderings (Relaxed included). -/
def Backend.CountsWeak {W : Nat} (A : Backend W) (P : Call → Prop) : Prop :=
  ∀ (w a : Nat) (X : AxShape W) (rf : Node → Nat → Option Node) (N : Nat) (items : Nat → List (Item W)),
    CohRun A P (fun _ _ => True) w a X rf N items →
    ∀ (ups : Nat → List (FetchUpdate w a)), ByFetchUpdate N ups (fun t => objectCalls w a (items t)) →
      (∀ i, ∀ u ∈ ups i, u.f.Increments) →
      ∃ m : Mem, (∀ x, a ≤ x → x < a + w / 8 → X.Newest (fun _ => True) x (m x)) ∧
        load A.e m a w = load A.e X.m0 a w + BitVec.ofNat w (total N ups) ∧ ∀ i, ∀ u ∈ ups i, ∃ prev, u.result = .ok prev

/-! ### Proofs -/

/-- Calls on one register, one after the other. -/
inductive RegSeq (w a : Nat) : BitVec w → List (Nat × Call × Ret) → BitVec w → Prop where
  | nil (v) : RegSeq w a v [] v
  | cons {v t v'} (i : Nat) (c : Call) (r : Ret) (hon : c.On w a) (hs : c.Sees v r) (h : RegSeq w a (c.after w a v r) t v') :
      RegSeq w a v ((i, c, r) :: t) v'

theorem RegSeq.snoc {w a : Nat} {v v' : BitVec w} {l : List (Nat × Call × Ret)} (h : RegSeq w a v l v') (i : Nat) (c : Call)
    (r : Ret) (hon : c.On w a) (hs : c.Sees v' r) : RegSeq w a v (l ++ [(i, c, r)]) (c.after w a v' r) := by
  induction h with
  | nil v => exact .cons i c r hon hs (.nil _)
  | cons j d q hd hq h ih => exact .cons j d q hd hq (ih hs)

theorem RegSeq.sees {w a : Nat} {v v' : BitVec w} {l : List (Nat × Call × Ret)} (h : RegSeq w a v l v') :
    ∀ x ∈ l, x.2.1.On w a ∧ ∃ cur : BitVec w, x.2.1.Sees cur x.2.2 := by
  induction h with
  | nil => simp
  | cons i c r hon hs h ih =>
    intro x hx
    rcases List.mem_cons.1 hx with rfl | hx
    · exact ⟨hon, _, hs⟩
    · exact ih x hx

/-- Not a store or swap. -/
def Call.Updating : Call → Prop
  | .store .. => False
  | .swap .. => False
  | _ => True

/-- The successful compare-exchanges of a sequence are a chain. -/
theorem RegSeq.chain {w a : Nat} {v v' : BitVec w} {l : List (Nat × Call × Ret)} (h : RegSeq w a v l v')
    (hu : ∀ x ∈ l, x.2.1.Updating) : UpdateChain v (l.flatMap fun (i, c, r) => casOk w a i c r) v' := by
  induction h with
  | nil => rfl
  | cons i c r hon hs h ih =>
    have ih := ih fun x hx => hu x (List.mem_cons_of_mem _ hx)
    have hc := hu _ List.mem_cons_self
    simp only [List.flatMap_cons]
    cases c with
    | load o w' a' => simp only [Call.Sees] at hs; subst hs; exact ih
    | store => exact hc.elim
    | swap => exact hc.elim
    | cas s f w' a' old new =>
      obtain ⟨rfl, rfl⟩ := hon
      obtain ⟨ok, rfl, hok⟩ := hs
      cases ok with
      | false => exact ih
      | true =>
        simp only [casOk, Call.after, Call.width, Call.addr, and_self, if_true] at ih hok ⊢
        exact ⟨hok trivial, ih⟩
    | casWeak s f w' a' old new =>
      obtain ⟨rfl, rfl⟩ := hon
      obtain ⟨ok, rfl, hok⟩ := hs
      cases ok with
      | false => exact ih
      | true =>
        simp only [casOk, Call.after, Call.width, Call.addr, and_self, if_true] at ih hok ⊢
        exact ⟨hok trivial, ih⟩

/-- The state of the closure after successive calls. -/
def Closure.state {w : Nat} (f : Closure w) (s : f.σ) : List (BitVec w) → f.σ
  | [] => s
  | v :: t => f.state (f.call s v).2 t

theorem Closure.last_append {w : Nat} (f : Closure w) (s : f.σ) (l : List (BitVec w)) (v : BitVec w) :
    f.last s (l ++ [v]) = (f.call (f.state s l) v).1 := by
  induction l generalizing s with
  | nil => rfl
  | cons x t ih =>
    cases t with
    | nil => rfl
    | cons y t => exact ih _
theorem Closure.state_append {w : Nat} (f : Closure w) (s : f.σ) (l : List (BitVec w)) (v : BitVec w) :
    f.state s (l ++ [v]) = (f.call (f.state s l) v).2 := by
  induction l generalizing s with
  | nil => rfl
  | cons x t ih => exact ih _

theorem seenBits_append (w : Nat) (s t : List (Call × Ret)) : seenBits w (s ++ t) = seenBits w s ++ seenBits w t := by
  induction s with
  | nil => rfl
  | cons x s ih =>
    obtain ⟨c, r⟩ := x
    cases r with
    | unit => exact ih
    | bits => simp [seenBits, ih]
    | cas _ _ ok => cases ok <;> simp [seenBits, ih]

/-- The successful compare-exchanges among the calls. -/
def okPairs (w a : Nat) (l : List (Call × Ret)) : List (BitVec w × BitVec w) :=
  l.flatMap fun (c, r) => (casOk w a 0 c r).map (·.2)

theorem okPairs_append (w a : Nat) (s t : List (Call × Ret)) : okPairs w a (s ++ t) = okPairs w a s ++ okPairs w a t := by
  simp [okPairs]

/-- What is known in a state of `fetch_update`. -/
def FUOK {w : Nat} (a : Nat) (f : Closure w) (l : List (Call × Ret)) : FU f → Prop
  | .start => l = []
  | .set prev next s => okPairs w a l = [] ∧ ∃ seen, seenBits w l = seen ++ [prev] ∧
      f.call (f.state f.init seen) prev = (some next, s)
  | .fin (.error prev) => okPairs w a l = [] ∧ ∃ seen, seenBits w l = seen ++ [prev] ∧
      (f.call (f.state f.init seen) prev).1 = none
  | .fin (.ok prev) => ∃ next seen, okPairs w a l = [(prev, next)] ∧ seenBits w l = seen ++ [prev] ∧
      (f.call (f.state f.init seen) prev).1 = some next

theorem FUOK.next {w a : Nat} {f : Closure w} {l : List (Call × Ret)} {prev : BitVec w} {seen : List (BitVec w)}
    (h1 : okPairs w a l = []) (h2 : seenBits w l = seen ++ [prev]) {s : f.σ} (hs : s = f.state f.init seen) :
    FUOK a f l (FU.next f prev s) := by
  subst hs
  unfold FU.next
  split
  · rename_i n s' hc; exact ⟨h1, seen, h2, hc⟩
  · rename_i s' hc; exact ⟨h1, seen, h2, by rw [hc]⟩

theorem follows_inv {w a : Nat} {so fo : Ordering} {f : Closure w} {l : List (Call × Ret)}
    {s : (fetchUpdateM w a so fo f).S} (h : (fetchUpdateM w a so fo f).Follows l s)
    (hs : ∀ x ∈ l, ∃ cur : BitVec w, x.1.Sees cur x.2) : FUOK a f l s ∧ ∀ x ∈ l, x.1.Updating := by
  induction h with
  | start => exact ⟨rfl, by simp⟩
  | call h ha x ih =>
    rename_i l s c k
    have hs' : ∀ x ∈ l, ∃ cur : BitVec w, x.1.Sees cur x.2 := fun x hx => hs x (List.mem_append.2 (.inl hx))
    obtain ⟨ih, iu⟩ := ih hs'
    have hx := hs (c, c.toRet x) (by simp)
    cases s with
    | fin r => simp only [fetchUpdateM] at ha; cases ha
    | start =>
      simp only [fetchUpdateM] at ha
      split at ha
      · cases ha
        have ih : l = [] := ih
        subst ih
        refine ⟨FUOK.next (seen := []) rfl ?_ rfl, by simp [Call.Updating]⟩
        exact congrArg (· :: []) (BitVec.setWidth_eq (x : BitVec w))
      · cases ha
    | set prev next s =>
      simp only [fetchUpdateM] at ha
      split at ha
      · cases ha
        refine ⟨?_, fun y hy => ?_⟩
        · obtain ⟨i1, seen, i2, i3⟩ := ih
          obtain ⟨v, ok⟩ := x
          cases ok with
          | false =>
            simp only [toResult, Bool.false_eq_true, if_false]
            refine FUOK.next (seen := seen ++ [prev]) ?_ ?_ ?_
            · rw [okPairs_append, i1]; rfl
            · rw [seenBits_append, i2]; simp [seenBits, Call.toRet]
            · rw [Closure.state_append, i3]
          | true =>
            obtain ⟨cur, ok, hr, hok⟩ := hx
            simp only [Call.toRet, Ret.cas.injEq, heq_eq_eq, true_and] at hr
            obtain ⟨rfl, rfl⟩ := hr
            have hv : v = prev := by simpa using hok rfl
            subst hv
            simp only [toResult, if_true]
            refine ⟨next, seen, ?_, ?_, by rw [i3]⟩
            · rw [okPairs_append, i1]; simp [okPairs, casOk, Call.toRet]
            · rw [seenBits_append, i2]; simp [seenBits, Call.toRet]
        · rcases List.mem_append.1 hy with hy | hy
          · exact iu y hy
          · rw [List.mem_singleton.1 hy]; exact trivial
      · cases ha

/-- A returned `fetch_update` whose answers come from the object. -/
theorem FetchUpdate.OK.pairs {w a : Nat} {u : FetchUpdate w a} (h : u.OK)
    (hs : ∀ x ∈ u.calls, ∃ cur : BitVec w, x.1.Sees cur x.2) :
    okPairs w a u.calls = u.writes.toList ∧ (∀ x ∈ u.calls, x.1.Updating) ∧
    (∀ prev, u.result = .ok prev → ∃ next seen, u.writes = some (prev, next) ∧ seenBits w u.calls = seen ++ [prev] ∧
      u.f.last u.f.init (seen ++ [prev]) = some next) ∧
    ∀ prev, u.result = .error prev → ∃ seen, seenBits w u.calls = seen ++ [prev] ∧
      u.f.last u.f.init (seen ++ [prev]) = none := by
  obtain ⟨s, h1, h2⟩ := h
  obtain ⟨h3, h4⟩ := follows_inv h1 hs
  cases s with
  | start => simp only [fetchUpdateM] at h2; split at h2 <;> cases h2
  | set => simp only [fetchUpdateM] at h2; split at h2 <;> cases h2
  | fin r =>
    simp only [fetchUpdateM, Act.done.injEq] at h2
    cases r with
    | error v =>
      obtain ⟨h5, seen, h6, h7⟩ := h3
      refine ⟨by simp [FetchUpdate.writes, ← h2, h5], h4, fun p hp => (by rw [← h2] at hp; cases hp), fun p hp => ?_⟩
      rw [← h2] at hp
      cases hp
      exact ⟨seen, h6, by rw [Closure.last_append]; exact h7⟩
    | ok v =>
      obtain ⟨next, seen, h5, h6, h7⟩ := h3
      have hw : u.writes = some (v, next) := by
        simp only [FetchUpdate.writes, ← h2]
        rw [h6, Closure.last_append, h7]; rfl
      refine ⟨by rw [h5, hw]; rfl, h4, fun p hp => ?_, fun p hp => by rw [← h2] at hp; cases hp⟩
      rw [← h2] at hp
      cases hp
      exact ⟨next, seen, hw, h6, by rw [Closure.last_append]; exact h7⟩

theorem casOk_thread {w a i : Nat} {c : Call} {r : Ret} : (casOk w a i c r).map (·.2) = (casOk w a 0 c r).map (·.2) := by
  cases c <;> cases r <;> first | rfl | (rename_i ok; cases ok <;> simp only [casOk] <;> first | rfl | (split <;> rfl))

theorem casOk_fst {w a i : Nat} {c : Call} {r : Ret} : ∀ x ∈ casOk w a i c r, x.1 = i := by
  intro x hx
  cases c <;> cases r <;> first | (simp only [casOk, List.not_mem_nil] at hx) | skip
  all_goals
    rename_i ok
    cases ok <;> simp only [casOk, List.not_mem_nil] at hx
    split at hx
    · rw [List.mem_singleton.1 hx]
    · simp at hx

theorem ofThread_casOk {w a i : Nat} (seq : List (Nat × Call × Ret)) :
    (ofThread i (seq.flatMap fun (j, c, r) => casOk w a j c r)).map (·.2) = okPairs w a ((ofThread i seq).map (·.2)) := by
  induction seq with
  | nil => rfl
  | cons x t ih =>
    obtain ⟨j, c, r⟩ := x
    simp only [ofThread, List.flatMap_cons, List.filter_append, List.map_append] at ih ⊢
    rw [ih]
    by_cases hj : j = i
    · subst hj
      have : (casOk w a j c r).filter (fun x => x.1 == j) = casOk w a j c r := by
        rw [List.filter_eq_self]; intro x hx; simp [casOk_fst x hx]
      rw [this, casOk_thread]
      simp [okPairs]
    · have : (casOk w a j c r).filter (fun x => x.1 == i) = [] := by
        rw [List.filter_eq_nil_iff]; intro x hx; simp [casOk_fst x hx, hj]
      simp [this, hj]

/-- A failed `fetch_update` ended with a value for which the closure returned `None`. -/
def Failures {w a : Nat} (ups : Nat → List (FetchUpdate w a)) : Prop :=
  ∀ i, ∀ u ∈ ups i, ∀ prev, u.result = .error prev → ∃ seen, seenBits w u.calls = seen ++ [prev] ∧
    u.f.last u.f.init (seen ++ [prev]) = none

/-- A sequence of calls on the register that consists of whole `fetch_update`s. -/
theorem RegSeq.oneChain {w a N : Nat} {v v' : BitVec w} {seq : List (Nat × Call × Ret)} (h : RegSeq w a v seq v')
    {ups : Nat → List (FetchUpdate w a)} (hby : ByFetchUpdate N ups fun i => (ofThread i seq).map (·.2)) :
    OneChain N ups v v' (seq.flatMap fun (i, c, r) => casOk w a i c r) ∧ Failures ups := by
  obtain ⟨hN, hok, hall⟩ := hby
  have hmem : ∀ i, ∀ u ∈ ups i, ∀ x ∈ u.calls, (i, x) ∈ seq := by
    intro i u hu x hx
    have : x ∈ (ofThread i seq).map (·.2) := by rw [hall]; exact List.mem_flatMap.2 ⟨u, hu, hx⟩
    obtain ⟨⟨j, y⟩, hy, rfl⟩ := List.mem_map.1 this
    obtain ⟨h1, h2⟩ := List.mem_filter.1 hy
    have : j = i := by simpa using h2
    subst this; exact h1
  have hp := fun i u hu => (hok i u hu).pairs fun x hx => (h.sees _ (hmem i u hu x hx)).2
  have hmem' : ∀ x ∈ seq, ∃ u ∈ ups x.1, x.2 ∈ u.calls := by
    intro x hx
    have : x.2 ∈ (ofThread x.1 seq).map (·.2) := List.mem_map.2 ⟨x, List.mem_filter.2 ⟨hx, by simp⟩, rfl⟩
    rw [hall] at this
    obtain ⟨u, hu, hx⟩ := List.mem_flatMap.1 this
    exact ⟨u, hu, hx⟩
  refine ⟨⟨h.chain fun x hx => ?_, fun i => ?_, fun i u hu => (hp i u hu).2.2.1, fun x hx => ?_⟩,
    fun i u hu => (hp i u hu).2.2.2⟩
  · obtain ⟨u, hu, hx⟩ := hmem' x hx
    exact (hp _ u hu).2.1 _ hx
  · rw [ofThread_casOk, hall]
    have : ∀ u ∈ ups i, okPairs w a u.calls = u.writes.toList := fun u hu => (hp i u hu).1
    generalize ups i = us at this
    induction us with
    | nil => rfl
    | cons u us ih =>
      rw [List.flatMap_cons, okPairs_append, ih fun u hu => this u (List.mem_cons_of_mem _ hu), this u (by simp)]
      rw [List.filterMap_cons]
      cases u.writes <;> rfl
  · obtain ⟨⟨j, c, r⟩, hy, hx⟩ := List.mem_flatMap.1 hx
    rw [casOk_fst x hx]
    obtain ⟨u, hu, _⟩ := hmem' _ hy
    rcases Nat.lt_or_ge j N with hn | hn
    · exact hn
    · rw [hN j hn] at hu; simp at hu

/-! #### From runs of the register -/

/-- The effects in a run of the register, in order. -/
def OEv.pts : List OEv → List (Nat × Call × Ret)
  | [] => []
  | .pt i c r :: t => (i, c, r) :: pts t
  | .h _ :: t => pts t

theorem OEv.pts_append (s t : List OEv) : OEv.pts (s ++ t) = OEv.pts s ++ OEv.pts t := by
  induction s with
  | nil => rfl
  | cons x s ih => cases x <;> simp [OEv.pts, ih]

/-- The answers in a history, in order. -/
def hRets : List HEv → List (Nat × Call × Ret)
  | [] => []
  | .ret i c r :: t => (i, c, r) :: hRets t
  | .inv _ _ :: t => hRets t

theorem hRets_append (s t : List HEv) : hRets (s ++ t) = hRets s ++ hRets t := by
  induction s with
  | nil => rfl
  | cons x s ih => cases x <;> simp [hRets, ih]

/-- What a thread has done but not returned from. -/
def SThread.open (i : Nat) : SThread → List (Nat × Call × Ret)
  | .done c r => [(i, c, r)]
  | _ => []

theorem ORun.reg {w a : Nat} {v : BitVec w} {otr : List OEv} {o : OState w} (h : ORun w a ⟨v, fun _ => .idle⟩ otr o) :
    RegSeq w a v (OEv.pts otr) o.val ∧
    (∀ i c, o.th i = .pending c → c.On w a) ∧
    ∀ i, ofThread i (OEv.pts otr) = ofThread i (hRets (OEv.vis otr)) ++ (o.th i).open i := by
  induction h with
  | nil => exact ⟨.nil _, (fun _ _ h => by cases h), fun _ => rfl⟩
  | snoc h hs ih =>
    obtain ⟨i1, i2, i3⟩ := ih
    rw [OEv.pts_append, OEv.vis_append]
    cases hs with
    | inv i c hth hon =>
      refine ⟨by simpa [OEv.pts] using i1, fun j d hd => ?_, fun j => ?_⟩
      · simp only [upd] at hd
        split at hd
        · cases hd; exact hon
        · exact i2 j d hd
      · have := i3 j
        simp only [OEv.pts, List.append_nil, OEv.vis, hRets_append, hRets]
        rw [this]; simp only [upd]; split
        · rename_i hj; subst hj; simp [hth, SThread.open]
        · rfl
    | pt i c r hth ha =>
      refine ⟨i1.snoc i c r (i2 i c hth) ha, fun j d hd => ?_, fun j => ?_⟩
      · simp only [upd] at hd
        split at hd
        · cases hd
        · exact i2 j d hd
      · have := i3 j
        simp only [OEv.pts, OEv.vis, List.append_nil, ofThread_append]
        rw [this]; simp only [upd]; split
        · rename_i hj; subst hj; simp [hth, SThread.open, ofThread]
        · rename_i hj; simp [ofThread, Ne.symm hj]
    | ret i c r hth =>
      refine ⟨by simpa [OEv.pts] using i1, fun j d hd => ?_, fun j => ?_⟩
      · simp only [upd] at hd
        split at hd
        · cases hd
        · exact i2 j d hd
      · have := i3 j
        simp only [OEv.pts, List.append_nil, OEv.vis, hRets_append, hRets, ofThread_append]
        rw [this]; simp only [upd]; split
        · rename_i hj; subst hj; simp [hth, SThread.open, ofThread]
        · rename_i hj; simp [ofThread, Ne.symm hj]

theorem threadCalls_object (w a i : Nat) (v : List VEv) :
    threadCalls w a i v = (ofThread i (hRets (objectPart w a v))).map (·.2) := by
  induction v with
  | nil => rfl
  | cons x t ih =>
    cases x with
    | ext => exact ih
    | h y =>
      cases y with
      | inv j c => simp only [threadCalls, VEv.rets, objectPart] at ih ⊢; rw [ih]; split <;> rfl
      | ret j c r =>
        simp only [threadCalls, VEv.rets, objectPart, List.filterMap_cons] at ih ⊢
        rw [ih]
        by_cases hon : c.On w a
        · simp only [hon, and_true, if_true, hRets, ofThread, List.filter_cons]
          by_cases hj : j = i <;> simp [hj]
        · simp [hon]

variable {W : Nat}

theorem Backend.ObjectAlone.regSeq {A : Backend W} {P : Call → Prop} (hl : A.ObjectAlone P) {w a : Nat} (hw : w % 8 = 0)
    (hw0 : w ≠ 0) {m0 : Mem} {tr : List GEv} {g : GState W} (hr : GRun A P ⟨m0, fun _ => .idle⟩ tr g)
    (hidle : ∀ i, g.th i = .idle) (hreg : VRegular A.e w a (fun _ _ => True) (GEv.vis tr)) :
    ∃ seq, RegSeq w a (load A.e m0 a w) seq (load A.e g.mem a w) ∧
      (fun i => threadCalls w a i (GEv.vis tr)) = fun i => (ofThread i seq).map (·.2) := by
  obtain ⟨otr, o, h1, h2, h3, h4⟩ := hl w a hw hw0 m0 tr g hr hreg
  obtain ⟨h5, -, h6⟩ := h1.reg
  rw [h3] at h5
  refine ⟨_, h5, funext fun i => ?_⟩
  rw [threadCalls_object, h6, ← h2, h4 i (hidle i)]; simp [SThread.open]

/-- C31 for `fetch_update`, from C22. -/
theorem Backend.ObjectAlone.updatesChain {A : Backend W} {P : Call → Prop} (hl : A.ObjectAlone P) : A.UpdatesChain P := by
  intro w a hw hw0 m0 tr g hr hidle hreg N ups hby
  obtain ⟨seq, h1, h2⟩ := hl.regSeq hw hw0 hr hidle hreg
  rw [h2] at hby
  exact ⟨_, (h1.oneChain hby).1⟩

theorem updateChain_count {w : Nat} {x y : BitVec w} {l : List (Nat × BitVec w × BitVec w)} (h : UpdateChain x l y)
    (hl : ∀ z ∈ l, z.2.2 = z.2.1 + 1) : y = x + BitVec.ofNat w l.length := by
  induction l generalizing x with
  | nil => cases (show x = y from h); simp
  | cons z t ih =>
    obtain ⟨i, old, new⟩ := z
    obtain ⟨rfl, h⟩ := h
    have h1 : new = x + 1 := hl _ List.mem_cons_self
    rw [ih h fun z hz => hl z (List.mem_cons_of_mem _ hz), h1, List.length_cons, BitVec.add_assoc,
      Nat.add_comm t.length, BitVec.ofNat_add]
    rfl

theorem OneChain.count {w a N : Nat} {ups : Nat → List (FetchUpdate w a)} {x y : BitVec w}
    {l : List (Nat × BitVec w × BitVec w)} (h : OneChain N ups x y l) (hf : Failures ups)
    (hi : ∀ i, ∀ u ∈ ups i, u.f.Increments) :
    y = x + BitVec.ofNat w (total N ups) ∧ ∀ i, ∀ u ∈ ups i, ∃ prev, u.result = .ok prev := by
  have hok : ∀ i, ∀ u ∈ ups i, ∃ prev, u.result = .ok prev := by
    intro i u hu
    cases hr : u.result with
    | ok p => exact ⟨p, rfl⟩
    | error p =>
      obtain ⟨seen, _, h2⟩ := hf i u hu p hr
      rw [Closure.last_append, hi i u hu] at h2
      cases h2
  refine ⟨?_, hok⟩
  have hlen : l.length = total N ups := by
    rw [(perm_threads N l h.threads).length_eq, List.length_flatMap]
    unfold total
    congr 1
    apply List.map_congr_left
    intro i _
    rw [← List.length_map (f := fun x : Nat × BitVec w × BitVec w => x.2), h.all]
    have : ∀ u ∈ ups i, u.writes ≠ none := by
      intro u hu
      obtain ⟨p, hp⟩ := hok i u hu
      obtain ⟨n, s, h1, _⟩ := h.ok i u hu p hp
      rw [h1]; simp
    generalize ups i = us at this
    induction us with
    | nil => rfl
    | cons u us ih =>
      cases hu : u.writes with
      | none => exact absurd hu (this u (by simp))
      | some z =>
        rw [List.filterMap_cons_some hu, List.length_cons, List.length_cons, ih fun u hu => this u (List.mem_cons_of_mem _ hu)]
  rw [← hlen]
  refine updateChain_count h.chain fun z hz => ?_
  have : z.2 ∈ (ofThread z.1 l).map (·.2) := List.mem_map.2 ⟨z, List.mem_filter.2 ⟨hz, by simp⟩, rfl⟩
  rw [h.all] at this
  obtain ⟨u, hu, hw⟩ := List.mem_filterMap.1 this
  obtain ⟨p, hp⟩ := hok _ u hu
  obtain ⟨n, s, h1, _, h2⟩ := h.ok _ u hu p hp
  rw [Closure.last_append, hi _ u hu] at h2
  rw [h1] at hw
  rw [← Option.some.inj hw, ← Option.some.inj h2]

theorem Backend.ObjectAlone.counts {A : Backend W} {P : Call → Prop} (hl : A.ObjectAlone P) : A.Counts P := by
  intro w a hw hw0 m0 tr g hr hidle hreg N ups hby hi
  obtain ⟨seq, h1, h2⟩ := hl.regSeq hw hw0 hr hidle hreg
  rw [h2] at hby
  obtain ⟨h3, h4⟩ := h1.oneChain hby
  exact h3.count h4 hi

/-! #### Weak memory -/

theorem legal_regSeq {e : Endian} {w a : Nat} (hw : w % 8 = 0) {seq : List (Nat × Call × Ret)} {m0 m : Mem}
    (h : Legal e m0 seq m) (hon : ∀ z ∈ seq, z.2.1.On w a) : RegSeq w a (load e m0 a w) seq (load e m a w) := by
  induction seq generalizing m0 with
  | nil => cases (show m0 = m from h); exact .nil _
  | cons z t ih =>
    obtain ⟨i, c, r⟩ := z
    obtain ⟨m1, hs, hl⟩ := h
    have ho := hon _ List.mem_cons_self
    obtain ⟨h1, h2⟩ := sem_on hw hs ho
    refine .cons i c r ho h1.sees ?_
    rw [← h2]
    exact ih hl fun z hz => hon z (List.mem_cons_of_mem _ hz)

theorem Backend.Coherent.regSeq {A : Backend W} {P : Call → Prop} (hc : A.Coherent P) {w a : Nat} {X : AxShape W}
    {rf : Node → Nat → Option Node} {N : Nat} {items : Nat → List (Item W)} (h : CohRun A P (fun _ _ => True) w a X rf N items) :
    ∃ (m : Mem) (seq : List (Nat × Call × Ret)), (∀ x, a ≤ x → x < a + w / 8 → X.Newest (fun _ => True) x (m x)) ∧
      RegSeq w a (load A.e X.m0 a w) seq (load A.e m a w) ∧
      (fun t => objectCalls w a (items t)) = fun i => (ofThread i seq).map (·.2) := by
  obtain ⟨seq, m, h1, h2, h3⟩ := hc X rf N items a w h.coh h.size h.aligned h.threads h.code
    (fun t d hd => ⟨(h.ops t d hd).1, (h.ops t d hd).2.1, (h.ops t d hd).2.2.1⟩) h.others
  refine ⟨m, seq, h3, legal_regSeq (isSize_mod h.size).1 h1 fun z hz => ?_, funext fun i => ?_⟩
  · have : z ∈ ofThread z.1 seq := List.mem_filter.2 ⟨hz, by simp⟩
    rw [h2] at this
    obtain ⟨d, hd, hz⟩ := List.mem_map.1 this
    rw [← hz]
    simpa using (List.mem_filter.1 hd).2
  · rw [h2, List.map_map]; rfl

theorem Backend.Coherent.updatesChain {A : Backend W} {P : Call → Prop} (hc : A.Coherent P) : A.UpdatesChainWeak P := by
  intro w a X rf N items h ups hby
  obtain ⟨m, seq, h1, h2, h3⟩ := hc.regSeq h
  rw [h3] at hby
  exact ⟨m, _, h1, (h2.oneChain hby).1⟩

theorem Backend.Coherent.counts {A : Backend W} {P : Call → Prop} (hc : A.Coherent P) : A.CountsWeak P := by
  intro w a X rf N items h ups hby hi
  obtain ⟨m, seq, h1, h2, h3⟩ := hc.regSeq h
  rw [h3] at hby
  obtain ⟨h4, h5⟩ := h2.oneChain hby
  exact ⟨m, h1, h4.count h5 hi⟩

/-- `fetch_update` does not use the strong compare-exchange. -/
theorem follows_weak {w a : Nat} {so fo : Ordering} {f : Closure w} {l : List (Call × Ret)}
    {s : (fetchUpdateM w a so fo f).S} (h : (fetchUpdateM w a so fo f).Follows l s) : ∀ x ∈ l, x.1.weaken = x.1 := by
  induction h with
  | start => simp
  | call h ha x ih =>
    rename_i l s c k
    intro y hy
    rcases List.mem_append.1 hy with hy | hy
    · exact ih y hy
    · rw [List.mem_singleton.1 hy]
      cases s with
      | fin r => simp only [fetchUpdateM] at ha; cases ha
      | start => simp only [fetchUpdateM] at ha; split at ha <;> cases ha; rfl
      | set => simp only [fetchUpdateM] at ha; split at ha <;> cases ha; rfl

theorem objectCalls_weaken {w a : Nat} (items : List (Item W)) :
    objectCalls w a (items.map Item.weaken) = (objectCalls w a items).map fun x => (x.1.weaken, x.2) := by
  simp only [objectCalls, opsOf_weaken, List.filter_map, List.map_map]
  have : (fun d : Done W => decide (d.call.On w a)) ∘ Done.weaken = fun d => decide (d.call.On w a) := by
    funext d; simp only [Function.comp, Done.weaken_call, on_weaken]
  rw [this]
  apply List.map_congr_left
  intro d _
  simp only [Function.comp, Done.weaken_call, Done.weaken_ret]

theorem ByFetchUpdate.weaken {w a N : Nat} {ups : Nat → List (FetchUpdate w a)} {items : Nat → List (Item W)}
    (h : ByFetchUpdate N ups fun t => objectCalls w a (items t)) :
    ByFetchUpdate N ups fun t => objectCalls w a ((items t).map Item.weaken) where
  threads := h.threads
  ok := h.ok
  all t := by
    rw [objectCalls_weaken, h.all]
    conv => rhs; rw [← List.map_id ((ups t).flatMap (·.calls))]
    apply List.map_congr_left
    intro x hx
    obtain ⟨u, hu, hx⟩ := List.mem_flatMap.1 hx
    obtain ⟨s, hs, _⟩ := h.ok t u hu
    simp only [follows_weak hs x hx, id]

/-- C31 for `fetch_update` on weak memory for a back end whose `compare_exchange` is only weak. -/
theorem Backend.updatesChainWeak_of_weakened {A : Backend W} (h : A.weakened.UpdatesChainWeak fun _ => True)
    (P : Call → Prop) : A.UpdatesChainWeak P := by
  intro w a X rf N items hr ups hby
  exact h w a X rf N _ (hr.weaken (Q' := fun _ _ => True) fun _ _ _ => trivial) ups hby.weaken
theorem Backend.countsWeak_of_weakened {A : Backend W} (h : A.weakened.CountsWeak fun _ => True)
    (P : Call → Prop) : A.CountsWeak P := by
  intro w a X rf N items hr ups hby hi
  exact h w a X rf N _ (hr.weaken (Q' := fun _ _ => True) fun _ _ _ => trivial) ups hby.weaken hi

end Verif
