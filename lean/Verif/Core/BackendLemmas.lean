/-
Generic consequences and the proof interface from `Implements` to the back-end properties.
-/
import Verif.Contract
import Verif.Core.Alloc

namespace Verif

theorem Implements.atomic {W w : Nat} {e : Endian} {B : Block W w}
    {post : Mem → Mem → RS W → Mon → Prop} {post' : Mem → Mem → RS W → Prop}
    (h : Implements e B.code B.pre post) (hp : ∀ m m' rs M, post m m' rs M → post' m m' rs) :
    B.Atomic e post' := by
  rintro tr rs ⟨c0, c, h1, h2, h3, h4, rfl⟩
  obtain ⟨pr, ev, m, m', po, ht, hid, hpost⟩ := h.run h1 h2 h3 h4
  exact ⟨pr, ev, m, m', po, ht, hid, hp _ _ _ _ hpost⟩

theorem Implements.completed {W w : Nat} {e : Endian} {B : Block W w}
    {post : Mem → Mem → RS W → Mon → Prop} (h : Implements e B.code B.pre post) {tr : List TEv}
    {rs : RS W} (hr : B.Completed e tr rs) : ∃ m m', post m m' rs (monOf tr) := by
  obtain ⟨c0, c, h1, h2, h3, h4, rfl⟩ := hr
  obtain ⟨pr, ev, m, m', po, ht, hid, hpost⟩ := h.run h1 h2 h3 h4
  exact ⟨m, m', hpost⟩

theorem AtomicTrace.outside {tr : List TEv} {spec : Mem → Mem → Prop} (h : AtomicTrace tr spec)
    {x : Nat} (hs : ∀ m m', spec m m' → m' x = m x) :
    ∀ ev m m', TEv.own ev m m' ∈ tr → m' x = m x := by
  obtain ⟨pre, ev, m, m', post, rfl, h2, h3⟩ := h
  intro ev' m1 m2 hm
  simp only [List.mem_append, List.mem_cons, TEv.own.injEq] at hm
  rcases hm with hm | ⟨_, rfl, rfl⟩ | hm
  · rw [h2 ev' _ _ (List.mem_append.2 (.inl hm))]
  · exact hs _ _ h3
  · rw [h2 ev' _ _ (List.mem_append.2 (.inr hm))]

/-- C06 follows from atomicity: the only memory change is a store of exactly the object's bytes. -/
theorem Backend.neighbours {W : Nat} {A : Backend W} (h1 : A.LoadsAtomic) (h2 : A.StoresAtomic)
    (h3 : A.SwapsAtomic)
    (h4 : ∀ s f w a old new B, A.Cas s f w a old new B →
      B.Atomic A.e fun m m' rs => WeakCasSpec A.e a w old new m m' (B.out rs) (B.ok rs))
    (h5 : A.WeakCasAtomic) : A.NeighboursOK := by
  intro w a B tr rs hB hr ev m m' hm x hx
  have hcas : ∀ old new : BitVec w,
      AtomicTrace tr (fun m m' => WeakCasSpec A.e a w old new m m' (B.out rs) (B.ok rs)) →
      m' x = m x := by
    intro old new h
    refine h.outside (x := x) ?_ ev m m' hm
    rintro m m' ⟨_, ⟨_, _, rfl⟩ | ⟨_, rfl⟩⟩
    · exact store_outside hx
    · rfl
  rcases hB with ⟨o, hB⟩ | ⟨o, v, hB⟩ | ⟨o, v, hB⟩ | ⟨s, f, old, new, hB | hB⟩
  · exact (h1 _ _ _ _ hB _ _ hr).outside (x := x) (by rintro m m' ⟨_, rfl⟩; rfl) ev m m' hm
  · exact (h2 _ _ _ _ _ hB _ _ hr).outside (x := x) (by rintro m m' rfl; exact store_outside hx) ev m m' hm
  · exact (h3 _ _ _ _ _ hB _ _ hr).outside (x := x) (by rintro m m' ⟨_, rfl⟩; exact store_outside hx) ev m m' hm
  · exact hcas _ _ (h4 _ _ _ _ _ _ _ hB _ _ hr)
  · exact hcas _ _ (h5 _ _ _ _ _ _ _ hB _ _ hr)

theorem CasSpec.weak {e : Endian} {a w : Nat} {old new : BitVec w} {m m' : Mem} {out : BitVec w}
    {ok : Bool} (h : CasSpec e a w old new m m' out ok) : WeakCasSpec e a w old new m m' out ok :=
  ⟨h.1, h.2.imp id (fun h => ⟨h.2.1, h.2.2⟩)⟩


attribute [asm] Block.pre List.mem_cons List.mem_nil_iff

/-! ### The verification summary of a back end

`Good A sc` collects, for every block, one `Implements` fact whose postcondition contains the
functional specification and the ordering facts; `sc` lists the monitors of SeqCst operations. -/

/-- ordering facts of a load with ordering `o` -/
def RdOrd (imp : Pairs) (sc : List Mon) (o : Ordering) (M : Mon) : Prop :=
  (o.acquires = true → Acquires imp M = true) ∧ (o = .seqCst → M ∈ sc)
/-- ordering facts of a store, which does write -/
def WrOrd (imp : Pairs) (sc : List Mon) (o : Ordering) (M : Mon) : Prop :=
  (o.releases = true → Releases imp M = true) ∧ (o = .seqCst → M ∈ sc) ∧ M.wr.isSome = true
/-- ordering facts of a swap or a successful CAS -/
def RmwOrd (imp : Pairs) (sc : List Mon) (o : Ordering) (M : Mon) : Prop :=
  (o.acquires = true → Acquires imp M = true) ∧ (o.releases = true → Releases imp M = true) ∧
    (o = .seqCst → M ∈ sc)
/-- ordering facts of a CAS -/
def CasOrd (imp : Pairs) (sc : List Mon) (s f : Ordering) (ok : Bool) (M : Mon) : Prop :=
  (ok = true → RmwOrd imp sc s M) ∧ (ok = false → RdOrd imp sc f M)

instance {imp : Pairs} {sc : List Mon} {o : Ordering} {M : Mon} : Decidable (RdOrd imp sc o M) := by
  unfold RdOrd; infer_instance
instance {imp : Pairs} {sc : List Mon} {o : Ordering} {M : Mon} : Decidable (WrOrd imp sc o M) := by
  unfold WrOrd; infer_instance
instance {imp : Pairs} {sc : List Mon} {o : Ordering} {M : Mon} : Decidable (RmwOrd imp sc o M) := by
  unfold RmwOrd; infer_instance
instance {imp : Pairs} {sc : List Mon} {s f : Ordering} {ok : Bool} {M : Mon} :
    Decidable (CasOrd imp sc s f ok M) := by
  unfold CasOrd; infer_instance

structure Good {W : Nat} (A : Backend W) (sc : List Mon) : Prop where
  load : ∀ o w a B, A.Load o w a B → Implements A.e B.code B.pre
    fun m m' rs M => LoadSpec A.e a w m m' (B.out rs) ∧ RdOrd A.imp sc o M
  store : ∀ o w a v B, A.Store o w a v B → Implements A.e B.code B.pre
    fun m m' _ M => StoreSpec A.e a w v m m' ∧ WrOrd A.imp sc o M
  swap : ∀ o w a v B, A.Swap o w a v B → Implements A.e B.code B.pre
    fun m m' rs M => SwapSpec A.e a w v m m' (B.out rs) ∧ RmwOrd A.imp sc o M
  cas : ∀ s f w a old new B, A.Cas s f w a old new B → Implements A.e B.code B.pre
    fun m m' rs M => WeakCasSpec A.e a w old new m m' (B.out rs) (B.ok rs) ∧
      CasOrd A.imp sc s f (B.ok rs) M
  casWeak : ∀ s f w a old new B, A.CasWeak s f w a old new B → Implements A.e B.code B.pre
    fun m m' rs M => WeakCasSpec A.e a w old new m m' (B.out rs) (B.ok rs) ∧
      CasOrd A.imp sc s f (B.ok rs) M
  ord : ∀ M ∈ sc, ∀ M' ∈ sc, Ordered A.imp M M' = true

namespace Good
variable {W : Nat} {A : Backend W} {sc : List Mon} (h : Good A sc)
include h

theorem loadsAtomic : A.LoadsAtomic := fun o w a B hB =>
  (h.load o w a B hB).atomic fun _ _ _ _ hp => hp.1
theorem storesAtomic : A.StoresAtomic := fun o w a v B hB =>
  (h.store o w a v B hB).atomic fun _ _ _ _ hp => hp.1
theorem swapsAtomic : A.SwapsAtomic := fun o w a v B hB =>
  (h.swap o w a v B hB).atomic fun _ _ _ _ hp => hp.1
theorem casWeakly : ∀ s f w a old new B, A.Cas s f w a old new B →
    B.Atomic A.e fun m m' rs => WeakCasSpec A.e a w old new m m' (B.out rs) (B.ok rs) :=
  fun s f w a old new B hB => (h.cas s f w a old new B hB).atomic fun _ _ _ _ hp => hp.1
theorem weakCasAtomic : A.WeakCasAtomic := fun s f w a old new B hB =>
  (h.casWeak s f w a old new B hB).atomic fun _ _ _ _ hp => hp.1
theorem neighbours : A.NeighboursOK :=
  Backend.neighbours h.loadsAtomic h.storesAtomic h.swapsAtomic h.casWeakly h.weakCasAtomic

theorem casOrd {s f : Ordering} {w a : Nat} {old new : BitVec w} {B : Block W w}
    (hB : A.Cas s f w a old new B ∨ A.CasWeak s f w a old new B) {tr : List TEv} {rs : RS W}
    (hr : B.Completed A.e tr rs) : CasOrd A.imp sc s f (B.ok rs) (monOf tr) := by
  rcases hB with hB | hB
  · obtain ⟨m, m', hp⟩ := (h.cas _ _ _ _ _ _ _ hB).completed hr
    exact hp.2
  · obtain ⟨m, m', hp⟩ := (h.casWeak _ _ _ _ _ _ _ hB).completed hr
    exact hp.2

theorem acquireOK : A.AcquireOK := by
  intro tr ht
  cases ht with
  | load hB ho hr => obtain ⟨_, _, hp⟩ := (h.load _ _ _ _ hB).completed hr; exact hp.2.1 ho
  | swap hB ho hr => obtain ⟨_, _, hp⟩ := (h.swap _ _ _ _ _ hB).completed hr; exact hp.2.1 ho
  | cas hB ho hr hok => exact ((h.casOrd hB hr).1 hok).1 ho

theorem releaseOK : A.ReleaseOK := by
  intro tr ht
  cases ht with
  | store hB ho hr => obtain ⟨_, _, hp⟩ := (h.store _ _ _ _ _ hB).completed hr; exact hp.2.1 ho
  | swap hB ho hr => obtain ⟨_, _, hp⟩ := (h.swap _ _ _ _ _ hB).completed hr; exact hp.2.2.1 ho
  | cas hB ho hr hok => exact ((h.casOrd hB hr).1 hok).2.1 ho

theorem failureOK : A.FailureOK := fun _ _ _ _ _ _ _ _ _ hB hf hr hok =>
  ((h.casOrd hB hr).2 hok).1 hf

theorem seqCstRun {tr : List TEv} (ht : A.SeqCstRun tr) : monOf tr ∈ sc := by
  cases ht with
  | load hB hr => obtain ⟨_, _, hp⟩ := (h.load _ _ _ _ hB).completed hr; exact hp.2.2 rfl
  | store hB hr => obtain ⟨_, _, hp⟩ := (h.store _ _ _ _ _ hB).completed hr; exact hp.2.2.1 rfl
  | swap hB hr => obtain ⟨_, _, hp⟩ := (h.swap _ _ _ _ _ hB).completed hr; exact hp.2.2.2 rfl
  | casOk hB hr hok => exact ((h.casOrd hB hr).1 hok).2.2 rfl
  | casFail hB hr hok => exact ((h.casOrd hB hr).2 hok).2 rfl

theorem seqCstOK : A.SeqCstOK := fun _ _ h1 h2 => h.ord _ (h.seqCstRun h1) _ (h.seqCstRun h2)

end Good

end Verif
