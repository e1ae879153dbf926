/-
From certificates of the five operations to the properties of an interrupt-disabling back end.
-/
import Verif.Intr.Lin
import Verif.Core.BackendLemmas

namespace Verif
variable {W : Nat}

/-- Certificates for all blocks of a back end. -/
structure ICerts (A : IBackend W) : Prop where
  load : ∀ o w a B, A.Load o w a B →
    Nonempty (Cert A.e A.ien B a fun m m' out _ => LoadSpec A.e a w m m' out)
  store : ∀ o w a v B, A.Store o w a v B →
    Nonempty (Cert A.e A.ien B a fun m m' _ _ => StoreSpec A.e a w v m m')
  swap : ∀ o w a v B, A.Swap o w a v B →
    Nonempty (Cert A.e A.ien B a fun m m' out _ => SwapSpec A.e a w v m m' out)
  cas : ∀ s f w a old new B, A.Cas s f w a old new B →
    Nonempty (Cert A.e A.ien B a fun m m' out ok => CasSpec A.e a w old new m m' out ok)
  casWeak : ∀ s f w a old new B, A.CasWeak s f w a old new B →
    Nonempty (Cert A.e A.ien B a fun m m' out ok => WeakCasSpec A.e a w old new m m' out ok)

theorem Ph.Next.mono {w : Nat} {spec spec' : Mem → Mem → BitVec w → Bool → Prop}
    (hs : ∀ m m' o k, spec m m' o k → spec' m m' o k) {ph ph' : Ph w} {m m' : Mem}
    (h : Ph.Next spec ph m m' ph') : Ph.Next spec' ph m m' ph' := by
  cases h with
  | stay => exact .stay _
  | enter => exact .enter _ _
  | one h => exact .one (hs _ _ _ _ h)
  | go => exact .go _ _ _
  | leave h => exact .leave (hs _ _ _ _ h)
  | rest => exact .rest _ _ _

/-- A certificate for a stronger specification is one for a weaker. -/
def Cert.mono {e : Endian} {w : Nat} {ien : RS W → Bool} {B : Block W w} {a : Nat}
    {spec spec' : Mem → Mem → BitVec w → Bool → Prop} (C : Cert e ien B a spec)
    (hs : ∀ m m' o k, spec m m' o k → spec' m m' o k) : Cert e ien B a spec' where
  J := C.J
  init := C.init
  irq := C.irq
  step ph i c ev c' h1 h2 h3 := by
    obtain ⟨h4, ph', h5, h6⟩ := C.step ph i c ev c' h1 h2 h3
    exact ⟨h4, ph', h5.mono hs, h6⟩
  final := C.final

namespace ICerts
variable {A : IBackend W} (h : ICerts A)
include h

theorem loadsAtomic : A.LoadsAtomic := fun o w a B hB _ _ _ hr => by
  obtain ⟨C⟩ := h.load o w a B hB; exact C.section_ hr
theorem storesAtomic : A.StoresAtomic := fun o w a v B hB _ _ _ hr => by
  obtain ⟨C⟩ := h.store o w a v B hB; exact C.section_ hr
theorem swapsAtomic : A.SwapsAtomic := fun o w a v B hB _ _ _ hr => by
  obtain ⟨C⟩ := h.swap o w a v B hB; exact C.section_ hr
theorem casAtomic : A.CasAtomic := fun s f w a old new B hB _ _ _ hr => by
  obtain ⟨C⟩ := h.cas s f w a old new B hB; exact C.section_ hr
theorem weakCasAtomic : A.WeakCasAtomic := fun s f w a old new B hB _ _ _ hr => by
  obtain ⟨C⟩ := h.casWeak s f w a old new B hB; exact C.section_ hr

theorem neighboursOK : A.NeighboursOK := by
  intro w a B c0 tr c hB h0 hp hr
  rcases hB with ⟨o, hB⟩ | ⟨o, v, hB⟩ | ⟨o, v, hB⟩ | ⟨s, f, old, new, hB | hB⟩
  · obtain ⟨C⟩ := h.load _ _ _ _ hB; exact (C.run h0 hp hr).2
  · obtain ⟨C⟩ := h.store _ _ _ _ _ hB; exact (C.run h0 hp hr).2
  · obtain ⟨C⟩ := h.swap _ _ _ _ _ hB; exact (C.run h0 hp hr).2
  · obtain ⟨C⟩ := h.cas _ _ _ _ _ _ _ hB; exact (C.run h0 hp hr).2
  · obtain ⟨C⟩ := h.casWeak _ _ _ _ _ _ _ hB; exact (C.run h0 hp hr).2

theorem certified : A.Certified := by
  intro c B _ hB
  cases c with
  | load o w a =>
    obtain ⟨C⟩ := h.load _ _ _ _ hB
    exact ⟨C.mono fun m m' out _ hs => ⟨out, hs, rfl⟩⟩
  | store o w a v =>
    obtain ⟨C⟩ := h.store _ _ _ _ _ hB
    exact ⟨C.mono fun m m' _ _ hs => ⟨hs, rfl⟩⟩
  | swap o w a v =>
    obtain ⟨C⟩ := h.swap _ _ _ _ _ hB
    exact ⟨C.mono fun m m' out _ hs => ⟨out, hs, rfl⟩⟩
  | cas s f w a old new =>
    obtain ⟨C⟩ := h.cas _ _ _ _ _ _ _ hB
    exact ⟨C.mono fun m m' out ok hs => ⟨out, ok, hs, rfl⟩⟩
  | casWeak s f w a old new =>
    obtain ⟨C⟩ := h.casWeak _ _ _ _ _ _ _ hB
    exact ⟨C.mono fun m m' out ok hs => ⟨out, ok, hs, rfl⟩⟩

end ICerts
end Verif
