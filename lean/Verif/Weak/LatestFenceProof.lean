/- Proof of C55. -/
import Verif.Weak.LatestFence
import Verif.Weak.LatestProof
import Verif.Weak.FenceProof
import Verif.Weak.FenceNonMCA

namespace Verif
variable {W : Nat}

/-- The synchronization of C44 is a special case of that with fences. -/
theorem Sync.fsync {imp : Pairs} {X : AxShape W} {items : Nat → List (Item W)} {i k j l : Nat} (h : Sync X items i k j l) :
    FSync imp X items i k j l := by
  induction h with
  | direct hij hd hrel hw0 hx hd' hacq hr hf hle hown =>
    exact .direct hij (.inl ⟨rfl, _, hd, hrel⟩) hw0 hx (.inl ⟨rfl, _, hd', hacq⟩) hr hf hle hown
  | trans _ hlm _ ih ih' => exact .trans ih hlm ih'
theorem NSync.nfsync {X : AxShape W} {rf : Node → Nat → Option Node} {items : Nat → List (Item W)} {i k j l : Nat} (h : NSync X rf items i k j l) :
    NFSync X rf items i k j l := by
  induction h with
  | direct hd hrel hw hd' hacq hr ho hx hrf hj => exact .direct (.inl ⟨_, hd, hrel⟩) hw (.inl ⟨rfl, _, hd', hacq⟩) hr ho hx hrf hj
  | trans _ hlm _ ih ih' => exact .trans ih hlm ih'

/-- The form used for the back ends. -/
theorem Good.raceFreeReadsFenced {A : Backend W} {sc : List Mon} {st sw cas : Nat} (h : Good A sc) (hpair : A.Paired)
    (hacc : A.AccessesOK (gran st sw cas)) : A.RaceFreeReadsFenced fun _ => True := by
  intro X rf N items ax hfwd hX hrf hD hrace
  have H := hD.weaken.base (h.weakened.localOps (P := fun _ => True) fun _ _ _ _ _ _ _ _ hB => hB.elim) (Backend.weakened_accesses hacc) hX
  have hsync := h.fencesSynchronize hpair X items ax hfwd hD.code fun t d hd => ⟨(hD.ops t d hd).1, trivial, (hD.ops t d hd).2.2.1⟩
  refine readsLatest_weaken.1 (H.readsLatest ?_ (noRaces_weaken.2 hrace))
  rintro ⟨i, p, kd⟩ ⟨j, q, kd'⟩ oa ob ha hb ⟨k, l, h1, h2, h3⟩
  simp only [offset_weaken] at h1 h2 h3
  exact AxShape.precedes_of_rank (A := A) ax hrf ha h2 fun p' kd1 o1 g1 g2 => (hsync i k j l h1 p' q kd1 kd' o1 ob g1 g2 hb h3).1

theorem Good.raceFreeReadsFencedNonMCA {A : Backend W} {sc : List Mon} {st sw cas : Nat} (h : Good A sc) (hpair : A.Paired)
    (hacc : A.AccessesOK (gran st sw cas)) (hb : A.BarriersOnly) (himp : A.imp.ww = false) : A.RaceFreeReadsFencedNonMCA fun _ => True := by
  intro X rf N items hX hD hrace
  have H := hD.weaken.base (h.weakened.localOps (P := fun _ => True) fun _ _ _ _ _ _ _ _ hB => hB.elim) (Backend.weakened_accesses hacc) hX.toCohExec
  have hsync := h.fencesSyncOnNonMCA hpair hacc hb himp X rf items hX hD.code hD.ops
  refine readsLatest_weaken.1 (H.readsLatest ?_ (noRaces_weaken.2 hrace))
  rintro ⟨i, p, kd⟩ ⟨j, q, kd'⟩ oa ob ha hb ⟨k, l, h1, h2, h3⟩
  simp only [offset_weaken] at h1 h2 h3
  exact hsync i k j l h1 p q kd kd' oa ob ha h2 hb h3

end Verif
