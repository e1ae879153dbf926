/-
Proof of C54 (Weak/FenceSC.lean).
-/
import Verif.Weak.FenceSC
import Verif.Weak.FenceProof
import Verif.Weak.NonMCAProof

namespace Verif
variable {W : Nat} {A : Backend W}

/-- C54, from the local specification of the operations and the order of SeqCst operations. -/
theorem Backend.fencesSC {P : Call → Prop} (hloc : A.LocalOps P) (hord : A.OrderingsOK) : A.FencesSC P := by
  intro X N items hX hN hpo hops hfen hfor
  have HP : Prog A X items := ⟨hpo, fun t d h => exists_point hloc (hops t d h).1 (hops t d h).2⟩
  refine Setup.conclude ⟨HP, hX, fun {t k k' d d' n n' o o'} hk h h' => ?_, hfor⟩ hN
  rcases hfen t k k' d d' hk h.item h'.item with ⟨h1, h2⟩ | ⟨f, h1, h2, hF⟩
  · exact HP.lt hX (hord.seqCst _ _ (Done.seqCst (hops t d (List.mem_of_getElem? h.item)).1 h1)
      (Done.seqCst (hops t d' (List.mem_of_getElem? h'.item)).1 h2)) hk h h'
  · have ha := HP.isPt_at h
    have ha' := HP.isPt_at h'
    obtain ⟨p, hp, rfl⟩ := h.pt
    obtain ⟨p', hp', rfl⟩ := h'.pt
    have hlen := (List.getElem?_eq_some_iff.1 hp.get).1
    have o1 := off_mono (items t) (show k + 1 ≤ f from h1)
    have o2 := off_mono (items t) (show f + 1 ≤ k' from h2)
    rw [off_succ h.item] at o1
    simp only [Item.code] at o1
    exact hX.ppo _ _ _ _ _ (HP.fence (hF _ _) ha ha' (by omega) (by omega))

/-- The form used for the back ends. -/
theorem Good.fencesSC {sc : List Mon} (h : Good A sc) (h4 : A.CasAtomic) (hord : A.OrderingsOK) : A.FencesSC fun _ => True :=
  Backend.fencesSC (h.localOps (P := fun _ => True) fun s f w a old new B _ => h4 s f w a old new B) hord

/-- C54 without multi-copy atomicity. -/
theorem Backend.fencesSCOnNonMCA {P : Call → Prop} {g : Call → Nat} (hloc : A.LocalOps P) (hacc : A.AccessesOK g)
    (hb : (∀ tr, A.SeqCstRun tr → (monOf tr).leads = true) ∨ ∀ tr, A.SeqCstRun tr → (monOf tr).trails = true) :
    A.FencesSCOnNonMCA P := by
  intro X rf N items hX hN hpo hops hbar happ hfor
  have HP : Prog A X items := ⟨hpo, fun t d h => exists_point hloc (hops t d h).1 (hops t d h).2.1⟩
  refine NSetup.conclude (rf := rf) ⟨HP, hX, ?_, fun {t k k' d d' n n' o o'} hk h h' => ?_⟩ hN
  · intro t d hd
    obtain ⟨_, _, hs, hal⟩ := hops t d hd
    refine Backend.csetup hloc hacc hX.toCohExec hs hal hpo (fun t' d' hd' => ?_) fun t' o x ho => hfor t' o t d x ho hd
    obtain ⟨h1, h2, h3, h4⟩ := hops t' d' hd'
    exact ⟨h1, h2, h3, h4, happ t' d' t d hd' hd⟩
  · rcases hbar t k k' d d' hk h.item h'.item with ⟨h1, h2⟩ | ⟨f, of, pf, h1, h2, h3, h4, h5⟩
    · exact HP.fenced (.of_seqCst hb (Done.seqCst (hops t d (List.mem_of_getElem? h.item)).1 h1)
        (Done.seqCst (hops t d' (List.mem_of_getElem? h'.item)).1 h2)) hk h h'
    · have ha := HP.isPt_at h
      have ha' := HP.isPt_at h'
      obtain ⟨p, hp, rfl⟩ := h.pt
      obtain ⟨p', hp', rfl⟩ := h'.pt
      have hlen := (List.getElem?_eq_some_iff.1 hp.get).1
      have o1 := off_mono (items t) (show k + 1 ≤ f from h1)
      have o2 := off_mono (items t) (show f + 1 ≤ k' from h2)
      rw [off_succ h.item] at o1
      rw [off_succ h3] at o2
      simp only [Item.code, List.length_singleton] at o1 o2
      refine ⟨rfl, by simp only; omega, o, o', ha, ha', .inl ⟨off (items t) f, of, pf, by simp only; omega, by simp only; omega, ?_, h4, h5⟩⟩
      rw [hpo]
      have := item_get h3 (it := .other of) (q := 0) (o := of) rfl
      rwa [Nat.add_zero] at this

/-- The form used for the back ends. -/
theorem Good.fencesSCOnNonMCA {sc : List Mon} (h : Good A sc) (h4 : A.CasAtomic) {g : Call → Nat}
    (hacc : A.AccessesOK g) (hb : (∀ M ∈ sc, M.leads = true) ∨ ∀ M ∈ sc, M.trails = true) : A.FencesSCOnNonMCA fun _ => True :=
  Backend.fencesSCOnNonMCA (h.localOps (P := fun _ => True) fun s f w a old new B _ => h4 s f w a old new B) hacc
    (hb.imp h.leads h.trails)

end Verif
