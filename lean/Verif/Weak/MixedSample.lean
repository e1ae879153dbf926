/-
C59: an execution that meets its hypotheses, for every back end with 32-bit operations. Thread 0 writes 7 into the object with an ordinary store
(`get_mut`) and then writes 1 with a Release store; thread 1 loads 1 with Acquire ordering, reads the object with an ordinary load, and
finds 1, too.
-/
import Verif.Weak.DRFSample
import Verif.Weak.MixedProof

namespace Verif
variable {W : Nat}

namespace MixedSample

/-- the ordinary store of the object -/
def write (W : Nat) (e : Endian) (rs : RS W) (m : Mem) : Own W :=
  ⟨.st .plain (fun _ => 0x1000) 32 (fun _ => 7#32), rs, .wr .plain, m, Verif.store e m 0x1000 32 7#32⟩
/-- the ordinary load of the object -/
def read (W : Nat) (rs : RS W) (m : Mem) : Own W := ⟨.ld .plain (fun _ => 0x1000) 32 (fun _ rs => rs), rs, .rd .plain, m, m⟩

/-- Operations and ordinary accesses to the object at 0x1000 are executed, and the hypotheses of all versions of C59 are met. -/
def Met (A : Backend W) : Prop :=
  ∃ (X : AxShape W) (rf : Node → Nat → Option Node) (items : Nat → List (Item W)) (d1 d2 : Done W) (o1 o2 : Own W),
    FullyConsistent A.imp X rf ∧ (∀ P : Call → Prop, P (DRFSample.set .release) → P (DRFSample.look .acquire) → MixedRun A P X 2 items 32 0x1000) ∧
    items 0 = [.other o1, .op d1] ∧ items 1 = [.op d2, .other o2] ∧ d1.call = DRFSample.set .release ∧ d2.call = DRFSample.look .acquire ∧
    d2.ret = .bits 32 1 ∧ o1.WritesAll 32 0x1000 ∧ load A.e o1.m' 0x1000 32 = 7#32 ∧ o2.ReadsAll 32 0x1000 ∧ load A.e o2.m 0x1000 32 = 1#32

theorem met {A : Backend W} {sc : List Mon} (h : Good A sc) (h6 : A.ProgressOK)
    (h1 : A.Startable (DRFSample.set .release)) (h2 : A.Startable (DRFSample.look .acquire)) : Met A := by
  have hloc : A.LocalOps fun c => c ∈ [DRFSample.set .release, DRFSample.look .acquire] := h.localOps fun s f w a old new B hP => by
    simp [DRFSample.set, DRFSample.look] at hP
  have h1' := h1
  obtain ⟨_, _, rs, _⟩ := h1'
  have hc' : ∀ z ∈ [(0, DRFSample.set .release), (1, DRFSample.look .acquire)], A.Startable z.2 := by
    intro z hz
    simp only [List.mem_cons, List.not_mem_nil, or_false] at hz
    rcases hz with rfl | rfl
    · exact h1
    · exact h2
  obtain ⟨ops, m, hS, hcalls⟩ := Serially.exists h6 [(0, DRFSample.set .release), (1, DRFSample.look .acquire)]
    (Verif.store A.e (fun _ => 0) 0x1000 32 7#32) hc'
  have hleg := hS.legal hloc fun z hz => by
    have : (z.1, z.2.call) ∈ [(0, DRFSample.set .release), (1, DRFSample.look .acquire)] := by rw [← hcalls]; exact List.mem_map.2 ⟨z, hz, rfl⟩
    simp only [List.mem_cons, List.not_mem_nil, or_false, Prod.mk.injEq] at this ⊢
    rcases this with h | h
    · exact .inl h.2
    · exact .inr h.2
  obtain ⟨⟨t1, d1⟩, ⟨t2, d2⟩, rfl⟩ : ∃ z1 z2, ops = [z1, z2] := by
    have hlen := congrArg List.length hcalls
    simp only [List.length_map, List.length_cons, List.length_nil] at hlen
    exact ⟨ops[0], ops[1], List.ext_getElem (by simp [hlen]) fun i hi _ => by
      match i, (by omega : i < 2) with
      | 0, _ => rfl
      | 1, _ => rfl⟩
  simp only [List.map_cons, List.map_nil, List.cons.injEq, Prod.mk.injEq, and_true] at hcalls
  obtain ⟨⟨rfl, e1⟩, rfl, e2⟩ := hcalls
  simp only [List.map_cons, List.map_nil, e1, e2] at hleg
  obtain ⟨m1, ⟨hm1, r1⟩, m2, ⟨x2, ⟨s2, hm2⟩, r2⟩, hm⟩ := hleg
  cases hm
  have hx2 : x2 = 1#32 := by
    rw [s2, hm1]
    exact load_store (by decide) _
  subst hx2
  obtain ⟨m1', a1, m2', a2, hm⟩ := hS
  cases hm
  let o1 : Own W := write W A.e rs fun _ => 0
  let o2 : Own W := read W rs m
  let L : List (Nat × Item W) := [(0, .other o1), (0, .op d1), (1, .op d2), (1, .other o2)]
  have hmix : Mixed A (fun _ => 0) L m := by
    refine ⟨rfl, fun x hx => (store_outside (e := A.e) (m := fun _ => 0) (a := 0x1000) (w := 32) (v := 7#32) ?_ : Verif.store _ _ _ _ _ _ = _), rfl, m1', a1, m, a2, rfl, fun _ _ => rfl, rfl, rfl⟩
    rcases Nat.lt_or_ge x 0x1000 with hlt | hge
    · exact .inl hlt
    · exact .inr (Nat.le_of_not_lt fun hlt => hx ⟨rfl, hge, hlt⟩)
  have i0 : mixedItems L 0 = [.other o1, .op d1] := rfl
  have i1 : mixedItems L 1 = [.op d2, .other o2] := rfl
  have i2 : ∀ t, 2 ≤ t → mixedItems L t = [] := by
    intro t ht
    match t with
    | t + 2 => rfl
  have w1 : o1.WritesAll 32 0x1000 := ⟨_, _, _, rfl, rfl, rfl⟩
  have ops : ∀ t d, Item.op d ∈ mixedItems L t → d = d1 ∨ d = d2 := by
    intro t d hd
    match t with
    | 0 => rw [i0] at hd; simp at hd; exact .inl hd
    | 1 => rw [i1] at hd; simp at hd; exact .inr hd
    | t + 2 => rw [i2 _ (by omega)] at hd; cases hd
  have others : ∀ t o, Item.other o ∈ mixedItems L t → o = o1 ∨ o = o2 := by
    intro t d hd
    match t with
    | 0 => rw [i0] at hd; simp at hd; exact .inl hd
    | 1 => rw [i1] at hd; simp at hd; exact .inr hd
    | t + 2 => rw [i2 _ (by omega)] at hd; cases hd
  have ok1 := a1.ok
  have ok2 := a2.ok
  refine ⟨_, _, mixedItems L, d1, d2, o1, o2, hmix.consistent A.imp, fun P hP1 hP2 => ⟨.inr (.inr (.inl rfl)), rfl, i2, mixed_code L, ?_, ?_⟩, i0, i1, e1, e2, r2,
    w1, load_store (by decide) _, ⟨_, _, _, rfl, rfl, rfl⟩, ?_⟩
  · intro t d hd
    rcases ops t d hd with rfl | rfl
    · rw [e1]; exact ⟨ok1, hP1, .inr (.inr (.inl rfl)), (by decide : 0x1000 % (32 / 8) = 0), .inl ⟨rfl, rfl⟩⟩
    · rw [e2]; exact ⟨ok2, hP2, .inr (.inr (.inl rfl)), (by decide : 0x1000 % (32 / 8) = 0), .inl ⟨rfl, rfl⟩⟩
  · intro t o x ho _ _ hx
    rcases others t o ho with rfl | rfl
    · exact w1
    · exact absurd hx.1 (by simp [o2, read, Ev.isWrite])
  · show load A.e m 0x1000 32 = 1#32
    rw [hm2, hm1]
    exact load_store (by decide) _

end MixedSample
end Verif
