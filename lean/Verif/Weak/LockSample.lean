/-
C48: an execution that meets its hypotheses, for every back end with 32-bit operations. Thread 0 takes the lock at 0x1000, writes the
data at 0x2000 with relaxed ordering and gives the lock back; thread 1 takes it, reads the data and gives it back.
-/
import Verif.Weak.SerialOps
import Verif.Weak.CoherenceProof

namespace Verif
variable {W : Nat}

namespace LockSample
def take : Call := .swap .acquire 32 0x1000 1#32
def give : Call := .store .release 32 0x1000 0#32
def write : Call := .store .relaxed 32 0x2000 7#32
def look : Call := .load .relaxed 32 0x2000
def calls : List (Nat × Call) := [(0, take), (0, write), (0, give), (1, take), (1, look), (1, give)]

theorem list6 {α β : Type} {f : α → β} {l : List α} {a b c d e g : β} (h : l.map f = [a, b, c, d, e, g]) :
    ∃ x1 x2 x3 x4 x5 x6, l = [x1, x2, x3, x4, x5, x6] ∧ f x1 = a ∧ f x2 = b ∧ f x3 = c ∧ f x4 = d ∧ f x5 = e ∧ f x6 = g := by
  match l with
  | [] | [_] | [_, _] | [_, _, _] | [_, _, _, _] | [_, _, _, _, _] | _ :: _ :: _ :: _ :: _ :: _ :: _ :: _ => simp at h
  | [x1, x2, x3, x4, x5, x6] => simp at h; exact ⟨x1, x2, x3, x4, x5, x6, rfl, h⟩

/-- an access of an operation on the data is not to the lock -/
theorem apart {A : Backend W} {g : Call → Nat} (hacc : A.AccessesOK g) {d : Done W} (hok : d.OK A) (hw : d.call.width = 32)
    (ha : d.call.addr = 0x2000) (hg : g d.call ≤ 16) {o : Own W} (ho : o ∈ owns d.tr) {x : Nat} (hx : o.writes x) : 0x1004 ≤ x := by
  obtain ⟨hB, c0, c, h1, h2, h3, h4, h5, h6⟩ := hok
  obtain ⟨le, hle, he⟩ := List.mem_filterMap.1 ho
  cases le with
  | env => simp at he
  | own ins rs ev m m' =>
    simp only [Option.some.injEq] at he
    subst he
    obtain ⟨tr1, tr2, htr⟩ := List.append_of_mem hle
    have key : ∀ {tr : List (LEv W)} {c : Cfg W}, LRun A.e d.B.code c0 tr c → LEv.own ins rs ev m m' ∈ tr →
        ∃ tr' c1 c2, LRun A.e d.B.code c0 tr' c1 ∧ d.B.code[c1.pc]? = some ins ∧ Step A.e ins c1 ev c2 ∧ c1.rs = rs := by
      intro tr c h hm
      induction h with
      | nil => cases hm
      | own h hi hs ih =>
        rcases List.mem_append.1 hm with hm | hm
        · exact ih hm
        · simp only [List.mem_singleton, LEv.own.injEq] at hm
          obtain ⟨rfl, rfl, rfl, rfl, rfl⟩ := hm
          exact ⟨_, _, _, h, hi, hs, rfl⟩
      | env _ m' r' hr ih =>
        rcases List.mem_append.1 hm with hm | hm
        · exact ih hm
        · simp at hm
    obtain ⟨tr', k1, k2, r1, r2, r3, r4⟩ := key h4 hle
    have hal : d.call.addr % (d.call.width / 8) = 0 := by rw [hw, ha]
    obtain ⟨hwr, hx1, hx2⟩ := hx
    simp only at hwr hx1 hx2
    have hin := fun y n hac => hacc d.call d.B hB hal c0 _ k1 ins y n h1 h3 r1.run r2 (by rw [r4]; exact hac)
    rw [hw, ha] at hin
    have fin : ∀ y n, Inside 0x2000 (max (32 / 8) (g d.call)) y n → 0x1004 ≤ y := by
      rintro y n ⟨_, _, h, _⟩
      have h8 : (max (32 / 8) (g d.call)) ≤ 16 := by omega
      have hpos : 0 < max (32 / 8) (g d.call) := by omega
      have := Nat.div_add_mod 0x2000 (max (32 / 8) (g d.call))
      have hlt := Nat.mod_lt 0x2000 hpos
      rw [Nat.mul_comm] at this
      omega
    cases ins with
    | st acc addr n v => exact Nat.le_trans (fin _ _ (hin _ _ rfl)) hx1
    | sc acc addr n v k => exact Nat.le_trans (fin _ _ (hin _ _ rfl)) hx1
    | rmw acc addr n f k => exact Nat.le_trans (fin _ _ (hin _ _ rfl)) hx1
    | op f => cases r3; cases hwr
    | fence p => cases r3; cases hwr
    | br cond t => cases r3; cases hwr
    | ld acc addr n k => cases r3; cases hwr
    | ll acc tear addr n k => cases r3 <;> cases hwr
    | clrex => cases r3; cases hwr

/-- The hypotheses of C48, both versions, can be met: both threads take the lock, one after the other. -/
theorem exists_run {A : Backend W} {P : Call → Prop} {g : Call → Nat} (hloc : A.LocalOps P) (h6 : A.ProgressOK) (hacc : A.AccessesOK g)
    (hg : ∀ c, g c ≤ 16) (hc : ∀ c ∈ [take, give, write, look], A.Startable c ∧ P c) :
    ∃ (X : AxShape W) (rf : Node → Nat → Option Node) (items : Nat → List (Item W)), FullyConsistent A.imp X rf ∧
      LockRun A P 32 0x1000 X 2 items ∧ SolelyLocked items 32 0x1000 ∧
      LockAt items 32 0x1000 0 0 ∧ UnlockAt items 32 0x1000 0 2 ∧ LockAt items 32 0x1000 1 0 ∧
      (∃ d, (items 0)[1]? = some (.op d) ∧ d.call = write) ∧ ∃ d, (items 1)[1]? = some (.op d) ∧ d.call = look ∧ d.ret = .bits 32 7 := by
  have hc' : ∀ z ∈ calls, A.Startable z.2 ∧ P z.2 := by
    intro z hz
    refine hc z.2 ?_
    simp only [calls, List.mem_cons, List.not_mem_nil, or_false] at hz
    rcases hz with rfl | rfl | rfl | rfl | rfl | rfl <;> simp
  obtain ⟨ops, m, h, hcalls⟩ := Serially.exists h6 calls (fun _ => 0) fun z hz => (hc' z hz).1
  have hleg := h.legal hloc fun z hz => (hc' (z.1, z.2.call) (by rw [← hcalls]; exact List.mem_map.2 ⟨z, hz, rfl⟩)).2
  obtain ⟨⟨t1, d1⟩, ⟨t2, d2⟩, ⟨t3, d3⟩, ⟨t4, d4⟩, ⟨t5, d5⟩, ⟨t6, d6⟩, rfl, e1, e2, e3, e4, e5, e6⟩ := list6 hcalls
  simp only [Prod.mk.injEq] at e1 e2 e3 e4 e5 e6
  obtain ⟨rfl, e1⟩ := e1
  obtain ⟨rfl, e2⟩ := e2
  obtain ⟨rfl, e3⟩ := e3
  obtain ⟨rfl, e4⟩ := e4
  obtain ⟨rfl, e5⟩ := e5
  obtain ⟨rfl, e6⟩ := e6
  simp only [List.map_cons, List.map_nil, e1, e2, e3, e4, e5, e6] at hleg
  obtain ⟨m1, ⟨x1, ⟨s1, hm1⟩, r1⟩, m2, ⟨hm2, r2⟩, m3, ⟨hm3, r3⟩, m4, ⟨x4, ⟨s4, hm4⟩, r4⟩, m5, ⟨x5, ⟨s5, hm5⟩, r5⟩, m6, ⟨hm6, r6⟩, _⟩ := hleg
  have hx1 : x1 = 0#32 := by rw [s1]; exact load_zero _ _ _
  have hx4 : x4 = 0#32 := by
    rw [s4, hm3]
    exact load_store (by decide) _
  have hx5 : x5 = 7#32 := by
    have d : ∀ (M : Mem) (v : BitVec 32), load A.e (store A.e M 0x1000 32 v) 0x2000 32 = load A.e M 0x2000 32 := fun M v =>
      load_store_disjoint (by decide) (.inr (by decide))
    rw [s5, hm4, d, hm3, d, hm2]
    exact load_store (by decide) _
  subst hx1 hx4 hx5
  generalize hops : [(0, d1), (0, d2), (0, d3), (1, d4), (1, d5), (1, d6)] = ops at *
  have i0 : serialItems ops 0 = [.op d1, .op d2, .op d3] := by subst hops; rfl
  have i1 : serialItems ops 1 = [.op d4, .op d5, .op d6] := by subst hops; rfl
  have i2 : ∀ t, 2 ≤ t → serialItems ops t = [] := by
    intro t ht
    subst hops
    match t with
    | t + 2 => rfl
  have hok : ∀ t d, Item.op d ∈ serialItems ops t → d.OK A := by
    intro t d hm
    obtain ⟨d', he, hd⟩ := mem_serialItems hm
    cases he
    obtain ⟨m1, m2, ha⟩ := h.alone _ hd
    exact ha.ok
  have hmem : ∀ t d, Item.op d ∈ serialItems ops t →
      (d.call = take ∧ d.ret = .bits 32 0) ∨ d.call = write ∨ d.call = give ∨ d.call = look := by
    intro t d hm
    obtain ⟨d', he, hd⟩ := mem_serialItems hm
    cases he
    rw [← hops] at hd
    simp only [List.mem_cons, Prod.mk.injEq, List.not_mem_nil, or_false] at hd
    rcases hd with ⟨_, rfl⟩ | ⟨_, rfl⟩ | ⟨_, rfl⟩ | ⟨_, rfl⟩ | ⟨_, rfl⟩ | ⟨_, rfl⟩
    · exact .inl ⟨e1, r1⟩
    · exact .inr (.inl e2)
    · exact .inr (.inr (.inl e3))
    · exact .inl ⟨e4, r4⟩
    · exact .inr (.inr (.inr e5))
    · exact .inr (.inr (.inl e6))
  have hP : ∀ c ∈ [take, give, write, look], P c := fun c hm => (hc c hm).2
  have lock : ∀ {d : Done W}, d.call = take → d.ret = .bits 32 0 → d.call.On 32 0x1000 ∧ d.call.TriesLock ∧ d.ret.Taken := by
    intro d h1 h2
    rw [h1, h2]
    exact ⟨⟨rfl, rfl⟩, ⟨rfl, by decide⟩, rfl⟩
  have unlock : ∀ {d : Done W}, d.call = give → d.call.On 32 0x1000 ∧ d.call.Unlocks := by
    intro d h1
    rw [h1]
    exact ⟨⟨rfl, rfl⟩, ⟨rfl, rfl⟩⟩
  have noUnlock : ∀ t k, UnlockAt (serialItems ops) 32 0x1000 t k → t < 2 ∧ k = 2 := by
    rintro t k ⟨d, hd, hon, hu⟩
    have ht : t < 2 := by
      rcases Nat.lt_or_ge t 2 with h | h
      · exact h
      · rw [i2 t h] at hd; cases hd
    refine ⟨ht, ?_⟩
    match t, ht with
    | 0, _ =>
      rw [i0] at hd
      match k with
      | 0 => simp at hd; subst hd; rw [e1] at hu; exact False.elim hu
      | 1 => simp at hd; subst hd; rw [e2] at hon; exact absurd hon.2 (by decide)
      | 2 => rfl
      | k + 3 => simp at hd
    | 1, _ =>
      rw [i1] at hd
      match k with
      | 0 => simp at hd; subst hd; rw [e4] at hu; exact False.elim hu
      | 1 => simp at hd; subst hd; rw [e5] at hu; exact False.elim hu
      | 2 => rfl
      | k + 3 => simp at hd
  have lock0 : LockAt (serialItems ops) 32 0x1000 0 0 := ⟨d1, by rw [i0]; rfl, lock e1 r1⟩
  have lock1 : LockAt (serialItems ops) 32 0x1000 1 0 := ⟨d4, by rw [i1]; rfl, lock e4 r4⟩
  refine ⟨_, _, serialItems ops, h.consistent _, ?_, ?_, lock0, ⟨d3, by rw [i0]; rfl, unlock e3⟩, lock1, ⟨d2, by rw [i0]; rfl, e2⟩,
    d5, by rw [i1]; rfl, e5, r5⟩
  · exact {
      size := .inr (.inr (.inl rfl))
      aligned := rfl
      threads := i2
      code := serial_code ops
      ops := fun t d hm => by
        refine ⟨hok t d hm, ?_, ?_⟩
        · rcases hmem t d hm with ⟨h, _⟩ | h | h | h <;> rw [h] <;> exact hP _ (by simp)
        · rcases hmem t d hm with ⟨h, _⟩ | h | h | h <;> rw [h] <;> refine ⟨.inr (.inr (.inl rfl)), rfl, ?_⟩
          · exact .inl ⟨rfl, rfl⟩
          · exact .inr (.inr (by decide))
          · exact .inl ⟨rfl, rfl⟩
          · exact .inr (.inr (by decide))
      others := fun t o x hm => by
        obtain ⟨d, he, _⟩ := mem_serialItems hm
        cases he
      free := load_zero _ _ _
      client := {
        ops := fun t d hm hon => by
          rcases hmem t d hm with ⟨h, _⟩ | h | h | h
          · rw [h]; exact .inl ⟨rfl, by decide⟩
          · rw [h] at hon; exact absurd hon.2 (by decide)
          · rw [h]; exact .inr (.inl ⟨rfl, rfl⟩)
          · rw [h] at hon; exact absurd hon.2 (by decide)
        held := fun t k hu => by
          obtain ⟨ht, rfl⟩ := noUnlock t k hu
          refine ⟨0, by decide, ?_, fun m _ hm2 hu' => ?_⟩
          · match t, ht with
            | 0, _ => exact lock0
            | 1, _ => exact lock1
          · have := (noUnlock t m hu').2
            omega } }
  · intro t d o x hm ho hx1 hx2 hw
    rcases hmem t d hm with ⟨h, _⟩ | h | h | h
    · rw [h]; exact ⟨⟨rfl, rfl⟩, .inr (.inr ⟨_, _, rfl⟩)⟩
    · have := apart hacc (hok t d hm) (by rw [h]; rfl) (by rw [h]; rfl) (hg _) ho hw
      omega
    · rw [h]; exact ⟨⟨rfl, rfl⟩, .inl ⟨rfl, rfl⟩⟩
    · have := apart hacc (hok t d hm) (by rw [h]; rfl) (by rw [h]; rfl) (hg _) ho hw
      omega

/-- The form used for the back ends: two threads take the lock, and the second sees what the first wrote. -/
def Met (A : Backend W) : Prop :=
  ∃ (X : AxShape W) (rf : Node → Nat → Option Node) (items : Nat → List (Item W)), FullyConsistent A.imp X rf ∧
    LockRun A (fun _ => True) 32 0x1000 X 2 items ∧ SolelyLocked items 32 0x1000 ∧
    LockAt items 32 0x1000 0 0 ∧ UnlockAt items 32 0x1000 0 2 ∧ LockAt items 32 0x1000 1 0 ∧
    (∃ d, (items 0)[1]? = some (.op d) ∧ d.call = write) ∧ ∃ d, (items 1)[1]? = some (.op d) ∧ d.call = look ∧ d.ret = .bits 32 7

theorem met {A : Backend W} {sc : List Mon} {st sw cas : Nat} (h : Good A sc) (h6 : A.ProgressOK) (hacc : A.AccessesOK (gran st sw cas))
    (hg : st ≤ 16 ∧ sw ≤ 16 ∧ cas ≤ 16) (h1 : A.Startable take) (h2 : A.Startable give) (h3 : A.Startable write) (h4 : A.Startable look) : Met A := by
  have hc : ∀ c ∈ [take, give, write, look], A.Startable c ∧ c ∈ [take, give, write, look] := by
    intro c hm
    refine ⟨?_, hm⟩
    simp only [List.mem_cons, List.not_mem_nil, or_false] at hm
    rcases hm with rfl | rfl | rfl | rfl
    · exact h1
    · exact h2
    · exact h3
    · exact h4
  have hloc : A.LocalOps fun c => c ∈ [take, give, write, look] := h.localOps fun s f w a old new B hP => by
    simp [take, give, write, look] at hP
  have hg' : ∀ c, gran st sw cas c ≤ 16 := by
    intro c
    cases c <;> simp only [gran] <;> omega
  obtain ⟨X, rf, items, hX, hL, hrest⟩ := exists_run hloc h6 hacc hg' hc
  exact ⟨X, rf, items, hX, { hL with ops := fun t d hm => ⟨(hL.ops t d hm).1, trivial, (hL.ops t d hm).2.2⟩ }, hrest⟩

end LockSample
end Verif
