/-
C44: an execution that shows that its hypotheses can be met. Thread 0 writes data and releases a flag, thread 1
swaps the flag with relaxed ordering, thread 2 acquires what thread 1 wrote and reads the data.
-/
import Verif.Props.Sync
import Verif.Props.WeakSCLitmus

namespace Verif.RelSeq
open SB

/-- three threads -/
def shape {W : Nat} (s0 s1 u l0 l1 : Own W) (m0 : Mem) (rank : Node → Nat) : AxShape W where
  po t := match t with
    | 0 => [s0, s1]
    | 1 => [u]
    | 2 => [l0, l1]
    | _ => []
  m0 := m0
  rank := rank

theorem at_cases {W : Nat} {s0 s1 u l0 l1 : Own W} {m0 rank} {n : Node} {o : Own W} (h : (shape s0 s1 u l0 l1 m0 rank).At n o) :
    o.ev.has n.kind ∧ ((n.thread = 0 ∧ n.pos = 0 ∧ o = s0) ∨ (n.thread = 0 ∧ n.pos = 1 ∧ o = s1) ∨
      (n.thread = 1 ∧ n.pos = 0 ∧ o = u) ∨ (n.thread = 2 ∧ n.pos = 0 ∧ o = l0) ∨ (n.thread = 2 ∧ n.pos = 1 ∧ o = l1)) := by
  obtain ⟨h1, h2⟩ := h
  obtain ⟨t, p, k⟩ := n
  refine ⟨h2, ?_⟩
  simp only [shape] at h1
  match t, p with
  | 0, 0 => simp at h1; simp [h1]
  | 0, 1 => simp at h1; simp [h1]
  | 0, p + 2 => simp at h1
  | 1, 0 => simp at h1; simp [h1]
  | 1, p + 1 => simp at h1
  | 2, 0 => simp at h1; simp [h1]
  | 2, 1 => simp at h1; simp [h1]
  | 2, p + 2 => simp at h1
  | t + 3, p => simp at h1

/-- one thread after the other -/
def serial (n : Node) : Nat := 4 * n.thread + 2 * n.pos + (match n.kind with | .rd => 0 | .wr => 1)

section
variable {W : Nat} {imp : Pairs} {s0 s1 u l0 l1 : Own W} {m0 : Mem} {x y n : Nat} {a : Acc}

/-- who writes byte `b` -/
theorem who (e1 : s1.ev = .wr .plain) (e0 : s0.ev = .wr .plain) (e3 : l0.ev = .rd .plain) (e4 : l1.ev = .rd .plain)
    (w0 : s0.ins.wrFoot s0.rs = (x, n)) (w1 : s1.ins.wrFoot s1.rs = (y, n)) (w2 : u.ins.wrFoot u.rs = (y, n)) {b} (w v)
    (h : (shape s0 s1 u l0 l1 m0 serial).WritesByte w b v) :
    (w = ⟨0, 0, .wr⟩ ∧ x ≤ b ∧ b < x + n) ∨ (w = ⟨0, 1, .wr⟩ ∧ y ≤ b ∧ b < y + n) ∨ (w = ⟨1, 0, .wr⟩ ∧ y ≤ b ∧ b < y + n) := by
  obtain ⟨tw, pw, kw⟩ := w
  obtain ⟨hw, ow, how, ⟨_, hb1, hb2⟩, _⟩ := h
  obtain ⟨hkw, hn'⟩ := at_cases how
  simp only at hw hkw hn'
  subst hw
  rcases hn' with ⟨rfl, rfl, rfl⟩ | ⟨rfl, rfl, rfl⟩ | ⟨rfl, rfl, rfl⟩ | ⟨rfl, rfl, rfl⟩ | ⟨rfl, rfl, rfl⟩
  · rw [w0] at hb1 hb2; exact .inl ⟨rfl, hb1, hb2⟩
  · rw [w1] at hb1 hb2; exact .inr (.inl ⟨rfl, hb1, hb2⟩)
  · rw [w2] at hb1 hb2; exact .inr (.inr ⟨rfl, hb1, hb2⟩)
  · rw [e3] at hkw; cases hkw
  · rw [e4] at hkw; cases hkw

/-- thread 1 writes the flag last -/
theorem newest (e1 : s1.ev = .wr .plain) (e0 : s0.ev = .wr .plain) (e3 : l0.ev = .rd .plain) (e4 : l1.ev = .rd .plain)
    (w0 : s0.ins.wrFoot s0.rs = (x, n)) (w1 : s1.ins.wrFoot s1.rs = (y, n)) (w2 : u.ins.wrFoot u.rs = (y, n)) {b} (hxy : x + n ≤ y)
    (hb : y ≤ b) (w v) (h : (shape s0 s1 u l0 l1 m0 serial).WritesByte w b v) : serial w ≤ serial ⟨1, 0, .wr⟩ := by
  rcases who e1 e0 e3 e4 w0 w1 w2 w v h with ⟨_, _, h⟩ | ⟨rfl, _⟩ | ⟨rfl, _⟩
  · omega
  · decide
  · decide

/-- The serial execution is consistent. -/
theorem exec (hxy : x + n ≤ y) (e0 : s0.ev = .wr .plain) (e1 : s1.ev = .wr .plain) (e2 : u.ev = .rmw a) (e3 : l0.ev = .rd .plain)
    (e4 : l1.ev = .rd .plain) (w0 : s0.ins.wrFoot s0.rs = (x, n)) (w1 : s1.ins.wrFoot s1.rs = (y, n))
    (w2 : u.ins.wrFoot u.rs = (y, n)) (r2 : u.ins.rdFoot u.rs = (y, n)) (r3 : l0.ins.rdFoot l0.rs = (y, n))
    (r4 : l1.ins.rdFoot l1.rs = (x, n)) (v2 : u.m = s1.m') (v3 : l0.m = u.m') (v4 : l1.m = s0.m')
    (nll : ∀ o ∈ [s0, s1, u, l0, l1], o.ins.isLL = false) : AxExec imp (shape s0 s1 u l0 l1 m0 serial) where
  inj := by
    intro n o n' o' h h' hr
    obtain ⟨hk, hn⟩ := at_cases h
    obtain ⟨hk', hn'⟩ := at_cases h'
    have hr : serial n = serial n' := hr
    obtain ⟨t, p, k⟩ := n
    obtain ⟨t', p', k'⟩ := n'
    simp only at hn hn'
    have hp : p < 2 := by omega
    have hp' : p' < 2 := by omega
    have : t = t' ∧ p = p' ∧ k = k' := by
      cases k <;> cases k' <;> simp only [serial] at hr <;> refine ⟨?_, ?_, ?_⟩ <;> first | rfl | omega
    rw [this.1, this.2.1, this.2.2]
  ppo := by
    rintro t i k j k' ⟨hij, -⟩
    show serial _ < serial _
    simp only [serial]
    cases k <;> cases k' <;> simp only <;> omega
  value := by
    intro nd o b hat hk hb
    obtain ⟨hkd, hn⟩ := at_cases hat
    obtain ⟨t, p, k⟩ := nd
    simp only at hk hn
    subst hk
    have who := fun w v => who (b := b) (m0 := m0) e1 e0 e3 e4 w0 w1 w2 w v
    rcases hn with ⟨rfl, rfl, rfl⟩ | ⟨rfl, rfl, rfl⟩ | ⟨rfl, rfl, rfl⟩ | ⟨rfl, rfl, rfl⟩ | ⟨rfl, rfl, rfl⟩
    · rw [e0] at hkd; cases hkd
    · rw [e1] at hkd; cases hkd
    · simp only [Own.reads, r2] at hb
      refine .inl ⟨⟨0, 1, .wr⟩, .inl (by simp [shape, serial]),
        ⟨rfl, s1, ⟨rfl, by rw [e1]; trivial⟩, ⟨by rw [e1]; rfl, by rw [w1]; exact hb.1, by rw [w1]; exact hb.2⟩, by rw [v2]⟩,
        fun w v hS hw => ?_⟩
      rcases who w v hw with ⟨rfl, _⟩ | ⟨rfl, _⟩ | ⟨rfl, _⟩
      · omega
      · exact Nat.le_refl _
      · simp [shape, serial] at hS
    · simp only [Own.reads, r3] at hb
      refine .inl ⟨⟨1, 0, .wr⟩, .inl (by simp [shape, serial]),
        ⟨rfl, u, ⟨rfl, by rw [e2]; trivial⟩, ⟨by rw [e2]; rfl, by rw [w2]; exact hb.1, by rw [w2]; exact hb.2⟩, by rw [v3]⟩,
        fun w v hS hw => ?_⟩
      rcases who w v hw with ⟨rfl, _⟩ | ⟨rfl, _⟩ | ⟨rfl, _⟩
      · omega
      · simp [shape, serial]
      · exact Nat.le_refl _
    · simp only [Own.reads, r4] at hb
      refine .inl ⟨⟨0, 0, .wr⟩, .inl (by simp [shape, serial]),
        ⟨rfl, s0, ⟨rfl, by rw [e0]; trivial⟩, ⟨by rw [e0]; rfl, by rw [w0]; exact hb.1, by rw [w0]; exact hb.2⟩, by rw [v4]⟩,
        fun w v hS hw => ?_⟩
      rcases who w v hw with ⟨rfl, _⟩ | ⟨rfl, _⟩ | ⟨rfl, _⟩
      · exact Nat.le_refl _
      · omega
      · omega
  rmw := by
    intro t p o h h'
    refine ⟨by simp [shape, serial], fun w b v _ _ _ => ?_⟩
    have h1 : serial ⟨t, p, .rd⟩ = 4 * t + 2 * p := rfl
    have h2 : serial ⟨t, p, .wr⟩ = 4 * t + 2 * p + 1 := rfl
    simp only [shape]
    omega
  llsc := by
    intro t i j l s hij h h' hl
    exfalso
    obtain ⟨hk, hn⟩ := at_cases h
    have : l ∈ [s0, s1, u, l0, l1] := by
      rcases hn with ⟨_, _, rfl⟩ | ⟨_, _, rfl⟩ | ⟨_, _, rfl⟩ | ⟨_, _, rfl⟩ | ⟨_, _, rfl⟩ <;> simp
    rw [nll l this] at hl; cases hl

/-- No thread reads its own write. -/
theorem localForward (e0 : s0.ev = .wr .plain) (e1 : s1.ev = .wr .plain) (e3 : l0.ev = .rd .plain) (e4 : l1.ev = .rd .plain) :
    (shape s0 s1 u l0 l1 m0 serial).LocalForward := by
  rintro ⟨t, p, k⟩ ⟨t', p', k'⟩ b o o' ⟨⟨o1, hat, hk, _⟩, ⟨v, hw, ow, how, _⟩, hvis, _⟩ ht _ _ _ _
  simp only at hk hw ht
  subst hk hw ht
  obtain ⟨h1, h2⟩ := at_cases hat
  obtain ⟨h3, h4⟩ := at_cases how
  simp only at h1 h2 h3 h4
  have hvis : serial _ < serial _ ∨ _ := hvis
  rcases hvis with h | ⟨_, h⟩
  · exact h
  · simp only at h
    rcases h4 with ⟨rfl, rfl, rfl⟩ | ⟨rfl, rfl, rfl⟩ | ⟨rfl, rfl, rfl⟩ | ⟨rfl, rfl, rfl⟩ | ⟨rfl, rfl, rfl⟩
    · rcases h2 with ⟨_, rfl, rfl⟩ | ⟨_, rfl, rfl⟩ | ⟨h, _⟩ | ⟨h, _⟩ | ⟨h, _⟩ <;> first | omega | skip
      rw [e1] at h1; cases h1
    · omega
    · omega
    · rw [e3] at h3; cases h3
    · rw [e4] at h3; cases h3
end

/-- the relaxed swap: the instruction of `xchgOwn`, on the memory after thread 0's store -/
def swapOwn (p : BitVec 64) (m : Mem) : Own 64 :=
  ⟨X86.xchg 64 32 (Alloc.std X86.swapKind .dst) (Alloc.std X86.swapKind .val), regs (xchgBlock p), .rmw X86.locked, m,
    store .little m (X86.ea 64 (Alloc.std X86.swapKind .dst) 0 (regs (xchgBlock p))) 32
      (((regs (xchgBlock p)).r (Alloc.std X86.swapKind .val)).setWidth 32)⟩
/-- The relaxed swap as a finished operation. -/
def swapDone (p : BitVec 64) (m : Mem) : Done 64 where
  call := .swap .relaxed 32 p.toNat 1
  B := xchgBlock p
  tr := [.own (swapOwn p m).ins (swapOwn p m).rs (swapOwn p m).ev (swapOwn p m).m (swapOwn p m).m']
  rs := (regs (xchgBlock p)).set (Alloc.std X86.swapKind .val) (X86.part (load .little m
    (X86.ea 64 (Alloc.std X86.swapKind .dst) 0 (regs (xchgBlock p))) 32) ((regs (xchgBlock p)).r (Alloc.std X86.swapKind .val)))
theorem swapDone_ok (p : BitVec 64) (m : Mem) : (swapDone p m).OK (X86.backend64 c64) := by
  refine ⟨X86.Swap64.word (c := c64) (Alloc.std _) .relaxed p 1#32 (.inr (.inl rfl)), ⟨0, regs (xchgBlock p), m, none⟩, _,
    rfl, rfl, xchgPre p, LRun.own .nil (i := (swapOwn p m).ins) rfl (.rmwYes _ _ _ _ _ _ _ rfl), rfl, rfl⟩

abbrev flagMem : Mem := (swapOwn 0x2000 (movOwn 0x2000).m').m'

/-- the three threads -/
def items : Nat → List (Item 64)
  | 0 => [.op (movDone 0x1000), .op (movDone 0x2000)]
  | 1 => [.op (swapDone 0x2000 (movOwn 0x2000).m')]
  | 2 => [.op (ldDone 0x2000 flagMem), .op (ldDone 0x1000 (movOwn 0x1000).m')]
  | _ => []

/-- nothing after the only access -/
theorem one {k : AKind} {ev : Ev} (j : Nat) (h : 0 < j) : ¬ Access [ev] j k := by
  rintro ⟨_, h', _⟩
  match j with
  | j + 1 => simp at h'

/-- The hypotheses of C44 can be met: thread 0's release store synchronizes with thread 2's acquire load, which reads the
value of thread 1's relaxed swap, and thread 2's second load accesses the data after. -/
theorem C44_example : ∃ (X : AxShape 64) (items : Nat → List (Item 64)), AxExec (X86.backend64 c64).imp X ∧ X.LocalForward ∧
    (∀ t, X.po t = (items t).flatMap Item.code) ∧
    (∀ t d, Item.op d ∈ items t → d.OK (X86.backend64 c64) ∧ True ∧ IsSize d.call.width) ∧ Sync X items 0 1 2 0 ∧
    (∃ o o', X.At ⟨0, 0, .wr⟩ o ∧ 0 < off (items 0) 1 ∧ X.At ⟨2, 1, .rd⟩ o' ∧ off (items 2) 1 ≤ 1 ∧ o.writes 0x1000 ∧ o'.reads 0x1000) ∧
    (opsOf (items 0)).map (fun d => (d.call, d.ret)) = [(.store .release 32 0x1000 1, .unit), (.store .release 32 0x2000 1, .unit)] ∧
    (opsOf (items 1)).map (fun d => d.call) = [.swap .relaxed 32 0x2000 1] ∧
    (opsOf (items 2)).map (fun d => (d.call, d.ret)) = [(.load .seqCst 32 0x2000, .bits 32 1), (.load .seqCst 32 0x1000, .bits 32 1)] := by
  refine ⟨shape (movOwn 0x1000) (movOwn 0x2000) (swapOwn 0x2000 (movOwn 0x2000).m') (ldOwn 0x2000 flagMem)
    (ldOwn 0x1000 (movOwn 0x1000).m') zero serial, items, ?_, ?_, ?_, ?_, ?_, ?_, ?_, ?_, ?_⟩
  · refine exec (x := 0x1000) (y := 0x2000) (n := 4) (a := X86.locked) (by decide) rfl rfl rfl rfl rfl ?_ ?_ ?_ ?_ ?_ ?_ rfl rfl rfl ?_
    any_goals simp [swapOwn, movOwn, ldOwn, Instr.wrFoot, Instr.rdFoot, X86.xchg, X86.mov_st, X86.mov_ld, X86.ea, xchgReg, movReg, ldReg]
    exact ⟨rfl, rfl, rfl⟩
  · exact localForward rfl rfl rfl rfl
  · intro t
    match t with
    | 0 => rfl
    | 1 => rfl
    | 2 => rfl
    | t + 3 => rfl
  · intro t d hd
    match t with
    | 0 =>
      rcases List.mem_cons.1 hd with h | hd
      · cases h; exact ⟨movDone_ok _, trivial, .inr (.inr (.inl rfl))⟩
      · cases List.mem_singleton.1 hd; exact ⟨movDone_ok _, trivial, .inr (.inr (.inl rfl))⟩
    | 1 => cases List.mem_singleton.1 hd; exact ⟨swapDone_ok _ _, trivial, .inr (.inr (.inl rfl))⟩
    | 2 =>
      rcases List.mem_cons.1 hd with h | hd
      · cases h; exact ⟨ldDone_ok _ _, trivial, .inr (.inr (.inl rfl))⟩
      · cases List.mem_singleton.1 hd; exact ⟨ldDone_ok _ _, trivial, .inr (.inr (.inl rfl))⟩
    | t + 3 => cases hd
  · have hw0 : ∀ k, k < 2 → IsLast items 0 k .wr ⟨0, k, .wr⟩ := by
      intro k hk
      match k with
      | 0 => exact ⟨movDone 0x1000, 0, rfl, ⟨⟨.wr .plain, rfl, trivial⟩, one⟩, rfl⟩
      | 1 => exact ⟨movDone 0x2000, 0, rfl, ⟨⟨.wr .plain, rfl, trivial⟩, one⟩, rfl⟩
    refine .direct (w0 := ⟨0, 1, .wr⟩) (w := ⟨1, 0, .wr⟩) (r := ⟨2, 0, .rd⟩) (x := 0x2000) (by decide) rfl rfl (hw0 1 (by decide))
      ⟨rfl, _, ⟨rfl, trivial⟩, ⟨rfl, ?_, ?_⟩, rfl⟩ rfl rfl ⟨_, 0, rfl, ⟨⟨.rd .plain, rfl, trivial⟩, one⟩, rfl⟩
      ⟨⟨_, ⟨rfl, trivial⟩, rfl, ?_, ?_⟩, ⟨_, rfl, _, ⟨rfl, trivial⟩, ⟨rfl, ?_, ?_⟩, rfl⟩, .inl (by decide), fun w v _ hw =>
        newest (x := 0x1000) (y := 0x2000) (n := 4) rfl rfl rfl rfl ?_ ?_ ?_ (by decide) (by decide) w v hw⟩ (by decide)
      (.inl (by decide))
    any_goals simp [swapOwn, movOwn, ldOwn, Instr.wrFoot, Instr.rdFoot, X86.xchg, X86.mov_st, X86.mov_ld, X86.ea, xchgReg, movReg, ldReg]
  · refine ⟨_, _, ⟨rfl, trivial⟩, by decide, ⟨rfl, trivial⟩, by decide, ⟨rfl, ?_, ?_⟩, ?_, ?_⟩ <;>
      simp [movOwn, ldOwn, Instr.wrFoot, Instr.rdFoot, X86.mov_st, X86.mov_ld, X86.ea, movReg, ldReg]
  · rfl
  · rfl
  · have e : ∀ p : BitVec 64, X86.ea 64 (Alloc.std X86.swapKind .dst) 0 (regs (xchgBlock p)) = p.toNat := fun p => by simp [X86.ea, xchgReg]
    have e' : ∀ p : BitVec 64, X86.ea 64 (Alloc.std X86.storeKind .dst) 0 (regs (movBlock p)) = p.toNat := fun p => by simp [X86.ea, movReg]
    have v' : ∀ p : BitVec 64, ((regs (movBlock p)).r (Alloc.std X86.storeKind .val)).setWidth 32 = 1#32 := fun p =>
      movPre p ⟨Alloc.std X86.storeKind .val, 32, 1#32⟩ (by simp [X86.storeBlock])
    simp only [items, flagMem, opsOf, List.filterMap_cons, List.filterMap_nil, List.map_cons, List.map_nil, ldDone_ret, swapOwn, movOwn, xchgVal,
      e, e', v', load_store (show (32 : Nat) % 8 = 0 by decide)]
    rfl

end Verif.RelSeq
