/-
C41: a consequence (store buffering), and executions that show that its hypotheses can be met and are needed.
-/
import Verif.Props.WeakSC
import Verif.Lin.Litmus

namespace Verif

/-- Store buffering with SeqCst operations, on weak memory: if thread 0 stores 1 to `x` and then loads `y`, thread 1 stores
1 to `y` and then loads `x` (and each does anything else before, after and in between that does not write the bytes these
operations access), then not both loads return 0. -/
theorem Backend.SCOnWeak.sb {W : Nat} {A : Backend W} {P : Call → Prop} (h : A.SCOnWeak P)
    {X : AxShape W} {items : Nat → List (Item W)} (hX : AxExec A.imp X) (hN : ∀ t, 2 ≤ t → items t = [])
    (hpo : ∀ t, X.po t = (items t).flatMap Item.code)
    (hok : ∀ t d, Item.op d ∈ items t → d.OK A ∧ P d.call)
    (hfor : ∀ t o t' d o' x, Item.other o ∈ items t → Item.op d ∈ items t' → o' ∈ owns d.tr → o.writes x →
      ¬ o'.reads x ∧ ¬ o'.writes x)
    {w x y : Nat} {so o : Ordering} {r0 r1 : BitVec w} (hw : w % 8 = 0) (hw0 : w ≠ 0)
    (hxy : x + w / 8 ≤ y ∨ y + w / 8 ≤ x)
    (h0 : (opsOf (items 0)).map (fun d => (d.call, d.ret)) = [(.store so w x 1, .unit), (.load o w y, .bits w r0)])
    (h1 : (opsOf (items 1)).map (fun d => (d.call, d.ret)) = [(.store so w y 1, .unit), (.load o w x, .bits w r1)]) :
    ¬ (r0 = 0#w ∧ r1 = 0#w) := by
  obtain ⟨seq, m, hl, ht, _⟩ := h X 2 items hX hN hpo hok hfor
  have key : ∀ t l, (opsOf (items t)).map (fun d => (d.call, d.ret)) = l → ofThread t seq = l.map fun z => (t, z.1, z.2) := by
    rintro t l rfl
    rw [ht, List.map_map]; rfl
  refine legal_sb (so := so) (o := o) hw hw0 hxy hl (by rw [key 0 _ h0]; rfl) (by rw [key 1 _ h1]; rfl) fun i hi => ?_
  rw [ht, hN i hi]; rfl

namespace SB

/-- The shape of the litmus test: two threads with two instructions each. -/
def shape {W : Nat} (s0 l0 s1 l1 : Own W) (m0 : Mem) (rank : Node → Nat) : AxShape W where
  po t := match t with
    | 0 => [s0, l0]
    | 1 => [s1, l1]
    | _ => []
  m0 := m0
  rank := rank

theorem at_cases {W : Nat} {s0 l0 s1 l1 : Own W} {m0 rank} {n : Node} {o : Own W} (h : (shape s0 l0 s1 l1 m0 rank).At n o) :
    o.ev.has n.kind ∧ ((n.thread = 0 ∧ n.pos = 0 ∧ o = s0) ∨ (n.thread = 0 ∧ n.pos = 1 ∧ o = l0) ∨
      (n.thread = 1 ∧ n.pos = 0 ∧ o = s1) ∨ (n.thread = 1 ∧ n.pos = 1 ∧ o = l1)) := by
  obtain ⟨h1, h2⟩ := h
  obtain ⟨t, p, k⟩ := n
  refine ⟨h2, ?_⟩
  simp only [shape] at h1
  match t, p with
  | 0, 0 => simp at h1; simp [h1]
  | 0, 1 => simp at h1; simp [h1]
  | 0, p + 2 => simp at h1
  | 1, 0 => simp at h1; simp [h1]
  | 1, 1 => simp at h1; simp [h1]
  | 1, p + 2 => simp at h1
  | t + 2, p => simp at h1

/-- global memory order: both loads, then both stores -/
def lateStores (n : Node) : Nat :=
  if n.pos = 1 then n.thread else 2 + n.thread

/-- On an architecture that does not keep a load behind an earlier plain store, the execution in which both loads
come first is consistent. -/
theorem exec_relaxed {W : Nat} {imp : Pairs} (himp : imp.wr = false) {s0 l0 s1 l1 : Own W} {m0 : Mem} {x y n : Nat}
    (hxy : x + n ≤ y) (e0 : s0.ev = .wr .plain) (e1 : l0.ev = .rd .plain) (e2 : s1.ev = .wr .plain) (e3 : l1.ev = .rd .plain)
    (w0 : s0.ins.wrFoot s0.rs = (x, n)) (w1 : s1.ins.wrFoot s1.rs = (y, n)) (r0 : l0.ins.rdFoot l0.rs = (y, n))
    (r1 : l1.ins.rdFoot l1.rs = (x, n)) (v0 : l0.m = m0) (v1 : l1.m = m0) (ll0 : l0.ins.isLL = false) (ll1 : l1.ins.isLL = false) :
    AxExec imp (shape s0 l0 s1 l1 m0 lateStores) where
  inj := by
    intro n o n' o' h h' hr
    obtain ⟨hk, hn⟩ := at_cases h
    obtain ⟨hk', hn'⟩ := at_cases h'
    have hr : lateStores n = lateStores n' := hr
    have kind : ∀ {ev : Ev} {k k' : AKind}, (ev = .wr .plain ∨ ev = .rd .plain) → ev.has k → ev.has k' → k = k' := by
      rintro ev k k' (rfl | rfl) h1 h2 <;> cases k <;> cases k' <;> first | rfl | exact False.elim h1 | exact False.elim h2
    have ht : n.thread = n'.thread ∧ n.pos = n'.pos := by
      simp only [lateStores] at hr
      split at hr <;> split at hr <;> omega
    have ho : o = o' := by
      have := h.1.symm.trans ((show (shape s0 l0 s1 l1 m0 lateStores).po n.thread = _ by rw [ht.1]) ▸ ht.2 ▸ h'.1)
      simpa using this
    subst ho
    have hp : o.ev = .wr .plain ∨ o.ev = .rd .plain := by
      rcases hn with ⟨_, _, rfl⟩ | ⟨_, _, rfl⟩ | ⟨_, _, rfl⟩ | ⟨_, _, rfl⟩ <;> simp [e0, e1, e2, e3]
    have := kind hp hk hk'
    obtain ⟨t, p, k⟩ := n
    obtain ⟨t', p', k'⟩ := n'
    simp_all
  ppo := by
    rintro t i k j k' ⟨hij, x, y, hx, hy, hxk, hyk, h⟩
    exfalso
    have two : ∀ {a b : Own W}, (a.ev = .wr .plain) → (b.ev = .rd .plain) → (List.map Own.ev [a, b])[i]? = some x →
        (List.map Own.ev [a, b])[j]? = some y → False := by
      intro a b ha hb hx hy
      have hj : j < 2 := by have := (List.getElem?_eq_some_iff.1 hy).1; simpa using this
      obtain rfl : i = 0 := by omega
      obtain rfl : j = 1 := by omega
      simp [ha] at hx
      simp [hb] at hy
      subst hx hy
      have hk : k = .wr := by cases k <;> first | rfl | cases hxk
      have hk' : k' = .rd := by cases k' <;> first | rfl | cases hyk
      subst hk hk'
      rcases h with h | ⟨n, p, h1, h2, _⟩ | h | h | ⟨h, _⟩ | ⟨h, _⟩ | ⟨_, _, h, _⟩
      · simp [Pairs.keeps, himp] at h
      · omega
      · simp [Ev.acc, Acc.plain] at h
      · simp [Ev.acc, Acc.plain] at h
      · cases h
      · cases h
      · simp [Ev.acc, Acc.plain] at h
    match t with
    | 0 => exact two e0 e1 hx hy
    | 1 => exact two e2 e3 hx hy
    | t + 2 => simp [shape] at hx
  value := by
    intro nd o b hat hk hb
    obtain ⟨hkd, hn⟩ := at_cases hat
    refine .inr ?_
    obtain ⟨t, p, k⟩ := nd
    simp only at hk hn
    subst hk
    rcases hn with ⟨rfl, rfl, rfl⟩ | ⟨rfl, rfl, rfl⟩ | ⟨rfl, rfl, rfl⟩ | ⟨rfl, rfl, rfl⟩
    · rw [e0] at hkd; cases hkd
    · refine ⟨?_, by rw [v0]; rfl⟩
      rintro w v' hS ⟨hw, ow, how, ⟨_, hb1, hb2⟩, _⟩
      obtain ⟨hkw, hn'⟩ := at_cases how
      simp only [Own.reads, r0] at hb
      rcases hn' with ⟨h1, h2, rfl⟩ | ⟨h1, h2, rfl⟩ | ⟨h1, h2, rfl⟩ | ⟨h1, h2, rfl⟩
      · rw [w0] at hb1 hb2; simp only at hb1 hb2; omega
      · rw [hw, e1] at hkw; cases hkw
      · have hS : lateStores w < lateStores ⟨0, 1, .rd⟩ ∨ _ := hS
        simp [lateStores, h1, h2] at hS
      · rw [hw, e3] at hkw; cases hkw
    · rw [e2] at hkd; cases hkd
    · refine ⟨?_, by rw [v1]; rfl⟩
      rintro w v' hS ⟨hw, ow, how, ⟨_, hb1, hb2⟩, _⟩
      obtain ⟨hkw, hn'⟩ := at_cases how
      simp only [Own.reads, r1] at hb
      rcases hn' with ⟨h1, h2, rfl⟩ | ⟨h1, h2, rfl⟩ | ⟨h1, h2, rfl⟩ | ⟨h1, h2, rfl⟩
      · have hS : lateStores w < lateStores ⟨1, 1, .rd⟩ ∨ _ := hS
        simp [lateStores, h1, h2] at hS
      · rw [hw, e1] at hkw; cases hkw
      · rw [w1] at hb1 hb2; simp only at hb1 hb2; omega
      · rw [hw, e3] at hkw; cases hkw
  rmw := by
    intro t p o h h'
    exfalso
    obtain ⟨hk, hn⟩ := at_cases h
    obtain ⟨hk', _⟩ := at_cases h'
    rcases hn with ⟨_, _, rfl⟩ | ⟨_, _, rfl⟩ | ⟨_, _, rfl⟩ | ⟨_, _, rfl⟩
    · rw [e0] at hk; cases hk
    · rw [e1] at hk'; cases hk'
    · rw [e2] at hk; cases hk
    · rw [e3] at hk'; cases hk'
  llsc := by
    intro t i j l s hij h h' hl
    exfalso
    obtain ⟨hk, hn⟩ := at_cases h
    rcases hn with ⟨_, _, rfl⟩ | ⟨_, _, rfl⟩ | ⟨_, _, rfl⟩ | ⟨_, _, rfl⟩
    · rw [e0] at hk; cases hk
    · rw [ll0] at hl; cases hl
    · rw [e2] at hk; cases hk
    · rw [ll1] at hl; cases hl

/-! ### x86_64 -/

/-- x86_64 -/
abbrev c64 : X86.Conf64 := ⟨64, .inr rfl, false⟩
/-- registers with the arguments in place -/
abbrev regs {w : Nat} (B : Block 64 w) : RS 64 := argRegs B.args
/-- memory before: all zero -/
abbrev zero : Mem := fun _ => 0

abbrev movBlock (p : BitVec 64) : Block 64 32 := X86.storeBlock (Alloc.std _) 32 p 1#32
abbrev ldBlock (p : BitVec 64) : Block 64 32 := X86.loadBlock (Alloc.std _) 32 p

/-- the plain store -/
def movOwn (p : BitVec 64) : Own 64 :=
  ⟨X86.mov_st 64 32 (Alloc.std X86.storeKind .dst) (Alloc.std X86.storeKind .val), regs (movBlock p), .wr .plain, zero,
    store .little zero (X86.ea 64 (Alloc.std X86.storeKind .dst) 0 (regs (movBlock p))) 32
      (((regs (movBlock p)).r (Alloc.std X86.storeKind .val)).setWidth 32)⟩
/-- the load, which finds memory `m` -/
def ldOwn (p : BitVec 64) (m : Mem) : Own 64 :=
  ⟨X86.mov_ld 64 32 (Alloc.std X86.loadKind .out) (Alloc.std X86.loadKind .src), regs (ldBlock p), .rd .plain, m, m⟩

theorem movPre (p : BitVec 64) : (movBlock p).pre (regs (movBlock p)) :=
  argRegs_pre (by simp [X86.storeBlock]) (by simp [X86.storeBlock])
theorem ldPre (p : BitVec 64) : (ldBlock p).pre (regs (ldBlock p)) :=
  argRegs_pre (by simp [X86.loadBlock]) (by simp [X86.loadBlock])
theorem movReg (p : BitVec 64) : (regs (movBlock p)).r (Alloc.std X86.storeKind .dst) = p := by
  have := movPre p ⟨Alloc.std X86.storeKind .dst, 64, p⟩ (by simp [X86.storeBlock])
  simpa using this
theorem ldReg (p : BitVec 64) : (regs (ldBlock p)).r (Alloc.std X86.loadKind .src) = p := by
  have := ldPre p ⟨Alloc.std X86.loadKind .src, 64, p⟩ (by simp [X86.loadBlock])
  simpa using this

/-- The relaxed/release store as a finished operation. -/
def movDone (p : BitVec 64) : Done 64 where
  call := .store .release 32 p.toNat 1
  B := movBlock p
  tr := [.own (movOwn p).ins (movOwn p).rs (movOwn p).ev (movOwn p).m (movOwn p).m']
  rs := regs (movBlock p)
/-- The SeqCst load as a finished operation. -/
def ldDone (p : BitVec 64) (m : Mem) : Done 64 where
  call := .load .seqCst 32 p.toNat
  B := ldBlock p
  tr := [.own (ldOwn p m).ins (ldOwn p m).rs (ldOwn p m).ev (ldOwn p m).m (ldOwn p m).m']
  rs := (regs (ldBlock p)).set (Alloc.std X86.loadKind .out) (X86.part (load .little m
    (X86.ea 64 (Alloc.std X86.loadKind .src) 0 (regs (ldBlock p))) 32) ((regs (ldBlock p)).r (Alloc.std X86.loadKind .out)))

theorem movDone_ok (p : BitVec 64) : (movDone p).OK (X86.backend64 c64) := by
  refine ⟨X86.Store64.mov (c := c64) (Alloc.std _) (o := .release) p 1#32 (.inr (.inl rfl)) rfl, ⟨0, regs (movBlock p), zero, none⟩, _,
    rfl, rfl, movPre p,
    LRun.own .nil (i := (movOwn p).ins) rfl (.st _ _ _ _ _), rfl, rfl⟩
theorem ldDone_ok (p : BitVec 64) (m : Mem) : (ldDone p m).OK (X86.backend64 c64) := by
  refine ⟨X86.Load64.word (c := c64) (Alloc.std _) .seqCst p (w := 32) (.inr (.inl rfl)), ⟨0, regs (ldBlock p), m, none⟩, _,
    rfl, rfl, ldPre p,
    LRun.own .nil (i := (ldOwn p m).ins) rfl (.ld _ _ _ _ _), rfl, rfl⟩
theorem ldDone_ret (p : BitVec 64) (m : Mem) : (ldDone p m).ret = .bits 32 (load .little m p.toNat 32) := by
  have e : X86.ea 64 (Alloc.std X86.loadKind .src) 0 (regs (ldBlock p)) = p.toNat := by simp [X86.ea, ldReg]
  simp only [Done.ret, ldDone, Call.result, e]
  simp [X86.loadBlock, X86.part, BitVec.setWidth_setWidth_of_le]

/-- the two threads -/
def relaxedItems : Nat → List (Item 64)
  | 0 => [.op (movDone 0x1000), .op (ldDone 0x2000 zero)]
  | 1 => [.op (movDone 0x2000), .op (ldDone 0x1000 zero)]
  | _ => []

theorem zero_load (a : Nat) : load .little zero a 32 = 0#32 := by
  apply BitVec.eq_of_getLsbD_eq
  intro i hi
  rw [getLsbD_load]
  simp

/-- C41 is about SeqCst: with Release stores, the x86 memory model has the execution in which both threads store 1 and then
both read 0. -/
theorem C41_release_allows_sb : ¬ (X86.backend64 c64).SCOnWeak (fun _ => True) := by
  intro h
  have hX : AxExec (X86.backend64 c64).imp (shape (movOwn 0x1000) (ldOwn 0x2000 zero) (movOwn 0x2000) (ldOwn 0x1000 zero) zero lateStores) := by
    refine exec_relaxed (x := 0x1000) (y := 0x2000) (n := 4) rfl (by decide) rfl rfl rfl rfl ?_ ?_ ?_ ?_ rfl rfl rfl rfl <;>
      simp [movOwn, ldOwn, Instr.wrFoot, Instr.rdFoot, X86.mov_st, X86.mov_ld, X86.ea, movReg, ldReg]
  refine h.sb (items := relaxedItems) hX ?_ ?_ ?_ ?_ (w := 32) (x := 0x1000) (y := 0x2000) (so := .release) (o := .seqCst) (r0 := 0#32) (r1 := 0#32)
    (by decide) (by decide) (.inl (by decide)) ?_ ?_ ⟨rfl, rfl⟩
  · intro t ht
    match t, ht with
    | t + 2, _ => rfl
  · intro t
    match t with
    | 0 => rfl
    | 1 => rfl
    | t + 2 => rfl
  · intro t d hd
    refine ⟨?_, trivial⟩
    match t with
    | 0 =>
      rcases List.mem_cons.1 hd with h | hd
      · cases h; exact movDone_ok _
      · cases List.mem_singleton.1 hd; exact ldDone_ok _ _
    | 1 =>
      rcases List.mem_cons.1 hd with h | hd
      · cases h; exact movDone_ok _
      · cases List.mem_singleton.1 hd; exact ldDone_ok _ _
    | t + 2 => cases hd
  · intro t o t' d o' x ho
    match t with
    | 0 => simp [relaxedItems] at ho
    | 1 => simp [relaxedItems] at ho
    | t + 2 => cases ho
  · simp only [relaxedItems, opsOf, List.filterMap_cons, List.filterMap_nil, List.map_cons, List.map_nil, ldDone_ret, zero_load]
    rfl
  · simp only [relaxedItems, opsOf, List.filterMap_cons, List.filterMap_nil, List.map_cons, List.map_nil, ldDone_ret, zero_load]
    rfl

/-! ### SeqCst stores -/

/-- global memory order: both stores, then both loads -/
def earlyStores (n : Node) : Nat :=
  if n.pos = 0 then 2 * n.thread + (match n.kind with | .rd => 0 | .wr => 1) else 4 + n.thread

/-- The execution in which both read-modify-writes come first is consistent. -/
theorem exec_rmw {W : Nat} {imp : Pairs} {s0 l0 s1 l1 : Own W} {m0 : Mem} {x y n : Nat} {a : Acc}
    (hxy : x + n ≤ y) (e0 : s0.ev = .rmw a) (e1 : l0.ev = .rd .plain) (e2 : s1.ev = .rmw a) (e3 : l1.ev = .rd .plain)
    (w0 : s0.ins.wrFoot s0.rs = (x, n)) (w1 : s1.ins.wrFoot s1.rs = (y, n)) (r0 : l0.ins.rdFoot l0.rs = (y, n))
    (r1 : l1.ins.rdFoot l1.rs = (x, n)) (r2 : s0.ins.rdFoot s0.rs = (x, n)) (r3 : s1.ins.rdFoot s1.rs = (y, n))
    (v0 : l0.m = s1.m') (v1 : l1.m = s0.m') (v2 : s0.m = m0) (v3 : s1.m = m0)
    (nll : ∀ o ∈ [s0, l0, s1, l1], o.ins.isLL = false) : AxExec imp (shape s0 l0 s1 l1 m0 earlyStores) where
  inj := by
    intro n o n' o' h h' hr
    obtain ⟨hk, hn⟩ := at_cases h
    obtain ⟨hk', hn'⟩ := at_cases h'
    have hr : earlyStores n = earlyStores n' := hr
    obtain ⟨t, p, k⟩ := n
    obtain ⟨t', p', k'⟩ := n'
    simp only at hn hn' hk hk'
    rcases hn with ⟨rfl, rfl, ho⟩ | ⟨rfl, rfl, ho⟩ | ⟨rfl, rfl, ho⟩ | ⟨rfl, rfl, ho⟩ <;>
      rcases hn' with ⟨rfl, rfl, ho'⟩ | ⟨rfl, rfl, ho'⟩ | ⟨rfl, rfl, ho'⟩ | ⟨rfl, rfl, ho'⟩ <;>
      rw [ho] at hk <;> rw [ho'] at hk' <;> simp only [e0, e1, e2, e3] at hk hk' <;> cases k <;> cases k' <;>
      first
      | rfl
      | exact False.elim hk
      | exact False.elim hk'
      | (simp [earlyStores] at hr; done)
  ppo := by
    rintro t i k j k' ⟨hij, u, v, hu, hv, huk, hvk, -⟩
    show earlyStores _ < earlyStores _
    have len : ((shape s0 l0 s1 l1 m0 earlyStores).po t).length ≤ 2 ∧ (2 ≤ t → (shape s0 l0 s1 l1 m0 earlyStores).po t = []) := by
      match t with
      | 0 => exact ⟨Nat.le_refl _, fun h => by omega⟩
      | 1 => exact ⟨Nat.le_refl _, fun h => by omega⟩
      | t + 2 => exact ⟨Nat.zero_le _, fun _ => rfl⟩
    have hj := (List.getElem?_eq_some_iff.1 hv).1
    rw [List.length_map] at hj
    have ht : t < 2 := by
      rcases Nat.lt_or_ge t 2 with h | h
      · exact h
      · rw [len.2 h] at hj; simp at hj
    obtain rfl : i = 0 := by omega
    obtain rfl : j = 1 := by omega
    simp only [earlyStores]
    cases k <;> simp <;> omega
  value := by
    intro nd o b hat hk hb
    obtain ⟨hkd, hn⟩ := at_cases hat
    obtain ⟨t, p, k⟩ := nd
    simp only at hk hn
    subst hk
    -- who writes byte `b`
    have who : ∀ w v, (shape s0 l0 s1 l1 m0 earlyStores).WritesByte w b v →
        (w = ⟨0, 0, .wr⟩ ∧ x ≤ b ∧ b < x + n) ∨ (w = ⟨1, 0, .wr⟩ ∧ y ≤ b ∧ b < y + n) := by
      rintro ⟨tw, pw, kw⟩ v ⟨hw, ow, how, ⟨_, hb1, hb2⟩, _⟩
      obtain ⟨hkw, hn'⟩ := at_cases how
      simp only at hw hkw hn'
      subst hw
      rcases hn' with ⟨rfl, rfl, rfl⟩ | ⟨rfl, rfl, rfl⟩ | ⟨rfl, rfl, rfl⟩ | ⟨rfl, rfl, rfl⟩
      · rw [w0] at hb1 hb2; exact .inl ⟨rfl, hb1, hb2⟩
      · rw [e1] at hkw; cases hkw
      · rw [w1] at hb1 hb2; exact .inr ⟨rfl, hb1, hb2⟩
      · rw [e3] at hkw; cases hkw
    rcases hn with ⟨rfl, rfl, rfl⟩ | ⟨rfl, rfl, rfl⟩ | ⟨rfl, rfl, rfl⟩ | ⟨rfl, rfl, rfl⟩
    · simp only [Own.reads, r2] at hb
      refine .inr ⟨fun w v hS hw => ?_, by rw [v2]; rfl⟩
      have hS : earlyStores w < earlyStores ⟨0, 0, .rd⟩ ∨ (_ ∧ w.pos < 0) := hS
      rcases who w v hw with ⟨rfl, _⟩ | ⟨rfl, _⟩ <;> simp [earlyStores] at hS
    · simp only [Own.reads, r0] at hb
      refine .inl ⟨⟨1, 0, .wr⟩, .inl (by simp [shape, earlyStores]),
        ⟨rfl, s1, ⟨rfl, by rw [e2]; trivial⟩, ⟨by rw [e2]; rfl, by rw [w1]; exact hb.1, by rw [w1]; exact hb.2⟩, by rw [v0]⟩,
        fun w v hS hw => ?_⟩
      rcases who w v hw with ⟨rfl, _⟩ | ⟨rfl, _⟩
      · omega
      · exact Nat.le_refl _
    · simp only [Own.reads, r3] at hb
      refine .inr ⟨fun w v hS hw => ?_, by rw [v3]; rfl⟩
      have hS : earlyStores w < earlyStores ⟨1, 0, .rd⟩ ∨ (_ ∧ w.pos < 0) := hS
      rcases who w v hw with ⟨rfl, _⟩ | ⟨rfl, _⟩
      · omega
      · simp [earlyStores] at hS
    · simp only [Own.reads, r1] at hb
      refine .inl ⟨⟨0, 0, .wr⟩, .inl (by simp [shape, earlyStores]),
        ⟨rfl, s0, ⟨rfl, by rw [e0]; trivial⟩, ⟨by rw [e0]; rfl, by rw [w0]; exact hb.1, by rw [w0]; exact hb.2⟩, by rw [v1]⟩,
        fun w v hS hw => ?_⟩
      rcases who w v hw with ⟨rfl, _⟩ | ⟨rfl, _⟩
      · exact Nat.le_refl _
      · omega
  rmw := by
    intro t p o h h'
    obtain ⟨hk, hn⟩ := at_cases h
    obtain ⟨hk', _⟩ := at_cases h'
    have key : ∀ t, (shape s0 l0 s1 l1 m0 earlyStores).Uninterrupted o.reads ⟨t, 0, .rd⟩ ⟨t, 0, .wr⟩ := by
      intro t
      refine ⟨by simp [shape, earlyStores], fun w b v _ _ _ => ?_⟩
      simp only [shape]
      have h1 : earlyStores ⟨t, 0, .rd⟩ = 2 * t := by simp [earlyStores]
      have h2 : earlyStores ⟨t, 0, .wr⟩ = 2 * t + 1 := by simp [earlyStores]
      omega
    simp only at hn
    rcases hn with ⟨_, rfl, ho⟩ | ⟨_, _, rfl⟩ | ⟨_, rfl, ho⟩ | ⟨_, _, rfl⟩
    · exact key t
    · rw [e1] at hk'; cases hk'
    · exact key t
    · rw [e3] at hk'; cases hk'
  llsc := by
    intro t i j l s hij h h' hl
    exfalso
    obtain ⟨hk, hn⟩ := at_cases h
    have : l ∈ [s0, l0, s1, l1] := by rcases hn with ⟨_, _, rfl⟩ | ⟨_, _, rfl⟩ | ⟨_, _, rfl⟩ | ⟨_, _, rfl⟩ <;> simp
    rw [nll l this] at hl; cases hl

abbrev xchgBlock (p : BitVec 64) : Block 64 32 := X86.swapBlock (Alloc.std _) 32 p 1#32

/-- the SeqCst store -/
def xchgOwn (p : BitVec 64) : Own 64 :=
  ⟨X86.xchg 64 32 (Alloc.std X86.swapKind .dst) (Alloc.std X86.swapKind .val), regs (xchgBlock p), .rmw X86.locked, zero,
    store .little zero (X86.ea 64 (Alloc.std X86.swapKind .dst) 0 (regs (xchgBlock p))) 32
      (((regs (xchgBlock p)).r (Alloc.std X86.swapKind .val)).setWidth 32)⟩
theorem xchgPre (p : BitVec 64) : (xchgBlock p).pre (regs (xchgBlock p)) :=
  argRegs_pre (by simp [X86.swapBlock]) (by simp [X86.swapBlock])
theorem xchgReg (p : BitVec 64) : (regs (xchgBlock p)).r (Alloc.std X86.swapKind .dst) = p := by
  have := xchgPre p ⟨Alloc.std X86.swapKind .dst, 64, p⟩ (by simp [X86.swapBlock])
  simpa using this
theorem xchgVal (p : BitVec 64) : ((regs (xchgBlock p)).r (Alloc.std X86.swapKind .val)).setWidth 32 = 1#32 :=
  xchgPre p ⟨Alloc.std X86.swapKind .val, 32, 1#32⟩ (by simp [X86.swapBlock])

/-- The SeqCst store as a finished operation. -/
def xchgDone (p : BitVec 64) : Done 64 where
  call := .store .seqCst 32 p.toNat 1
  B := xchgBlock p
  tr := [.own (xchgOwn p).ins (xchgOwn p).rs (xchgOwn p).ev (xchgOwn p).m (xchgOwn p).m']
  rs := (regs (xchgBlock p)).set (Alloc.std X86.swapKind .val) (X86.part (load .little zero
    (X86.ea 64 (Alloc.std X86.swapKind .dst) 0 (regs (xchgBlock p))) 32) ((regs (xchgBlock p)).r (Alloc.std X86.swapKind .val)))
theorem xchgDone_ok (p : BitVec 64) : (xchgDone p).OK (X86.backend64 c64) := by
  refine ⟨X86.Store64.xchg (c := c64) (Alloc.std _) (o := .seqCst) p 1#32 (.inr (.inl rfl)) rfl, ⟨0, regs (xchgBlock p), zero, none⟩, _,
    rfl, rfl, xchgPre p, LRun.own .nil (i := (xchgOwn p).ins) rfl (.rmwYes _ _ _ _ _ _ _ rfl), rfl, rfl⟩

/-- the two threads -/
def scItems : Nat → List (Item 64)
  | 0 => [.op (xchgDone 0x1000), .op (ldDone 0x2000 (xchgOwn 0x2000).m')]
  | 1 => [.op (xchgDone 0x2000), .op (ldDone 0x1000 (xchgOwn 0x1000).m')]
  | _ => []

/-- The hypotheses of C41 can be met: a consistent execution of two threads with two SeqCst operations each, in which both
loads return 1. -/
theorem C41_example : ∃ (X : AxShape 64) (items : Nat → List (Item 64)), AxExec (X86.backend64 c64).imp X ∧
    (∀ t, 2 ≤ t → items t = []) ∧ (∀ t, X.po t = (items t).flatMap Item.code) ∧
    (∀ t d, Item.op d ∈ items t → d.OK (X86.backend64 c64) ∧ d.call.SeqCstOnly) ∧
    (∀ t o t' d o' x, Item.other o ∈ items t → Item.op d ∈ items t' → o' ∈ owns d.tr → o.writes x →
      ¬ o'.reads x ∧ ¬ o'.writes x) ∧
    (opsOf (items 0)).map (fun d => (d.call, d.ret)) = [(.store .seqCst 32 0x1000 1, .unit), (.load .seqCst 32 0x2000, .bits 32 1)] ∧
    (opsOf (items 1)).map (fun d => (d.call, d.ret)) = [(.store .seqCst 32 0x2000 1, .unit), (.load .seqCst 32 0x1000, .bits 32 1)] := by
  refine ⟨shape (xchgOwn 0x1000) (ldOwn 0x2000 (xchgOwn 0x2000).m') (xchgOwn 0x2000) (ldOwn 0x1000 (xchgOwn 0x1000).m') zero earlyStores,
    scItems, ?_, ?_, ?_, ?_, ?_, ?_, ?_⟩
  · refine exec_rmw (x := 0x1000) (y := 0x2000) (n := 4) (a := X86.locked) (by decide) rfl rfl rfl rfl ?_ ?_ ?_ ?_ ?_ ?_ rfl rfl rfl rfl ?_
    any_goals simp [xchgOwn, ldOwn, Instr.wrFoot, Instr.rdFoot, X86.xchg, X86.mov_ld, X86.ea, xchgReg, ldReg]
    exact ⟨rfl, rfl, rfl, rfl⟩
  · intro t ht
    match t, ht with
    | t + 2, _ => rfl
  · intro t
    match t with
    | 0 => rfl
    | 1 => rfl
    | t + 2 => rfl
  · intro t d hd
    match t with
    | 0 =>
      rcases List.mem_cons.1 hd with h | hd
      · cases h; exact ⟨xchgDone_ok _, rfl⟩
      · cases List.mem_singleton.1 hd; exact ⟨ldDone_ok _ _, rfl⟩
    | 1 =>
      rcases List.mem_cons.1 hd with h | hd
      · cases h; exact ⟨xchgDone_ok _, rfl⟩
      · cases List.mem_singleton.1 hd; exact ⟨ldDone_ok _ _, rfl⟩
    | t + 2 => cases hd
  · intro t o t' d o' x ho
    match t with
    | 0 => simp [scItems] at ho
    | 1 => simp [scItems] at ho
    | t + 2 => cases ho
  all_goals
    simp only [scItems, opsOf, List.filterMap_cons, List.filterMap_nil, List.map_cons, List.map_nil, ldDone_ret, xchgOwn, xchgVal]
    have e : ∀ p : BitVec 64, X86.ea 64 (Alloc.std X86.swapKind .dst) 0 (regs (xchgBlock p)) = p.toNat := fun p => by simp [X86.ea, xchgReg]
    rw [e, load_store (by decide)]
    rfl

end SB
end Verif
