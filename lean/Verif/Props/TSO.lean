/-
C29: programs whose stores are SeqCst are sequentially consistent on x86-TSO.
-/
import Verif.TSO.Proof
import Verif.Props.LinMore
import Verif.Lin.Litmus

namespace Verif

/-- not a plain store -/
def Instr.isSt {W : Nat} : Instr W → Bool
  | .st _ _ _ _ => true
  | _ => false

theorem Drained.nil {W : Nat} : Drained ([] : List (Instr W)) := by
  intro k acc addr w v h; simp at h
theorem Drained.cons {W : Nat} {i : Instr W} {l : List (Instr W)} (hi : i.isSt = false) (h : Drained l) :
    Drained (i :: l) := by
  intro k acc addr w v hk
  cases k with
  | zero => simp at hk; subst hk; cases hi
  | succ k => exact h k acc addr w v (by simpa using hk)
theorem Drained.st {W : Nat} {acc addr w v} {p : Pairs} {l : List (Instr W)} (hp : p.wr = true)
    (h : Drained (.fence p :: l)) : Drained (.st acc addr w v :: .fence p :: l) := by
  intro k acc addr w v hk
  cases k with
  | zero => exact ⟨p, by simp, hp⟩
  | succ k => exact h k acc addr w v (by simpa using hk)

theorem GStep.mono {W : Nat} {A : Backend W} {P Q : Call → Prop} (hPQ : ∀ c, P c → Q c) {g ev g'}
    (h : GStep A P g ev g') : GStep A Q g ev g' := by
  cases h with
  | inv i c B rs r hidle hp hv hB hpre => exact .inv _ i c B rs r hidle (hPQ c hp) hv hB hpre
  | own i c B pc rs r ins ev c' th' hrun hi hs hth hd => exact .own _ i c B pc rs r ins ev c' th' hrun hi hs hth hd
  | ret i c B rs r hrun => exact .ret _ i c B rs r hrun
  | ext m' th' hd => exact .ext _ m' th' hd
theorem GRun.mono {W : Nat} {A : Backend W} {P Q : Call → Prop} (hPQ : ∀ c, P c → Q c) {g0 tr g}
    (h : GRun A P g0 tr g) : GRun A Q g0 tr g := by
  induction h with
  | nil => exact .nil
  | snoc _ hs ih => exact ih.snoc (hs.mono hPQ)
theorem Backend.Linearizable.mono {W : Nat} {A : Backend W} {P Q : Call → Prop} (hPQ : ∀ c, P c → Q c)
    (h : A.Linearizable Q) : A.Linearizable P := fun m0 tr g hr => h m0 tr g (hr.mono hPQ)

macro "drained" : tactic => `(tactic| repeat (first
  | exact Drained.nil
  | (refine Drained.cons rfl ?_)
  | (refine Drained.st rfl ?_)))

theorem X86.drained32 (c : X86.Conf32) (k : Call) (B : Block 32 k.width) (hp : k.StoresSeqCst)
    (h : (X86.backend32 c).Runs k B) : Drained B.code := by
  cases k with
  | load o w a => cases h <;> drained
  | store o w a v =>
    have hp : o = .seqCst := hp
    subst hp
    cases h with
    | mov al p _ hw ho => cases ho
    | xchg al p _ hw ho => drained
    | sse al p _ h hc ho => cases ho; drained
    | x87 al p _ h hc hx ho => cases ho; drained
    | cx8 al _ p _ h hc hx => drained
  | swap o w a v => cases h <;> drained
  | cas s f w a old new => cases h <;> drained
  | casWeak s f w a old new => cases h <;> drained

theorem X86.drained64 (c : X86.Conf64) (k : Call) (B : Block 64 k.width) (hp : k.StoresSeqCst)
    (h : (X86.backend64 c).Runs k B) : Drained B.code := by
  cases k with
  | load o w a => cases h <;> drained
  | store o w a v =>
    have hp : o = .seqCst := hp
    subst hp
    cases h with
    | mov al p _ hw ho => cases ho
    | xchg al p _ hw ho => drained
    | cx16 al _ hb p _ h => drained
  | swap o w a v => cases h <;> drained
  | cas s f w a old new => cases h <;> drained
  | casWeak s f w a old new => cases h <;> drained

/-- C29 on x86 (32-bit). -/
theorem C29_x86 (c : X86.Conf32) : (X86.backend32 c).SCOnTSO Call.StoresSeqCst :=
  Backend.scOnTSO (fun k B hp _ h => X86.drained32 c k B hp h) ((C21_x86 c).mono fun _ _ => trivial)
/-- C29 on x86_64. -/
theorem C29_x86_64 (c : X86.Conf64) : (X86.backend64 c).SCOnTSO Call.StoresSeqCst :=
  Backend.scOnTSO (fun k B hp _ h => X86.drained64 c k B hp h) ((C21_x86_64 c).mono fun _ _ => trivial)

/-! ### Lamport's form, and the store buffering litmus test -/

/-- C29 in Lamport's form: a finished run on a machine with store buffers, without memory changes from outside, is
sequentially consistent (even linearizable). -/
def Backend.LamportOnTSO {W : Nat} (A : Backend W) (P : Call → Prop) : Prop :=
  ∀ (m0 : Mem) (tr : List TGEv) (t : TState W), TRun A P m0 tr t → (∀ i, t.th i = .idle) →
    (∀ m m', TGEv.ext m m' ∉ tr) →
    HWLinearizable A.e m0 (TGEv.vis tr) t.mem ∧ SeqConsistent A.e m0 (TGEv.vis tr) t.mem

theorem text_vis {m m' : Mem} {tr : List TGEv} (h : VEv.ext m m' ∈ TGEv.vis tr) : TGEv.ext m m' ∈ tr := by
  induction tr with
  | nil => simp [TGEv.vis] at h
  | cons x t ih =>
    cases x with
    | h y => simp [TGEv.vis] at h; exact List.mem_cons_of_mem _ (ih h)
    | own => simp [TGEv.vis] at h; exact List.mem_cons_of_mem _ (ih h)
    | flush => simp [TGEv.vis] at h; exact List.mem_cons_of_mem _ (ih h)
    | ext a b =>
      simp [TGEv.vis] at h
      rcases h with ⟨rfl, rfl⟩ | h
      · exact List.mem_cons_self
      · exact List.mem_cons_of_mem _ (ih h)

theorem Backend.SCOnTSO.lamport {W : Nat} {A : Backend W} {P : Call → Prop} (h : A.SCOnTSO P) : A.LamportOnTSO P := by
  intro m0 tr t hr hq hext
  obtain ⟨str, s, h1, h2, h3, h4⟩ := h m0 tr t hr
  have : HWLinearizable A.e m0 (TGEv.vis tr) t.mem := by
    rw [← h2, ← h3]
    exact h1.hw (fun i => (h4 i (hq i)).1) fun m m' hm => hext m m' (text_vis (h2 ▸ hm))
  exact ⟨this, this.sc⟩

theorem C29_lamport_x86 (c : X86.Conf32) : (X86.backend32 c).LamportOnTSO Call.StoresSeqCst := (C29_x86 c).lamport
theorem C29_lamport_x86_64 (c : X86.Conf64) : (X86.backend64 c).LamportOnTSO Call.StoresSeqCst := (C29_x86_64 c).lamport

/-- The store buffering litmus test has no forbidden outcome in a sequentially consistent history: if thread 0
stores 1 to x and then loads y, thread 1 stores 1 to y and then loads x, and both objects were 0, then not both
loads return 0. -/
theorem seqConsistent_sb {e : Endian} {m0 m : Mem} {v : List VEv} {w x y : Nat} {o : Ordering} {r0 r1 : BitVec w}
    (hw : w % 8 = 0) (hw0 : w ≠ 0) (hxy : x + w / 8 ≤ y ∨ y + w / 8 ≤ x)
    (h : SeqConsistent e m0 v m)
    (h0 : ofThread 0 (VEv.rets v) = [(0, .store .seqCst w x 1, .unit), (0, .load o w y, .bits w r0)])
    (h1 : ofThread 1 (VEv.rets v) = [(1, .store .seqCst w y 1, .unit), (1, .load o w x, .bits w r1)])
    (hrest : ∀ i, 2 ≤ i → ofThread i (VEv.rets v) = []) : ¬ (r0 = 0#w ∧ r1 = 0#w) := by
  obtain ⟨seq, hl, ht⟩ := h
  exact legal_sb hw hw0 hxy hl ((ht 0).trans h0) ((ht 1).trans h1) fun i hi => (ht i).trans (hrest i hi)

/-- The store buffering litmus test with this crate's SeqCst stores: not both loads (of any ordering) return 0. -/
theorem C29_store_buffering_x86_64 (c : X86.Conf64) {m0 : Mem} {tr : List TGEv} {t : TState 64} {w x y : Nat}
    {o : Ordering} {r0 r1 : BitVec w} (hw : w % 8 = 0) (hw0 : w ≠ 0) (hxy : x + w / 8 ≤ y ∨ y + w / 8 ≤ x)
    (hr : TRun (X86.backend64 c) Call.StoresSeqCst m0 tr t) (hq : ∀ i, t.th i = .idle)
    (hext : ∀ m m', TGEv.ext m m' ∉ tr)
    (h0 : ofThread 0 (VEv.rets (TGEv.vis tr)) = [(0, .store .seqCst w x 1, .unit), (0, .load o w y, .bits w r0)])
    (h1 : ofThread 1 (VEv.rets (TGEv.vis tr)) = [(1, .store .seqCst w y 1, .unit), (1, .load o w x, .bits w r1)])
    (hrest : ∀ i, 2 ≤ i → ofThread i (VEv.rets (TGEv.vis tr)) = []) : ¬ (r0 = 0#w ∧ r1 = 0#w) :=
  seqConsistent_sb hw hw0 hxy (C29_lamport_x86_64 c m0 tr t hr hq hext).2 h0 h1 hrest
theorem C29_store_buffering_x86 (c : X86.Conf32) {m0 : Mem} {tr : List TGEv} {t : TState 32} {w x y : Nat}
    {o : Ordering} {r0 r1 : BitVec w} (hw : w % 8 = 0) (hw0 : w ≠ 0) (hxy : x + w / 8 ≤ y ∨ y + w / 8 ≤ x)
    (hr : TRun (X86.backend32 c) Call.StoresSeqCst m0 tr t) (hq : ∀ i, t.th i = .idle)
    (hext : ∀ m m', TGEv.ext m m' ∉ tr)
    (h0 : ofThread 0 (VEv.rets (TGEv.vis tr)) = [(0, .store .seqCst w x 1, .unit), (0, .load o w y, .bits w r0)])
    (h1 : ofThread 1 (VEv.rets (TGEv.vis tr)) = [(1, .store .seqCst w y 1, .unit), (1, .load o w x, .bits w r1)])
    (hrest : ∀ i, 2 ≤ i → ofThread i (VEv.rets (TGEv.vis tr)) = []) : ¬ (r0 = 0#w ∧ r1 = 0#w) :=
  seqConsistent_sb hw hw0 hxy (C29_lamport_x86 c m0 tr t hr hq hext).2 h0 h1 hrest

/-! ### The hypothesis on the stores is needed -/

/-- x86_64 -/
abbrev c64 : X86.Conf64 := ⟨64, .inr rfl, false⟩

/-- thread `i` executes a plain store; it stays in the buffer -/
theorem tso_mov {m0 : Mem} {tr : List TGEv} {t : TState 64} (h : TRun (X86.backend64 c64) (fun _ => True) m0 tr t)
    (i : Nat) (hi : t.th i = .idle) (p : BitVec 64) (v : BitVec 32) :
    ∃ t', TRun (X86.backend64 c64) (fun _ => True) m0 (tr ++ [.h (.inv i (.store .release 32 p.toNat v))] ++ [.own i] ++
        [.h (.ret i (.store .release 32 p.toNat v) .unit)]) t' ∧
      t'.mem = t.mem ∧ t'.th i = .idle ∧ t'.buf i = t.buf i ++ [⟨p.toNat, 32, v⟩] ∧
      ∀ j, j ≠ i → t'.th j = t.th j ∧ t'.buf j = t.buf j := by
  have hB := X86.Store64.mov (c := c64) (Alloc.std _) (o := .release) p v (.inr (.inl rfl)) rfl
  have hpre : (X86.storeBlock (W := 64) (Alloc.std _) 32 p v).pre
      (argRegs (X86.storeBlock (W := 64) (Alloc.std _) 32 p v).args) :=
    argRegs_pre (by simp [X86.storeBlock]) (by simp [X86.storeBlock])
  have h1 := h.snoc (.inv t i (.store .release 32 p.toNat v) _ _ hi trivial rfl hB hpre)
  generalize hrs : argRegs (W := 64) (X86.storeBlock (W := 64) (Alloc.std _) 32 p v).args = rs at h1 hpre
  have h2 := h1.snoc (.own _ i (.store .release 32 p.toNat v) (X86.storeBlock (W := 64) (Alloc.std _) 32 p v) 0 rs (.st .plain (X86.ea 64 (Alloc.std X86.storeKind .dst) 0) 32 (fun q => (q.r (Alloc.std X86.storeKind .val)).setWidth 32)) 1 rs t.mem (t.buf i ++ [⟨p.toNat, 32, v⟩])
    (by simp [upd]) (by simp [X86.storeBlock, X86.storeAsm]; rfl) ?_)
  · have h3 := h2.snoc (.ret _ i (.store .release 32 p.toNat v) _ rs (by simp [upd]; rfl))
    refine ⟨_, h3, rfl, by simp [upd], by simp [upd], fun j hj => by simp [upd, hj]⟩
  · have e1 : ((rs.r (Alloc.std X86.storeKind .dst)).setWidth 64) = p := hpre ⟨_, 64, p⟩ (by simp [X86.storeBlock])
    have e2 : ((rs.r (Alloc.std X86.storeKind .val)).setWidth 32) = v := hpre ⟨_, 32, v⟩ (by simp [X86.storeBlock])
    have := TInstr.st (e := .little) (W := 64) .plain (X86.ea 64 (Alloc.std X86.storeKind .dst) 0) 32
      (fun q => (q.r (Alloc.std X86.storeKind .val)).setWidth 32) 0 rs t.mem (t.buf i)
    simp only [X86.ea, e1, e2, BitVec.add_zero] at this
    exact this

/-- thread `i` executes a load -/
theorem tso_load {m0 : Mem} {tr : List TGEv} {t : TState 64} (h : TRun (X86.backend64 c64) (fun _ => True) m0 tr t)
    (i : Nat) (hi : t.th i = .idle) (p : BitVec 64) :
    ∃ t', TRun (X86.backend64 c64) (fun _ => True) m0 (tr ++ [.h (.inv i (.load .seqCst 32 p.toNat))] ++ [.own i] ++
        [.h (.ret i (.load .seqCst 32 p.toNat) (.bits 32 (load .little (BStore.over .little t.mem (t.buf i)) p.toNat 32)))]) t' ∧
      t'.mem = t.mem ∧ t'.th i = .idle ∧ t'.buf i = t.buf i ∧
      ∀ j, j ≠ i → t'.th j = t.th j ∧ t'.buf j = t.buf j := by
  have hB := X86.Load64.word (c := c64) (Alloc.std _) .seqCst p (w := 32) (.inr (.inl rfl))
  have hpre : (X86.loadBlock (W := 64) (Alloc.std _) 32 p).pre
      (argRegs (X86.loadBlock (W := 64) (Alloc.std _) 32 p).args) :=
    argRegs_pre (by simp [X86.loadBlock]) (by simp [X86.loadBlock])
  have h1 := h.snoc (.inv t i (.load .seqCst 32 p.toNat) _ _ hi trivial rfl hB hpre)
  generalize hrs : argRegs (W := 64) (X86.loadBlock (W := 64) (Alloc.std _) 32 p).args = rs at h1 hpre
  have e1 : ((rs.r (Alloc.std X86.loadKind .src)).setWidth 64) = p := hpre ⟨_, 64, p⟩ (by simp [X86.loadBlock])
  have hst := TInstr.ld (e := .little) (W := 64) .plain (X86.ea 64 (Alloc.std X86.loadKind .src) 0) 32
      (fun x q => q.set (Alloc.std X86.loadKind .out) (X86.part x (q.r (Alloc.std X86.loadKind .out)))) 0 rs t.mem (t.buf i)
  have h2 := h1.snoc (.own _ i (.load .seqCst 32 p.toNat) (X86.loadBlock (W := 64) (Alloc.std _) 32 p) 0 rs (.ld .plain (X86.ea 64 (Alloc.std X86.loadKind .src) 0) 32 (fun x q => q.set (Alloc.std X86.loadKind .out) (X86.part x (q.r (Alloc.std X86.loadKind .out))))) 1 _ t.mem (t.buf i)
    (by simp [upd]) (by simp [X86.loadBlock, X86.loadAsm]; rfl) hst)
  have h3 := h2.snoc (.ret _ i (.load .seqCst 32 p.toNat) _ _ (by simp [upd]; rfl))
  have hres : (Call.load .seqCst 32 p.toNat).result (X86.loadBlock (W := 64) (Alloc.std _) 32 p)
      (rs.set (Alloc.std X86.loadKind .out) (X86.part (load .little (BStore.over .little t.mem (t.buf i))
        (X86.ea 64 (Alloc.std X86.loadKind .src) 0 rs) 32) (rs.r (Alloc.std X86.loadKind .out)))) =
      .bits 32 (load .little (BStore.over .little t.mem (t.buf i)) p.toNat 32) := by
    have e1 : rs.r (Alloc.std X86.loadKind .src) = p := by simpa using e1
    simp [Call.result, X86.loadBlock, X86.part, X86.ea, e1, BitVec.setWidth_setWidth_of_le]
  rw [hres] at h3
  refine ⟨_, h3, rfl, by simp [upd], by simp [upd], fun j hj => by simp [upd, hj]⟩

/-- C29 is about SeqCst: with Release stores, the machine with store buffers has the run in which both threads store
1 and then both read 0. -/
theorem C29_release_allows_sb : ∃ tr t, TRun (X86.backend64 c64) (fun _ => True) (fun _ => 0) tr t ∧
    (∀ i, t.th i = .idle) ∧
    ofThread 0 (VEv.rets (TGEv.vis tr)) =
      [(0, .store .release 32 0x1000 1, .unit), (0, .load .seqCst 32 0x2000, .bits 32 0)] ∧
    ofThread 1 (VEv.rets (TGEv.vis tr)) =
      [(1, .store .release 32 0x2000 1, .unit), (1, .load .seqCst 32 0x1000, .bits 32 0)] := by
  obtain ⟨t1, h1, m1, i1, b1, o1⟩ := tso_mov (m0 := fun _ => 0) .nil 0 rfl 0x1000#64 1#32
  obtain ⟨t2, h2, m2, i2, b2, o2⟩ := tso_mov h1 1 (o1 1 (by decide)).1 0x2000#64 1#32
  obtain ⟨t3, h3, m3, i3, b3, o3⟩ := tso_load h2 0 ((o2 0 (by decide)).1.trans i1) 0x2000#64
  obtain ⟨t4, h4, m4, i4, b4, o4⟩ := tso_load h3 1 ((o3 1 (by decide)).1.trans i2) 0x1000#64
  refine ⟨_, t4, h4, ?_, ?_, ?_⟩
  · intro i
    by_cases hi0 : i = 0
    · subst hi0; rw [(o4 0 (by decide)).1]; exact i3
    · by_cases hi1 : i = 1
      · subst hi1; exact i4
      · rw [(o4 i hi1).1, (o3 i hi0).1, (o2 i hi1).1, (o1 i hi0).1]
  · have hv : load .little (BStore.over .little t2.mem (t2.buf 0)) 0x2000 32 = 0#32 := by
      rw [m2, m1, (o2 0 (by decide)).2, b1]
      decide +kernel
    simp [TGEv.vis, VEv.rets, ofThread, hv]
  · have hv : load .little (BStore.over .little t3.mem (t3.buf 1)) 0x1000 32 = 0#32 := by
      rw [m3, m2, m1, (o3 1 (by decide)).2, b2, (o1 1 (by decide)).2]
      decide +kernel
    simp [TGEv.vis, VEv.rets, ofThread, hv]

end Verif
