/-
C53 and C54: message passing with relaxed operations and fences on Armv7, with and without multi-copy atomicity, meets their
hypotheses. (Without the fences the machine allows what they exclude: `C44_relaxed_allows_stale` and `C41_relaxed_allows_iriw`.)
-/
import Verif.Props.Fence
import Verif.Props.FenceSC
import Verif.Props.NonMCASyncLitmus
import Verif.Weak.DRFSample

namespace Verif
namespace IRIW

/-- memory after a store of 1 to memory `m` -/
abbrev put (f : Pairs × Pairs) (p : BitVec 32) (m : Mem) : Mem :=
  store .little m (Arm.ea (Alloc.std (Arm.storeKind c7) .dst) (regs (stB f p))) 32
    (((regs (stB f p)).r (Alloc.std (Arm.storeKind c7) .val)).setWidth 32)
theorem put_eq (f : Pairs × Pairs) (p : BitVec 32) (m : Mem) : put f p m = store .little m p.toNat 32 1#32 := by
  simp only [put, stVal, Arm.ea, stReg]; rfl
/-- the instructions of a store of 1 that finds memory `m` -/
def putOwns (f : Pairs × Pairs) (p : BitVec 32) (m : Mem) : List (Own 32) :=
  [ ⟨Arm.lk c7 (Alloc.std (Arm.storeKind c7) .lr) f.2, regs (stB f p), .tau, m, m⟩,
    ⟨.fence f.2, regs (stB f p), .fence f.2, m, m⟩,
    ⟨Arm.str 32 (Alloc.std (Arm.storeKind c7) .val) (Alloc.std (Arm.storeKind c7) .dst), regs (stB f p), .wr .plain, m, put f p m⟩,
    ⟨Arm.lk c7 (Alloc.std (Arm.storeKind c7) .lr) f.1, regs (stB f p), .tau, put f p m, put f p m⟩,
    ⟨.fence f.1, regs (stB f p), .fence f.1, put f p m, put f p m⟩ ]
def putDone (so : Ordering) (f : Pairs × Pairs) (p : BitVec 32) (m : Mem) : Done 32 where
  call := .store so 32 p.toNat 1
  B := stB f p
  tr := evs (putOwns f p m)
  rs := regs (stB f p)

theorem putDone_alone {so : Ordering} {f : Pairs × Pairs} (hf : Arm.storeFences so = some f) (p : BitVec 32) (m : Mem) :
    (putDone so f p m).Alone armv7 m (put f p m) := by
  refine ⟨Arm.Store.word (Alloc.std _) p 1#32 (.inr rfl) hf, ⟨0, regs (stB f p), m, none⟩, ⟨5, _, put f p m, none⟩,
    rfl, rfl, stPre f p, rfl, ?_, rfl, rfl, rfl, ?_⟩
  · exact ((((LRun.nil.own (i := Arm.lk c7 (Alloc.std (Arm.storeKind c7) .lr) f.2) rfl (.op _ _ ⟨0⟩)).own (i := .fence f.2) rfl (.fence _ _)).own
      (i := Arm.str 32 (Alloc.std (Arm.storeKind c7) .val) (Alloc.std (Arm.storeKind c7) .dst)) rfl (.st _ _ _ _ _)).own
      (i := Arm.lk c7 (Alloc.std (Arm.storeKind c7) .lr) f.1) rfl (.op _ _ ⟨0⟩)).own (i := .fence f.1) rfl (.fence _ _)
  · simp [putDone, evs]
theorem ldDone_alone {o : Ordering} {f : Pairs} (hf : Arm.loadFence o = some f) (p : BitVec 32) (m : Mem) :
    (ldDone o f p m).Alone armv7 m m := by
  refine ⟨Arm.Load.word (Alloc.std _) p (.inr rfl) hf, ⟨0, regs (ldB f p), m, none⟩, ⟨3, _, m, none⟩,
    rfl, rfl, ldPre f p, rfl, ?_, rfl, rfl, rfl, ?_⟩
  · exact ((LRun.nil.own (i := Arm.ldr 32 (Alloc.std (Arm.loadKind c7) .out) (Alloc.std (Arm.loadKind c7) .src)) rfl (.ld _ _ _ _ _)).own
      (i := Arm.lk c7 (Alloc.std (Arm.loadKind c7) .lr) f) rfl (.op _ _ ⟨0⟩)).own (i := .fence f) rfl (.fence _ _)
  · simp [ldDone, evs]

/-- The instruction of `fence(..)`: `dmb ish`. -/
def dmb (m : Mem) : Own 32 := ⟨.fence .full, regs (ldB .none 0), .fence .full, m, m⟩

abbrev m1 : Mem := put (.none, .none) 0x1000 zero
abbrev m2 : Mem := put (.none, .none) 0x2000 m1
def fdata : Done 32 := putDone .relaxed (.none, .none) 0x1000 zero
def fflag : Done 32 := putDone .relaxed (.none, .none) 0x2000 m1
def fsee : Done 32 := ldDone .relaxed .none 0x2000 m2
def fread : Done 32 := ldDone .relaxed .none 0x1000 m2
/-- thread 0 stores the data, executes a fence and stores the flag; thread 1 loads the flag, executes a fence and loads the data -/
def fenced : List (Nat × Item 32) :=
  [(0, .op fdata), (0, .other (dmb m1)), (0, .op fflag), (1, .op fsee), (1, .other (dmb m2)), (1, .op fread)]

theorem fenced_mixed : Mixed armv7 zero fenced m2 :=
  ⟨m1, putDone_alone rfl _ _, rfl, fun _ _ => rfl, rfl, m2, putDone_alone rfl _ _, m2, ldDone_alone rfl _ _, rfl, fun _ _ => rfl, rfl,
    m2, ldDone_alone rfl _ _, rfl⟩

theorem fenced_items {t : Nat} {it : Item 32} (h : it ∈ mixedItems fenced t) :
    (t = 0 ∧ (it = .op fdata ∨ it = .other (dmb m1) ∨ it = .op fflag)) ∨ (t = 1 ∧ (it = .op fsee ∨ it = .other (dmb m2) ∨ it = .op fread)) := by
  match t with
  | 0 =>
    left
    have : it ∈ [Item.op fdata, .other (dmb m1), .op fflag] := h
    simpa using this
  | 1 =>
    right
    have : it ∈ [Item.op fsee, .other (dmb m2), .op fread] := h
    simpa using this
  | t + 2 =>
    have : it ∈ ([] : List (Item 32)) := h
    cases this

theorem fenced_op {t : Nat} {d : Done 32} (h : Item.op d ∈ mixedItems fenced t) : d.OK armv7 ∧
    (d.call = .store .relaxed 32 0x1000 1 ∨ d.call = .store .relaxed 32 0x2000 1 ∨ d.call = .load .relaxed 32 0x1000 ∨ d.call = .load .relaxed 32 0x2000) := by
  rcases fenced_items h with ⟨_, h | h | h⟩ | ⟨_, h | h | h⟩ <;> cases h
  · exact ⟨(putDone_alone rfl _ _).ok, .inl rfl⟩
  · exact ⟨(putDone_alone rfl _ _).ok, .inr (.inl rfl)⟩
  · exact ⟨(ldDone_alone rfl _ _).ok, .inr (.inr (.inr rfl))⟩
  · exact ⟨(ldDone_alone rfl _ _).ok, .inr (.inr (.inl rfl))⟩

theorem fenced_fence {t : Nat} {o : Own 32} (h : Item.other o ∈ mixedItems fenced t) : o.ev = .fence .full ∧ ∀ x, ¬ o.writes x := by
  rcases fenced_items h with ⟨_, h | h | h⟩ | ⟨_, h | h | h⟩ <;> cases h <;> exact ⟨rfl, fun x hx => by cases hx.1⟩

theorem put_last (f : Pairs × Pairs) (p : BitVec 32) (m : Mem) : LastAccess ((owns (evs (putOwns f p m))).map Own.ev) .wr 2 := by
  rw [owns_evs]
  refine ⟨⟨.wr .plain, rfl, trivial⟩, ?_⟩
  rintro j hj ⟨ev, h1, h2⟩
  match j, hj with
  | 3, _ => cases h1; exact h2
  | 4, _ => cases h1; exact h2
  | j + 5, _ => simp [putOwns] at h1

abbrev fX : AxShape 32 := interleaved zero (mixedCode fenced)
noncomputable abbrev frf : Node → Nat → Option Node := readFrom zero (mixedCode fenced)

theorem flag_written : fX.WritesByte ⟨0, 8, .wr⟩ 0x2000 (m2 0x2000) := by
  refine ⟨rfl, (putOwns (.none, .none) 0x2000 m1)[2], ⟨rfl, trivial⟩, ⟨rfl, ?_, ?_⟩, rfl⟩ <;>
    simp [putOwns, Arm.str, Instr.wrFoot, Arm.ea, stReg]
theorem flag_at : fX.At ⟨1, 0, .rd⟩ (ldOwns .none 0x2000 m2)[0] := ⟨rfl, trivial⟩
theorem flag_read : (ldOwns .none 0x2000 m2)[0].reads 0x2000 := by
  refine ⟨?_, ?_⟩ <;> simp [ldOwns, Arm.ldr, Instr.rdFoot, Arm.ea, ldReg]
theorem flag_seen : frf ⟨1, 0, .rd⟩ 0x2000 = some ⟨0, 8, .wr⟩ := by
  refine readFrom_iff.2 ⟨⟨_, flag_written⟩, by decide, fun w v hw hlt => ?_⟩
  obtain ⟨o, g1, g2, _, g4⟩ := writes_at hw
  rw [g4] at hlt ⊢
  have hlt : 2 * place (mixedCode fenced) w.thread w.pos + 1 < 22 := hlt
  show _ ≤ 17
  generalize place (mixedCode fenced) w.thread w.pos = j at *
  rcases (by omega : j ≤ 8 ∨ j = 9 ∨ j = 10) with h | rfl | rfl
  · omega
  · have : o.ev.isWrite = false := by
      have g1 := congrArg (Option.map fun z => z.2.ev.isWrite) g1
      exact (Option.some.inj g1).symm
    exact absurd g2.1 (by simp [this])
  · have : o.ev.isWrite = false := by
      have g1 := congrArg (Option.map fun z => z.2.ev.isWrite) g1
      exact (Option.some.inj g1).symm
    exact absurd g2.1 (by simp [this])

/-- The hypotheses of C53 (both versions) can be met with relaxed operations: the fence of thread 0 synchronizes with that of thread 1, whose load of
the data, after it, reads what thread 0 stored before. -/
theorem C53_example : ∃ (X : AxShape 32) (rf : Node → Nat → Option Node) (items : Nat → List (Item 32)),
    AxExec armv7.imp X ∧ X.LocalForward ∧ RAExec armv7.imp X rf ∧ (∀ t, X.po t = (items t).flatMap Item.code) ∧
    (∀ t d, Item.op d ∈ items t → d.OK armv7 ∧ True ∧ IsSize d.call.width ∧ d.call.addr % (d.call.width / 8) = 0) ∧
    FSync armv7.imp X items 0 1 1 1 ∧ NFSync X rf items 0 1 1 1 ∧
    (∃ o o', X.At ⟨0, 2, .wr⟩ o ∧ 2 < off (items 0) 1 ∧ X.At ⟨1, 4, .rd⟩ o' ∧ off (items 1) 2 ≤ 4 ∧ o.writes 0x1000 ∧ o'.reads 0x1000) ∧
    (opsOf (items 0)).map (fun d => (d.call, d.ret)) = [(.store .relaxed 32 0x1000 1, .unit), (.store .relaxed 32 0x2000 1, .unit)] ∧
    (opsOf (items 1)).map (fun d => (d.call, d.ret)) = [(.load .relaxed 32 0x2000, .bits 32 1), (.load .relaxed 32 0x1000, .bits 32 1)] := by
  have con := fenced_mixed.consistent armv7.imp
  have lw : IsLast (mixedItems fenced) 0 2 .wr ⟨0, 8, .wr⟩ := ⟨fflag, 2, rfl, put_last _ _ _, rfl⟩
  have lr : IsLast (mixedItems fenced) 1 0 .rd ⟨1, 0, .rd⟩ := ⟨fsee, 0, rfl, ld_last _ _ _, rfl⟩
  have from_ : fX.From ⟨0, 8, .wr⟩ ⟨1, 0, .rd⟩ 0x2000 :=
    (con.readsFrom ⟨1, 0, .rd⟩ _ 0x2000 ⟨0, 8, .wr⟩ ⟨flag_at, rfl, ⟨0x2000, 32, by simp [ldOwns, Arm.ldr, Instr.access, Arm.ea, ldReg], .inr (.inr (.inl rfl)), rfl⟩, flag_read⟩).1 flag_seen
  refine ⟨fX, frf, mixedItems fenced, con.ax, con.forward, con.ra, mixed_code fenced, ?_, ?_, ?_, ?_, rfl, ?_⟩
  · intro t d hd
    obtain ⟨h1, h2⟩ := fenced_op hd
    refine ⟨h1, trivial, ?_⟩
    rcases h2 with h | h | h | h <;> rw [h] <;> exact ⟨.inr (.inr (.inl rfl)), rfl⟩
  · exact .direct (by decide) (.inr ⟨by decide, fun kd => .inr ⟨dmb m1, .full, rfl, rfl, by cases kd <;> rfl⟩⟩) lw flag_written
      (.inr ⟨by decide, fun kd => .inr ⟨dmb m2, .full, rfl, rfl, by cases kd <;> rfl⟩, fsee, rfl, trivial⟩) lr from_ (Nat.le_refl _)
      (.inl (by decide))
  · exact .direct (.inr ⟨dmb m1, .full, rfl, rfl, rfl, rfl⟩) (.own (k' := 2) (by decide) lw flag_written)
      (.inr ⟨by decide, dmb m2, .full, rfl, rfl, rfl, rfl⟩) lr flag_at flag_read flag_seen (by decide)
  · refine ⟨(putOwns (.none, .none) 0x1000 zero)[2], (ldOwns .none 0x1000 m2)[0], ⟨rfl, trivial⟩, by decide, ⟨rfl, trivial⟩, by decide, ⟨rfl, ?_, ?_⟩, ?_, ?_⟩ <;>
      simp [putOwns, ldOwns, Arm.str, Arm.ldr, Instr.wrFoot, Instr.rdFoot, Arm.ea, stReg, ldReg]
  · show [(fsee.call, fsee.ret), (fread.call, fread.ret)] = _
    simp only [fsee, fread, ldDone_ret, put_eq]
    rw [load_store (by decide), load_store_disjoint (by decide) (.inl (by decide)), load_store (by decide)]
    rfl

/-- The hypotheses of C54 (both versions) can be met, with relaxed operations. -/
theorem C54_example : ∃ (X : AxShape 32) (rf : Node → Nat → Option Node) (items : Nat → List (Item 32)),
    AxExec armv7.imp X ∧ NMExec X rf ∧ (∀ t, 2 ≤ t → items t = []) ∧ (∀ t, X.po t = (items t).flatMap Item.code) ∧
    (∀ t d, Item.op d ∈ items t → d.OK armv7 ∧ True ∧ IsSize d.call.width ∧ d.call.addr % (d.call.width / 8) = 0) ∧
    FencedApart armv7.imp items ∧ BarredApart items ∧
    (∀ t d t' d', Item.op d ∈ items t → Item.op d' ∈ items t' → d.call.SameOrApart d'.call) ∧
    (∀ t o x, Item.other o ∈ items t → ¬ o.writes x) ∧
    (opsOf (items 0)).map (fun d => (d.call, d.ret)) = [(.store .relaxed 32 0x1000 1, .unit), (.store .relaxed 32 0x2000 1, .unit)] ∧
    (opsOf (items 1)).map (fun d => (d.call, d.ret)) = [(.load .relaxed 32 0x2000, .bits 32 1), (.load .relaxed 32 0x1000, .bits 32 1)] := by
  have con := fenced_mixed.consistent armv7.imp
  have apart : ∀ (t k k' : Nat) (d d' : Done 32), k < k' → (mixedItems fenced t)[k]? = some (.op d) → (mixedItems fenced t)[k']? = some (.op d') →
      k < 1 ∧ 1 < k' ∧ ∃ o, (mixedItems fenced t)[1]? = some (.other o) ∧ o.ev = .fence .full := by
    intro t k k' d d' hk h h'
    match t with
    | 0 =>
      match k, k', hk with
      | 0, 1, _ => cases h'
      | 0, 2, _ => exact ⟨by decide, by decide, dmb m1, rfl, rfl⟩
      | 1, _, _ => cases h
      | k + 2, k' + 3, _ => cases h'
      | 0, k' + 3, _ => cases h'
    | 1 =>
      match k, k', hk with
      | 0, 1, _ => cases h'
      | 0, 2, _ => exact ⟨by decide, by decide, dmb m2, rfl, rfl⟩
      | 1, _, _ => cases h
      | k + 2, k' + 3, _ => cases h'
      | 0, k' + 3, _ => cases h'
    | t + 2 => cases h
  refine ⟨fX, frf, mixedItems fenced, con.ax, con.nm, ?_, mixed_code fenced, ?_, ?_, ?_, ?_, ?_, rfl, ?_⟩
  · intro t ht
    match t, ht with
    | t + 2, _ => rfl
  · intro t d hd
    obtain ⟨h1, h2⟩ := fenced_op hd
    refine ⟨h1, trivial, ?_⟩
    rcases h2 with h | h | h | h <;> rw [h] <;> exact ⟨.inr (.inr (.inl rfl)), rfl⟩
  · intro t k k' d d' hk h h'
    obtain ⟨h1, h2, o, h3, h4⟩ := apart t k k' d d' hk h h'
    exact .inr ⟨1, h1, h2, fun kd kd' => .inr ⟨o, .full, h3, h4, by cases kd <;> cases kd' <;> rfl⟩⟩
  · intro t k k' d d' hk h h'
    obtain ⟨h1, h2, o, h3, h4⟩ := apart t k k' d d' hk h h'
    exact .inr ⟨1, o, .full, h1, h2, h3, h4, rfl⟩
  · intro t d t' d' hd hd'
    unfold Call.SameOrApart Call.On Call.Off
    rcases (fenced_op hd).2 with h | h | h | h <;> rcases (fenced_op hd').2 with h' | h' | h' | h' <;> rw [h, h'] <;>
      simp [Call.width, Call.addr]
  · exact fun t o x h => (fenced_fence h).2 x
  · show [(fsee.call, fsee.ret), (fread.call, fread.ret)] = _
    simp only [fsee, fread, ldDone_ret, put_eq]
    rw [load_store (by decide), load_store_disjoint (by decide) (.inl (by decide)), load_store (by decide)]
    rfl

end IRIW
end Verif
