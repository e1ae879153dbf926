/-
C41 without multi-copy atomicity: a consequence (independent reads of independent writes), and executions that show that its
hypotheses can be met and that the machine is not multi-copy atomic.
-/
import Verif.Props.NonMCA
import Verif.Weak.Litmus
import Verif.Weak.Conserve

namespace Verif

theorem split_two {α : Type} {t : Nat} {l : List (Nat × α)} {u v : Nat × α} (h : ofThread t l = [u, v]) :
    ∃ A B C, l = A ++ u :: (B ++ v :: C) := by
  obtain ⟨A, B, rfl, _, _, h2⟩ := List.filter_eq_cons_iff.1 h
  obtain ⟨C, D, rfl, _⟩ := List.filter_eq_cons_iff.1 h2
  exact ⟨A, C, D, rfl⟩

/-- Independent reads of independent writes in a sequential execution: if thread 0 stores 1 to `x`, thread 1 stores 1 to `y`, thread
2 loads 1 from `x` and then something else from `y`, and thread 3 loads 1 from `y`, then thread 3 next loads 1
from `x`. -/
theorem legal_iriw {e : Endian} {m0 m : Mem} {seq : List (Nat × Call × Ret)} {w x y : Nat} {so o : Ordering} {r s : BitVec w}
    (hw : w % 8 = 0) (hxy : x + w / 8 ≤ y ∨ y + w / 8 ≤ x) (hl : Legal e m0 seq m)
    (ht0 : ofThread 0 seq = [(0, .store so w x 1, .unit)]) (ht1 : ofThread 1 seq = [(1, .store so w y 1, .unit)])
    (ht2 : ofThread 2 seq = [(2, .load o w x, .bits w 1), (2, .load o w y, .bits w r)])
    (ht3 : ofThread 3 seq = [(3, .load o w y, .bits w 1), (3, .load o w x, .bits w s)])
    (htr : ∀ i, 4 ≤ i → ofThread i seq = []) : r = 1 ∨ s = 1 := by
  have ld : ∀ {m m1 : Mem} {a : Nat} {v : BitVec w}, (Call.load o w a).Sem e m m1 (.bits w v) → v = load e m a w ∧ m1 = m := by
    rintro m m1 a v ⟨u, ⟨rfl, rfl⟩, h⟩
    injection h with _ h
    exact ⟨eq_of_heq (heq_of_eq h), rfl⟩
  -- what is 1 remains 1
  have step : ∀ z ∈ seq, ∀ m m1, z.2.1.Sem e m m1 z.2.2 → (load e m x w = 1 → load e m1 x w = 1) ∧ (load e m y w = 1 → load e m1 y w = 1) := by
    intro z hz m m1 hs
    have hz' : z ∈ ofThread z.1 seq := List.mem_filter.2 ⟨hz, by simp⟩
    have st : ∀ {a : Nat}, (Call.store so w a 1).Sem e m m1 .unit → m1 = store e m a w 1 := by
      rintro a ⟨h, _⟩; exact h
    rcases (by omega : z.1 = 0 ∨ z.1 = 1 ∨ z.1 = 2 ∨ z.1 = 3 ∨ 4 ≤ z.1) with h | h | h | h | h
    · rw [h, ht0] at hz'
      simp only [List.mem_singleton] at hz'
      subst hz'
      rw [st hs]
      refine ⟨fun _ => load_store hw _, fun h => ?_⟩
      rw [load_store_disjoint hw (by omega)]; exact h
    · rw [h, ht1] at hz'
      simp only [List.mem_singleton] at hz'
      subst hz'
      rw [st hs]
      refine ⟨fun h => ?_, fun _ => load_store hw _⟩
      rw [load_store_disjoint hw (by omega)]; exact h
    · rw [h, ht2] at hz'
      simp only [List.mem_cons, List.not_mem_nil, or_false] at hz'
      rcases hz' with rfl | rfl <;> (obtain ⟨_, rfl⟩ := ld hs; exact ⟨id, id⟩)
    · rw [h, ht3] at hz'
      simp only [List.mem_cons, List.not_mem_nil, or_false] at hz'
      rcases hz' with rfl | rfl <;> (obtain ⟨_, rfl⟩ := ld hs; exact ⟨id, id⟩)
    · rw [htr _ h] at hz'; cases hz'
  have mono : ∀ l, (∀ z ∈ l, z ∈ seq) → ∀ m m1, Legal e m l m1 →
      (load e m x w = 1 → load e m1 x w = 1) ∧ (load e m y w = 1 → load e m1 y w = 1) := by
    intro l
    induction l with
    | nil => rintro _ m m1 rfl; exact ⟨id, id⟩
    | cons z t ih =>
      rintro hm m m1 ⟨m2, hs, hl⟩
      obtain ⟨h1, h2⟩ := step z (hm z (by simp)) m m2 hs
      obtain ⟨h3, h4⟩ := ih (fun z hz => hm z (by simp [hz])) m2 m1 hl
      exact ⟨fun h => h3 (h1 h), fun h => h4 (h2 h)⟩
  obtain ⟨A, B, C, e2⟩ := split_two ht2
  obtain ⟨A', B', C', e3⟩ := split_two ht3
  -- the memory before the second loads
  have mid : ∀ {i j a b A B C} {v : BitVec w}, seq = A ++ (i, Call.load o w a, .bits w 1) :: (B ++ (j, .load o w b, .bits w v) :: C) →
      ∃ ma mb, Legal e m0 A ma ∧ load e ma a w = 1 ∧ Legal e ma B mb ∧ load e mb b w = v := by
    intro i j a b A B C v hseq
    rw [hseq] at hl
    obtain ⟨ma, h1, m2, h2, h3⟩ := legal_append.1 hl
    obtain ⟨g1, rfl⟩ := ld h2
    obtain ⟨mb, h4, m3, h5, _⟩ := legal_append.1 h3
    exact ⟨_, mb, h1, g1.symm, h4, (ld h5).1.symm⟩
  obtain ⟨ma, mb, k1, k2, k3, k4⟩ := mid e2
  obtain ⟨ma', mb', k1', k2', k3', k4'⟩ := mid e3
  have sub : ∀ l l' : List (Nat × Call × Ret), seq = l ++ l' → ∀ z ∈ l, z ∈ seq := by
    rintro l l' h z hz; rw [h]; exact List.mem_append_left _ hz
  have hx : load e mb x w = 1 := (mono B (fun z hz => by rw [e2]; simp [hz]) _ _ k3).1 k2
  have hy : load e mb' y w = 1 := (mono B' (fun z hz => by rw [e3]; simp [hz]) _ _ k3').2 k2'
  have tot : ∀ {i a A B mA mB} {v : BitVec w}, Legal e m0 A mA → load e mA a w = v → Legal e mA B mB →
      Legal e m0 (A ++ (i, Call.load o w a, .bits w v) :: B) mB := by
    intro i a A B mA mB v h1 h2 h3
    exact legal_append.2 ⟨mA, h1, mA, ⟨_, ⟨rfl, rfl⟩, by rw [h2]⟩, h3⟩
  have p2 := tot (i := 2) k1 k2 k3
  have p3 := tot (i := 3) k1' k2' k3'
  have fn : ∀ l m m', Legal e m l m' → ∀ m'', Legal e m l m'' → (∀ z ∈ l, z ∈ seq) → m' = m'' := by
    intro l
    induction l with
    | nil => rintro m m' rfl m'' rfl _; rfl
    | cons z t ih =>
      rintro m m' ⟨m1, h1, h2⟩ m'' ⟨m1', h1', h2'⟩ hm
      have : m1 = m1' := by
        have hz' : z ∈ ofThread z.1 seq := List.mem_filter.2 ⟨hm z (by simp), by simp⟩
        have st : ∀ {a : Nat} {m m1 : Mem}, (Call.store so w a 1).Sem e m m1 .unit → m1 = store e m a w 1 := by
          rintro a m m1 ⟨h, _⟩; exact h
        rcases (by omega : z.1 = 0 ∨ z.1 = 1 ∨ z.1 = 2 ∨ z.1 = 3 ∨ 4 ≤ z.1) with h | h | h | h | h
        · rw [h, ht0] at hz'
          simp only [List.mem_singleton] at hz'
          subst hz'
          rw [st h1, st h1']
        · rw [h, ht1] at hz'
          simp only [List.mem_singleton] at hz'
          subst hz'
          rw [st h1, st h1']
        · rw [h, ht2] at hz'
          simp only [List.mem_cons, List.not_mem_nil, or_false] at hz'
          rcases hz' with rfl | rfl <;> rw [(ld h1).2, (ld h1').2]
        · rw [h, ht3] at hz'
          simp only [List.mem_cons, List.not_mem_nil, or_false] at hz'
          rcases hz' with rfl | rfl <;> rw [(ld h1).2, (ld h1').2]
        · rw [htr _ h] at hz'; cases hz'
      subst this
      exact ih _ _ h2 _ h2' fun z hz => hm z (by simp [hz])
  -- one of the two comes first
  have e2' : seq = (A ++ (2, Call.load o w x, .bits w 1) :: B) ++ (2, .load o w y, .bits w r) :: C := by rw [e2]; simp
  have e3' : seq = (A' ++ (3, Call.load o w y, .bits w 1) :: B') ++ (3, .load o w x, .bits w s) :: C' := by rw [e3]; simp
  rcases List.append_eq_append_iff.1 (e2'.symm.trans e3') with ⟨D, d1, _⟩ | ⟨D, d1, _⟩
  · right
    rw [d1] at p3
    obtain ⟨m1, q1, q2⟩ := legal_append.1 p3
    obtain rfl := fn _ _ _ q1 _ p2 (sub _ _ e2')
    rw [← k4']
    exact (mono D (fun z hz => by rw [e3', d1]; simp [hz]) _ _ q2).1 hx
  · left
    rw [d1] at p2
    obtain ⟨m1, q1, q2⟩ := legal_append.1 p2
    obtain rfl := fn _ _ _ q1 _ p3 (sub _ _ e3')
    rw [← k4]
    exact (mono D (fun z hz => by rw [e2', d1]; simp [hz]) _ _ q2).2 hy

/-- Independent reads of independent writes with SeqCst operations, on a machine that need not be multi-copy atomic: if thread
0 stores 1 to `x`, thread 1 stores 1 to `y`, thread 2 loads 1 from `x` and then loads `y`, and thread 3 loads 1 from `y` and then loads
`x` (and each does anything else that does not write these objects), then at least one of the second loads returns 1: the two readers
agree on the order of the writes. -/
theorem Backend.SCOnNonMCA.iriw {W : Nat} {A : Backend W} {P : Call → Prop} (h : A.SCOnNonMCA P)
    {X : AxShape W} {rf : Node → Nat → Option Node} {items : Nat → List (Item W)} (hX : NMExec X rf)
    (hN : ∀ t, 4 ≤ t → items t = []) (hpo : ∀ t, X.po t = (items t).flatMap Item.code)
    (hok : ∀ t d, Item.op d ∈ items t → d.OK A ∧ P d.call)
    {w x y : Nat} {so o : Ordering} {r s : BitVec w} (hw : IsSize w) (hx : x % (w / 8) = 0) (hy : y % (w / 8) = 0)
    (hxy : x + w / 8 ≤ y ∨ y + w / 8 ≤ x)
    (hfor : ∀ t i b, Item.other i ∈ items t → i.writes b → ¬ (x ≤ b ∧ b < x + w / 8) ∧ ¬ (y ≤ b ∧ b < y + w / 8))
    (h0 : (opsOf (items 0)).map (fun d => (d.call, d.ret)) = [(.store so w x 1, .unit)])
    (h1 : (opsOf (items 1)).map (fun d => (d.call, d.ret)) = [(.store so w y 1, .unit)])
    (h2 : (opsOf (items 2)).map (fun d => (d.call, d.ret)) = [(.load o w x, .bits w 1), (.load o w y, .bits w r)])
    (h3 : (opsOf (items 3)).map (fun d => (d.call, d.ret)) = [(.load o w y, .bits w 1), (.load o w x, .bits w s)]) :
    r = 1 ∨ s = 1 := by
  -- every operation is on `x` or on `y`
  have on : ∀ t d, Item.op d ∈ items t → d.call.On w x ∨ d.call.On w y := by
    intro t d hd
    have hd' : (d.call, d.ret) ∈ (opsOf (items t)).map (fun d => (d.call, d.ret)) :=
      List.mem_map.2 ⟨d, List.mem_filterMap.2 ⟨_, hd, rfl⟩, rfl⟩
    have fst : ∀ {c : Call} {r : Ret}, (d.call, d.ret) = (c, r) → d.call = c := fun h => congrArg Prod.fst h
    rcases (by omega : t = 0 ∨ t = 1 ∨ t = 2 ∨ t = 3 ∨ 4 ≤ t) with rfl | rfl | rfl | rfl | ht
    · rw [h0, List.mem_singleton] at hd'
      rw [fst hd']; exact .inl ⟨rfl, rfl⟩
    · rw [h1, List.mem_singleton] at hd'
      rw [fst hd']; exact .inr ⟨rfl, rfl⟩
    · rw [h2] at hd'
      simp only [List.mem_cons, List.not_mem_nil, or_false] at hd'
      rcases hd' with h | h <;> rw [fst h]
      · exact .inl ⟨rfl, rfl⟩
      · exact .inr ⟨rfl, rfl⟩
    · rw [h3] at hd'
      simp only [List.mem_cons, List.not_mem_nil, or_false] at hd'
      rcases hd' with h | h <;> rw [fst h]
      · exact .inr ⟨rfl, rfl⟩
      · exact .inl ⟨rfl, rfl⟩
    · rw [hN t ht] at hd; cases hd
  obtain ⟨seq, m, hl, ht, _⟩ := h X rf 4 items hX hN hpo
    (fun t d hd => by
      rcases on t d hd with ⟨g1, g2⟩ | ⟨g1, g2⟩ <;> rw [g1, g2]
      · exact ⟨(hok t d hd).1, (hok t d hd).2, hw, hx⟩
      · exact ⟨(hok t d hd).1, (hok t d hd).2, hw, hy⟩)
    (fun t d t' d' hd hd' => by
      unfold Call.SameOrApart Call.On Call.Off
      rcases on t d hd with ⟨g1, g2⟩ | ⟨g1, g2⟩ <;> rcases on t' d' hd' with ⟨g3, g4⟩ | ⟨g3, g4⟩ <;> rw [g1, g2, g3, g4]
      · exact .inl ⟨rfl, rfl⟩
      · right; omega
      · right; omega
      · exact .inl ⟨rfl, rfl⟩)
    (fun t i t' d b hi hd hb1 hb2 hwr => by
      obtain ⟨n1, n2⟩ := hfor t i b hi hwr
      rcases on t' d hd with ⟨g1, g2⟩ | ⟨g1, g2⟩ <;> rw [g2] at hb1 hb2 <;> rw [g1] at hb2
      · exact n1 ⟨hb1, hb2⟩
      · exact n2 ⟨hb1, hb2⟩)
  have key : ∀ t l, (opsOf (items t)).map (fun d => (d.call, d.ret)) = l → ofThread t seq = l.map fun z => (t, z.1, z.2) := by
    rintro t l rfl
    rw [ht, List.map_map]; rfl
  exact legal_iriw (so := so) (o := o) (isSize_mod hw).1 hxy hl (by rw [key 0 _ h0]; rfl) (by rw [key 1 _ h1]; rfl)
    (by rw [key 2 _ h2]; rfl) (by rw [key 3 _ h3]; rfl) fun i hi => by rw [ht, hN i hi]; rfl

/-! ### Executions, on Armv7 -/
namespace IRIW

/-- Armv7 with `dmb` -/
abbrev c7 : Arm.Conf := ⟨false, true⟩
abbrev armv7 : Backend 32 := Arm.backend .little c7
/-- registers with the arguments in place -/
abbrev regs {w : Nat} (B : Block 32 w) : RS 32 := argRegs B.args
/-- memory before: all zero -/
abbrev zero : Mem := fun _ => 0

abbrev stB (f : Pairs × Pairs) (p : BitVec 32) : Block 32 32 := Arm.storeBlock c7 (Alloc.std _) 32 f p 1#32
abbrev ldB (f : Pairs) (p : BitVec 32) : Block 32 32 := Arm.loadBlock c7 (Alloc.std _) 32 f p

theorem stPre (f : Pairs × Pairs) (p : BitVec 32) : (stB f p).pre (regs (stB f p)) :=
  argRegs_pre (by simp [Arm.storeBlock]) (by simp [Arm.storeBlock])
theorem ldPre (f : Pairs) (p : BitVec 32) : (ldB f p).pre (regs (ldB f p)) :=
  argRegs_pre (by simp [Arm.loadBlock]) (by simp [Arm.loadBlock])
theorem stReg (f : Pairs × Pairs) (p : BitVec 32) : (regs (stB f p)).r (Alloc.std (Arm.storeKind c7) .dst) = p := by
  have := stPre f p ⟨Alloc.std (Arm.storeKind c7) .dst, 32, p⟩ (by simp [Arm.storeBlock])
  simpa using this
theorem stVal (f : Pairs × Pairs) (p : BitVec 32) : (regs (stB f p)).r (Alloc.std (Arm.storeKind c7) .val) = 1#32 := by
  have := stPre f p ⟨Alloc.std (Arm.storeKind c7) .val, 32, 1#32⟩ (by simp [Arm.storeBlock])
  simpa using this
theorem ldReg (f : Pairs) (p : BitVec 32) : (regs (ldB f p)).r (Alloc.std (Arm.loadKind c7) .src) = p := by
  have := ldPre f p ⟨Alloc.std (Arm.loadKind c7) .src, 32, p⟩ (by simp [Arm.loadBlock])
  simpa using this

/-- memory after the store -/
abbrev after (f : Pairs × Pairs) (p : BitVec 32) : Mem :=
  store .little zero (Arm.ea (Alloc.std (Arm.storeKind c7) .dst) (regs (stB f p))) 32
    (((regs (stB f p)).r (Alloc.std (Arm.storeKind c7) .val)).setWidth 32)
theorem after_eq (f : Pairs × Pairs) (p : BitVec 32) : after f p = store .little zero p.toNat 32 1#32 := by
  simp only [after, stVal, Arm.ea, stReg]; rfl
/-- registers after the load -/
abbrev got (f : Pairs) (p : BitVec 32) (m : Mem) : RS 32 :=
  (regs (ldB f p)).set (Alloc.std (Arm.loadKind c7) .out)
    ((load .little m (Arm.ea (Alloc.std (Arm.loadKind c7) .src) (regs (ldB f p))) 32).setWidth 32)

/-- the instructions of a store of 1 -/
def stOwns (f : Pairs × Pairs) (p : BitVec 32) : List (Own 32) :=
  [ ⟨Arm.lk c7 (Alloc.std (Arm.storeKind c7) .lr) f.2, regs (stB f p), .tau, zero, zero⟩,
    ⟨.fence f.2, regs (stB f p), .fence f.2, zero, zero⟩,
    ⟨Arm.str 32 (Alloc.std (Arm.storeKind c7) .val) (Alloc.std (Arm.storeKind c7) .dst), regs (stB f p), .wr .plain, zero, after f p⟩,
    ⟨Arm.lk c7 (Alloc.std (Arm.storeKind c7) .lr) f.1, regs (stB f p), .tau, after f p, after f p⟩,
    ⟨.fence f.1, regs (stB f p), .fence f.1, after f p, after f p⟩ ]
/-- the instructions of a load that finds memory `m` -/
def ldOwns (f : Pairs) (p : BitVec 32) (m : Mem) : List (Own 32) :=
  [ ⟨Arm.ldr 32 (Alloc.std (Arm.loadKind c7) .out) (Alloc.std (Arm.loadKind c7) .src), regs (ldB f p), .rd .plain, m, m⟩,
    ⟨Arm.lk c7 (Alloc.std (Arm.loadKind c7) .lr) f, got f p m, .tau, m, m⟩,
    ⟨.fence f, got f p m, .fence f, m, m⟩ ]

abbrev evs (l : List (Own 32)) : List (LEv 32) := l.map fun o => .own o.ins o.rs o.ev o.m o.m'
theorem owns_evs (l : List (Own 32)) : owns (evs l) = l := by
  induction l with
  | nil => rfl
  | cons o l ih => simp only [owns, evs, List.map_cons, List.filterMap_cons] at ih ⊢; rw [ih]

/-- A store of 1 as a finished operation. -/
def stDone (so : Ordering) (f : Pairs × Pairs) (p : BitVec 32) : Done 32 where
  call := .store so 32 p.toNat 1
  B := stB f p
  tr := evs (stOwns f p)
  rs := regs (stB f p)
/-- A load as a finished operation. -/
def ldDone (o : Ordering) (f : Pairs) (p : BitVec 32) (m : Mem) : Done 32 where
  call := .load o 32 p.toNat
  B := ldB f p
  tr := evs (ldOwns f p m)
  rs := got f p m

theorem stDone_ok {so : Ordering} {f : Pairs × Pairs} (hf : Arm.storeFences so = some f) (p : BitVec 32) : (stDone so f p).OK armv7 := by
  refine ⟨Arm.Store.word (Alloc.std _) p 1#32 (.inr rfl) hf, ⟨0, regs (stB f p), zero, none⟩, ⟨5, _, after f p, none⟩,
    rfl, rfl, stPre f p, ?_, rfl, rfl⟩
  exact ((((LRun.nil.own (i := Arm.lk c7 (Alloc.std (Arm.storeKind c7) .lr) f.2) rfl (.op _ _ ⟨0⟩)).own (i := .fence f.2) rfl (.fence _ _)).own
    (i := Arm.str 32 (Alloc.std (Arm.storeKind c7) .val) (Alloc.std (Arm.storeKind c7) .dst)) rfl (.st _ _ _ _ _)).own
    (i := Arm.lk c7 (Alloc.std (Arm.storeKind c7) .lr) f.1) rfl (.op _ _ ⟨0⟩)).own (i := .fence f.1) rfl (.fence _ _)
theorem ldDone_ok {o : Ordering} {f : Pairs} (hf : Arm.loadFence o = some f) (p : BitVec 32) (m : Mem) : (ldDone o f p m).OK armv7 := by
  refine ⟨Arm.Load.word (Alloc.std _) p (.inr rfl) hf, ⟨0, regs (ldB f p), m, none⟩, ⟨3, _, m, none⟩,
    rfl, rfl, ldPre f p, ?_, rfl, rfl⟩
  exact ((LRun.nil.own (i := Arm.ldr 32 (Alloc.std (Arm.loadKind c7) .out) (Alloc.std (Arm.loadKind c7) .src)) rfl (.ld _ _ _ _ _)).own
    (i := Arm.lk c7 (Alloc.std (Arm.loadKind c7) .lr) f) rfl (.op _ _ ⟨0⟩)).own (i := .fence f) rfl (.fence _ _)
theorem ldDone_ret (o : Ordering) (f : Pairs) (p : BitVec 32) (m : Mem) :
    (ldDone o f p m).ret = .bits 32 (load .little m p.toNat 32) := by
  have e : Arm.ea (Alloc.std (Arm.loadKind c7) .src) (regs (ldB f p)) = p.toNat := by simp only [Arm.ea, ldReg]
  simp only [Done.ret, ldDone, Call.result, got, e]
  simp [Arm.loadBlock]

theorem zero_load (a : Nat) : load .little zero a 32 = 0#32 := by
  apply BitVec.eq_of_getLsbD_eq
  intro i hi
  rw [getLsbD_load]
  simp

/-- the four threads; the readers see the writes in different orders -/
def relaxedItems : Nat → List (Item 32)
  | 0 => [.op (stDone .relaxed (.none, .none) 0x1000)]
  | 1 => [.op (stDone .relaxed (.none, .none) 0x2000)]
  | 2 => [.op (ldDone .relaxed .none 0x1000 (after (.none, .none) 0x1000)), .op (ldDone .relaxed .none 0x2000 zero)]
  | 3 => [.op (ldDone .relaxed .none 0x2000 (after (.none, .none) 0x2000)), .op (ldDone .relaxed .none 0x1000 zero)]
  | _ => []

/-- the events -/
def relaxedTest : LTest :=
  [ [.tau, .fence false, .wr 0 1, .tau, .fence false],
    [.tau, .fence false, .wr 1 2, .tau, .fence false],
    [.rd 0 (some (0, 2)), .tau, .fence false, .rd 1 none, .tau, .fence false],
    [.rd 1 (some (1, 2)), .tau, .fence false, .rd 0 none, .tau, .fence false] ]

def relaxedShape : AxShape 32 := ⟨fun t => (relaxedItems t).flatMap Item.code, zero, relaxedTest.rank⟩

theorem fits_st {X : AxShape 32} (f : Pairs × Pairs) {p : BitVec 32} {k : Nat} (r : Nat) (hp : p.toNat = LTest.adr k)
    (h1 : (if f.1.wr then Pairs.full else .none) = f.1 := by rfl) (h2 : (if f.2.wr then Pairs.full else .none) = f.2 := by rfl) :
    LTest.FitsAll X [.tau, .fence f.2.wr, .wr k r, .tau, .fence f.1.wr] (stOwns f p) := by
  refine ⟨rfl, congrArg Ev.fence h2.symm, ⟨rfl, ?_, ?_⟩, rfl, congrArg Ev.fence h1.symm, trivial⟩
  · simp only [Arm.str, Instr.access, Arm.ea, stReg, hp]
  · simp only [Arm.str, Instr.wrFoot, Arm.ea, stReg, hp]
theorem fits_ld {X : AxShape 32} (f : Pairs) {p : BitVec 32} {m : Mem} {k : Nat} {src : Option (Nat × Nat)} (hp : p.toNat = LTest.adr k)
    (hs : match src with | none => m = X.m0 | some (t, p) => ∃ o', (X.po t)[p]? = some o' ∧ m = o'.m')
    (h1 : (if f.wr then Pairs.full else .none) = f := by rfl) :
    LTest.FitsAll X [.rd k src, .tau, .fence f.wr] (ldOwns f p m) := by
  refine ⟨⟨rfl, ?_, ?_, rfl, hs⟩, rfl, congrArg Ev.fence h1.symm, trivial⟩
  · simp only [Arm.ldr, Instr.access, Arm.ea, ldReg, hp]
  · simp only [Arm.ldr, Instr.rdFoot, Arm.ea, ldReg, hp]

theorem relaxed_matches : relaxedTest.Matches relaxedShape := by
  refine .mk' rfl fun t => ?_
  match t with
  | 0 => exact fits_st (.none, .none) (p := 0x1000) 1 rfl
  | 1 => exact fits_st (.none, .none) (p := 0x2000) 2 rfl
  | 2 => exact .append (fits_ld (X := relaxedShape) (src := some (0, 2)) .none (p := 0x1000) rfl ⟨_, rfl, rfl⟩) (fits_ld (src := none) (k := 1) .none (p := 0x2000) rfl rfl)
  | 3 => exact .append (fits_ld (X := relaxedShape) (src := some (1, 2)) .none (p := 0x2000) rfl ⟨_, rfl, rfl⟩) (fits_ld (src := none) (k := 0) .none (p := 0x1000) rfl rfl)
  | _ + 4 => trivial

/-- The machine need not be multi-copy atomic: with relaxed operations it has the execution in which the two readers see the
two writes in different orders, so C41 needs the barriers of the SeqCst operations. -/
theorem C41_relaxed_allows_iriw : ¬ armv7.SCOnNonMCA (fun _ => True) := by
  intro h
  have key := h.iriw (items := relaxedItems) (relaxed_matches.nmExec (h := fun _ _ => 0) (by decide)) (w := 32) (x := 0x1000) (y := 0x2000)
    (so := .relaxed) (o := .relaxed) (r := 0) (s := 0) ?_ ?_ ?_ (.inr (.inr (.inl rfl))) rfl rfl (.inl (by decide)) ?_ ?_ ?_ ?_ ?_
  · rcases key with h | h <;> exact absurd h (by decide)
  · intro t ht
    match t, ht with
    | t + 4, _ => rfl
  · exact fun _ => rfl
  · intro t d hd
    refine ⟨?_, trivial⟩
    match t with
    | 0 => cases List.mem_singleton.1 hd; exact stDone_ok rfl _
    | 1 => cases List.mem_singleton.1 hd; exact stDone_ok rfl _
    | 2 =>
      rcases List.mem_cons.1 hd with h | hd
      · cases h; exact ldDone_ok rfl _ _
      · cases List.mem_singleton.1 hd; exact ldDone_ok rfl _ _
    | 3 =>
      rcases List.mem_cons.1 hd with h | hd
      · cases h; exact ldDone_ok rfl _ _
      · cases List.mem_singleton.1 hd; exact ldDone_ok rfl _ _
    | _ + 4 => cases hd
  · intro t o b ho
    match t with
    | 0 | 1 | 2 | 3 => simp [relaxedItems] at ho
    | _ + 4 => cases ho
  · rfl
  · rfl
  · simp only [relaxedItems, opsOf, List.filterMap_cons, List.filterMap_nil, List.map_cons, List.map_nil, ldDone_ret, zero_load, after_eq]
    rw [load_store (by decide)]
    rfl
  · simp only [relaxedItems, opsOf, List.filterMap_cons, List.filterMap_nil, List.map_cons, List.map_nil, ldDone_ret, zero_load, after_eq]
    rw [load_store (by decide)]
    rfl

/-! With SeqCst operations: store buffering, thread 0 first. -/

/-- the two threads -/
def scItems : Nat → List (Item 32)
  | 0 => [.op (stDone .seqCst (.full, .full) 0x1000), .op (ldDone .seqCst .full 0x2000 zero)]
  | 1 => [.op (stDone .seqCst (.full, .full) 0x2000), .op (ldDone .seqCst .full 0x1000 (after (.full, .full) 0x1000))]
  | _ => []
/-- the events -/
def scTest : LTest :=
  [ [.tau, .fence true, .wr 0 1, .tau, .fence true, .rd 1 none, .tau, .fence true],
    [.tau, .fence true, .wr 1 2, .tau, .fence true, .rd 0 (some (0, 2)), .tau, .fence true] ]
def scShape : AxShape 32 := ⟨fun t => (scItems t).flatMap Item.code, zero, scTest.rank⟩

theorem sc_matches : scTest.Matches scShape := by
  refine .mk' rfl fun t => ?_
  match t with
  | 0 => exact .append (fits_st (.full, .full) (p := 0x1000) 1 rfl) (fits_ld (src := none) .full (p := 0x2000) rfl rfl)
  | 1 => exact .append (fits_st (.full, .full) (p := 0x2000) 2 rfl) (fits_ld (src := some (0, 2)) .full (p := 0x1000) rfl ⟨_, rfl, rfl⟩)
  | _ + 2 => trivial

/-- The hypotheses of C41 without multi-copy atomicity can be met: a consistent execution of two threads on Armv7, each of
which stores to its object and loads the other's, all SeqCst. -/
theorem C41_nonmca_example : ∃ (X : AxShape 32) (rf : Node → Nat → Option Node) (items : Nat → List (Item 32)), NMExec X rf ∧
    (∀ t, 2 ≤ t → items t = []) ∧ (∀ t, X.po t = (items t).flatMap Item.code) ∧
    (∀ t d, Item.op d ∈ items t → d.OK armv7 ∧ d.call.SeqCstOnly ∧ IsSize d.call.width ∧ d.call.addr % (d.call.width / 8) = 0) ∧
    (∀ t d t' d', Item.op d ∈ items t → Item.op d' ∈ items t' → d.call.SameOrApart d'.call) ∧
    (∀ t o, Item.other o ∉ items t) ∧
    (opsOf (items 0)).map (fun d => (d.call, d.ret)) = [(.store .seqCst 32 0x1000 1, .unit), (.load .seqCst 32 0x2000, .bits 32 0)] ∧
    (opsOf (items 1)).map (fun d => (d.call, d.ret)) = [(.store .seqCst 32 0x2000 1, .unit), (.load .seqCst 32 0x1000, .bits 32 1)] := by
  have calls : ∀ t d, Item.op d ∈ scItems t → d.OK armv7 ∧ (d.call = .store .seqCst 32 0x1000 1 ∨ d.call = .store .seqCst 32 0x2000 1 ∨
      d.call = .load .seqCst 32 0x1000 ∨ d.call = .load .seqCst 32 0x2000) := by
    intro t d hd
    match t with
    | 0 =>
      rcases List.mem_cons.1 hd with h | hd
      · cases h; exact ⟨stDone_ok rfl _, .inl rfl⟩
      · cases List.mem_singleton.1 hd; exact ⟨ldDone_ok rfl _ _, .inr (.inr (.inr rfl))⟩
    | 1 =>
      rcases List.mem_cons.1 hd with h | hd
      · cases h; exact ⟨stDone_ok rfl _, .inr (.inl rfl)⟩
      · cases List.mem_singleton.1 hd; exact ⟨ldDone_ok rfl _ _, .inr (.inr (.inl rfl))⟩
    | _ + 2 => cases hd
  refine ⟨scShape, scTest.rf, scItems, sc_matches.nmExec (h := fun t p => 10 * t + p) (by decide), ?_, fun _ => rfl, ?_, ?_, ?_, ?_, ?_⟩
  · intro t ht
    match t, ht with
    | t + 2, _ => rfl
  · intro t d hd
    obtain ⟨h1, h2⟩ := calls t d hd
    refine ⟨h1, ?_⟩
    rcases h2 with h | h | h | h <;> rw [h] <;> exact ⟨rfl, .inr (.inr (.inl rfl)), rfl⟩
  · intro t d t' d' hd hd'
    have h := (calls t d hd).2
    have h' := (calls t' d' hd').2
    unfold Call.SameOrApart Call.On Call.Off
    rcases h with h | h | h | h <;> rcases h' with h' | h' | h' | h' <;> rw [h, h'] <;> decide
  · intro t o ho
    match t with
    | 0 | 1 => simp [scItems] at ho
    | _ + 2 => cases ho
  · simp only [scItems, opsOf, List.filterMap_cons, List.filterMap_nil, List.map_cons, List.map_nil, ldDone_ret, zero_load]
    rfl
  · simp only [scItems, opsOf, List.filterMap_cons, List.filterMap_nil, List.map_cons, List.map_nil, ldDone_ret, after_eq]
    rw [load_store (by decide)]
    rfl

end IRIW
end Verif
