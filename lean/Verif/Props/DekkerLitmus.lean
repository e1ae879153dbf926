/-
C62: the hypotheses can be met, and the fences are needed. Two threads on Armv7, each of which stores 1 (Relaxed) to its object, executes a
fence or not, and loads (Relaxed) the other's object.
-/
import Verif.Props.Dekker
import Verif.Props.SeqlockFences
import Verif.Props.FenceLitmus

namespace Verif
namespace IRIW

abbrev dst (a : BitVec 32) : Done 32 := stDone .relaxed (.none, .none) a
/-- the load by thread 0: it misses the store -/
abbrev dmiss : Done 32 := ldDone .relaxed .none 0x2000 zero
/-- the load by thread 1: it gets the store if `b` -/
abbrev dget (b : Bool) : Done 32 := ldDone .relaxed .none 0x1000 (if b then after (.none, .none) 0x1000 else zero)

/-- with fences if `b`; the second thread's load then gets the store -/
def dekkerItems (b : Bool) : Nat → List (Item 32)
  | 0 => [.op (dst 0x1000), .other (bar b), .op dmiss]
  | 1 => [.op (dst 0x2000), .other (bar b), .op (dget b)]
  | _ => []

def dekkerTest (b : Bool) : LTest :=
  [ [.tau, .fence false, .wr 0 1, .tau, .fence false, .fence b, .rd 1 none, .tau, .fence false],
    [.tau, .fence false, .wr 1 2, .tau, .fence false, .fence b, .rd 0 (if b then some (0, 2) else none), .tau, .fence false] ]

def dekkerShape (b : Bool) : AxShape 32 := ⟨fun t => (dekkerItems b t).flatMap Item.code, zero, (dekkerTest b).rank⟩

theorem dekker_matches (b : Bool) : (dekkerTest b).Matches (dekkerShape b) := by
  refine .mk' rfl fun t => ?_
  match t with
  | 0 => exact .append (fits_st (.none, .none) (p := 0x1000) 1 rfl) (.append (ls := [.fence b]) (os := [bar b]) ⟨rfl, trivial⟩
      (fits_ld (src := none) (k := 1) .none (p := 0x2000) rfl rfl))
  | 1 =>
    refine .append (fits_st (.none, .none) (p := 0x2000) 2 rfl) (.append (ls := [.fence b]) (os := [bar b]) ⟨rfl, trivial⟩ ?_)
    cases b
    · exact fits_ld (X := dekkerShape false) (src := none) (k := 0) .none (p := 0x1000) rfl rfl
    · exact fits_ld (X := dekkerShape true) (src := some (0, 2)) (k := 0) .none (p := 0x1000) rfl ⟨_, rfl, rfl⟩
  | _ + 2 => trivial

theorem dekker_items {b : Bool} {t : Nat} {it : Item 32} (h : it ∈ dekkerItems b t) :
    (t = 0 ∧ (it = .op (dst 0x1000) ∨ it = .other (bar b) ∨ it = .op dmiss)) ∨
    (t = 1 ∧ (it = .op (dst 0x2000) ∨ it = .other (bar b) ∨ it = .op (dget b))) := by
  match t with
  | 0 =>
    left
    have : it ∈ [Item.op (dst 0x1000), .other (bar b), .op dmiss] := h
    simpa using this
  | 1 =>
    right
    have : it ∈ [Item.op (dst 0x2000), .other (bar b), .op (dget b)] := h
    simpa using this
  | t + 2 => cases h

theorem dekker_op {b : Bool} {t : Nat} {d : Done 32} (h : Item.op d ∈ dekkerItems b t) :
    d.OK armv7 ∧ d.call.width = 32 ∧ (d.call.addr = 0x1000 ∨ d.call.addr = 0x2000) ∧
      (d.call = .load .relaxed 32 d.call.addr ∨
        d.call = .store .relaxed 32 d.call.addr 1#32 ∧ (t = 0 ∧ d.call.addr = 0x1000 ∨ t = 1 ∧ d.call.addr = 0x2000)) := by
  rcases dekker_items h with ⟨rfl, h | h | h⟩ | ⟨rfl, h | h | h⟩ <;> cases h
  · exact ⟨stDone_ok rfl _, rfl, .inl rfl, .inr ⟨rfl, .inl ⟨rfl, rfl⟩⟩⟩
  · exact ⟨ldDone_ok rfl _ _, rfl, .inr rfl, .inl rfl⟩
  · exact ⟨stDone_ok rfl _, rfl, .inr rfl, .inr ⟨rfl, .inr ⟨rfl, rfl⟩⟩⟩
  · exact ⟨ldDone_ok rfl _ _, rfl, .inl rfl, .inl rfl⟩

/-- The hypotheses on who writes, from what the items are. -/
theorem oneWriter_of {X : AxShape 32} {items : Nat → List (Item 32)} (hN : ∀ t, 2 ≤ t → items t = []) (hcode : ∀ t, X.po t = (items t).flatMap Item.code)
    (hop : ∀ t d, Item.op d ∈ items t → d.OK armv7 ∧ d.call.width = 32 ∧ (d.call.addr = 0x1000 ∨ d.call.addr = 0x2000) ∧
      (d.call = .load .relaxed 32 d.call.addr ∨
        d.call = .store .relaxed 32 d.call.addr 1#32 ∧ (t = 0 ∧ d.call.addr = 0x1000 ∨ t = 1 ∧ d.call.addr = 0x2000)))
    (hoth : ∀ t o x, Item.other o ∈ items t → ¬ o.writes x) {a i : Nat} (ha : i = 0 ∧ a = 0x1000 ∨ i = 1 ∧ a = 0x2000) :
    OneWriter armv7 (fun _ => True) X 2 items 32 a i where
  size := .inr (.inr (.inl rfl))
  aligned := by rcases ha with ⟨_, rfl⟩ | ⟨_, rfl⟩ <;> rfl
  threads := hN
  code := hcode
  ops := by
    intro t d hd
    obtain ⟨h1, h2, h3, _⟩ := hop t d hd
    have v32 : IsSize 32 := .inr (.inr (.inl rfl))
    refine ⟨h1, trivial, by rw [h2]; exact v32, by rw [h2]; rcases h3 with h | h <;> rw [h], ?_⟩
    rcases ha with ⟨_, rfl⟩ | ⟨_, rfl⟩ <;> rcases h3 with h | h
    · exact .inl ⟨h2, h⟩
    · exact .inr (.inr (by rw [h]; decide))
    · exact .inr (.inl (by rw [h2, h]; decide))
    · exact .inl ⟨h2, h⟩
  others := fun t o x ho _ _ => hoth t o x ho
  writer := by
    intro t d hd ⟨_, h2⟩
    obtain ⟨_, _, _, h4⟩ := hop t d hd
    rw [h2] at h4
    rcases h4 with h | ⟨h, h'⟩
    · exact .inl ⟨_, h⟩
    · refine .inr ⟨?_, _, _, h⟩
      rcases ha with ⟨rfl, rfl⟩ | ⟨rfl, rfl⟩ <;> rcases h' with ⟨h, h'⟩ | ⟨h, h'⟩ <;> first | exact h | exact absurd h' (by decide)

theorem dekker_writer (b : Bool) {a i : Nat} (ha : i = 0 ∧ a = 0x1000 ∨ i = 1 ∧ a = 0x2000) :
    OneWriter armv7 (fun _ => True) (dekkerShape b) 2 (dekkerItems b) 32 a i :=
  oneWriter_of (fun t ht => match t, ht with | _ + 2, _ => rfl) (fun _ => rfl) (fun _ _ hd => dekker_op hd) (fun t o x ho hx => by
    rcases dekker_items ho with ⟨rfl, h | h | h⟩ | ⟨rfl, h | h | h⟩ <;> cases h <;> exact absurd hx.1 (by simp [bar, Ev.isWrite])) ha

abbrev dst0 : Done 32 := putDone .relaxed (.none, .none) 0x1000 zero
abbrev dld0 : Done 32 := ldDone .relaxed .none 0x2000 m1
abbrev dst1 : Done 32 := putDone .relaxed (.none, .none) 0x2000 m1
abbrev dld1 : Done 32 := ldDone .relaxed .none 0x1000 m2
/-- an interleaving: first thread 0, then thread 1 -/
def inTurn : List (Nat × Item 32) :=
  [(0, .op dst0), (0, .other (dmb m1)), (0, .op dld0), (1, .op dst1), (1, .other (dmb m2)), (1, .op dld1)]

theorem inTurn_mixed : Mixed armv7 zero inTurn m2 :=
  ⟨m1, putDone_alone rfl _ _, rfl, fun _ _ => rfl, rfl, m1, ldDone_alone rfl _ _, m2, putDone_alone rfl _ _, rfl, fun _ _ => rfl, rfl,
    m2, ldDone_alone rfl _ _, rfl⟩

theorem inTurn_items {t : Nat} {it : Item 32} (h : it ∈ mixedItems inTurn t) :
    (t = 0 ∧ (it = .op dst0 ∨ it = .other (dmb m1) ∨ it = .op dld0)) ∨ (t = 1 ∧ (it = .op dst1 ∨ it = .other (dmb m2) ∨ it = .op dld1)) := by
  match t with
  | 0 =>
    left
    have : it ∈ [Item.op dst0, .other (dmb m1), .op dld0] := h
    simpa using this
  | 1 =>
    right
    have : it ∈ [Item.op dst1, .other (dmb m2), .op dld1] := h
    simpa using this
  | t + 2 => cases h

theorem inTurn_op {t : Nat} {d : Done 32} (h : Item.op d ∈ mixedItems inTurn t) :
    d.OK armv7 ∧ d.call.width = 32 ∧ (d.call.addr = 0x1000 ∨ d.call.addr = 0x2000) ∧
      (d.call = .load .relaxed 32 d.call.addr ∨
        d.call = .store .relaxed 32 d.call.addr 1#32 ∧ (t = 0 ∧ d.call.addr = 0x1000 ∨ t = 1 ∧ d.call.addr = 0x2000)) := by
  rcases inTurn_items h with ⟨rfl, h | h | h⟩ | ⟨rfl, h | h | h⟩ <;> cases h
  · exact ⟨(putDone_alone rfl _ _).ok, rfl, .inl rfl, .inr ⟨rfl, .inl ⟨rfl, rfl⟩⟩⟩
  · exact ⟨ldDone_ok rfl _ _, rfl, .inr rfl, .inl rfl⟩
  · exact ⟨(putDone_alone rfl _ _).ok, rfl, .inr rfl, .inr ⟨rfl, .inr ⟨rfl, rfl⟩⟩⟩
  · exact ⟨ldDone_ok rfl _ _, rfl, .inl rfl, .inl rfl⟩

theorem inTurn_writer {X : AxShape 32} (hcode : ∀ t, X.po t = (mixedItems inTurn t).flatMap Item.code) {a i : Nat}
    (ha : i = 0 ∧ a = 0x1000 ∨ i = 1 ∧ a = 0x2000) : OneWriter armv7 (fun _ => True) X 2 (mixedItems inTurn) 32 a i :=
  oneWriter_of (fun t ht => match t, ht with | _ + 2, _ => rfl) hcode (fun _ _ hd => inTurn_op hd) (fun t o x ho hx => by
    rcases inTurn_items ho with ⟨rfl, h | h | h⟩ | ⟨rfl, h | h | h⟩ <;> cases h <;> exact absurd hx.1 (by simp [dmb, Ev.isWrite])) ha

theorem dmb_sc (imp : Pairs) {items : Nat → List (Item 32)} {t f : Nat} {m : Mem} (h : (items t)[f]? = some (.other (dmb m))) :
    SeqCstFence imp items t f := fun kd kd' => .inr ⟨dmb m, .full, h, rfl, by cases kd <;> cases kd' <;> rfl⟩

/-- C62: the hypotheses can be met, with and without a global memory order: the first thread misses the second's store, the second thread gets the
first's. -/
theorem C62_example : ∃ (X : AxShape 32) (rf : Node → Nat → Option Node) (items : Nat → List (Item 32)),
    AxExec armv7.imp X ∧ CohExec X rf ∧ X.ReadsFrom rf ∧ NMExec X rf ∧
    OneWriter armv7 (fun _ => True) X 2 items 32 0x1000 0 ∧ OneWriter armv7 (fun _ => True) X 2 items 32 0x2000 1 ∧
    StoresAt items 0 32 0x1000 0 1#32 ∧ SeqCstFence armv7.imp items 0 1 ∧
    (∃ of p, (items 0)[1]? = some (.other of) ∧ of.ev = .fence p ∧ p.wr = true) ∧ LoadsAt items 0 32 0x2000 2 .relaxed 0#32 ∧
    StoresAt items 1 32 0x2000 0 1#32 ∧ SeqCstFence armv7.imp items 1 1 ∧
    (∃ of p, (items 1)[1]? = some (.other of) ∧ of.ev = .fence p ∧ p.wr = true) ∧ LoadsAt items 1 32 0x1000 2 .relaxed 1#32 := by
  have con := inTurn_mixed.consistent armv7.imp
  refine ⟨_, _, mixedItems inTurn, con.ax, con.nm.toCohExec, con.readsFrom, con.nm, inTurn_writer (mixed_code inTurn) (.inl ⟨rfl, rfl⟩),
    inTurn_writer (mixed_code inTurn) (.inr ⟨rfl, rfl⟩), ⟨dst0, .relaxed, rfl, rfl⟩, dmb_sc _ (m := m1) rfl, ⟨dmb m1, .full, rfl, rfl, rfl⟩,
    ⟨dld0, rfl, rfl, ?_⟩, ⟨dst1, .relaxed, rfl, rfl⟩, dmb_sc _ (m := m2) rfl, ⟨dmb m2, .full, rfl, rfl, rfl⟩, ⟨dld1, rfl, rfl, ?_⟩⟩
  · simp only [ldDone_ret, put_eq]
    rw [load_store_disjoint (by decide) (by decide), zero_load]
  · simp only [ldDone_ret, put_eq]
    rw [load_store_disjoint (by decide) (by decide)]
    exact congrArg _ (load_store (by decide) _)

/-- C62: likewise of an execution given by its events: the first thread misses the second's store, the second thread gets
the first's. -/
theorem C62_example_nonmca : ∃ (X : AxShape 32) (rf : Node → Nat → Option Node) (items : Nat → List (Item 32)), NMExec X rf ∧
    OneWriter armv7 (fun _ => True) X 2 items 32 0x1000 0 ∧ OneWriter armv7 (fun _ => True) X 2 items 32 0x2000 1 ∧
    StoresAt items 0 32 0x1000 0 1#32 ∧ (∃ of p, (items 0)[1]? = some (.other of) ∧ of.ev = .fence p ∧ p.wr = true) ∧
    LoadsAt items 0 32 0x2000 2 .relaxed 0#32 ∧
    StoresAt items 1 32 0x2000 0 1#32 ∧ (∃ of p, (items 1)[1]? = some (.other of) ∧ of.ev = .fence p ∧ p.wr = true) ∧
    LoadsAt items 1 32 0x1000 2 .relaxed 1#32 := by
  refine ⟨dekkerShape true, _, dekkerItems true, (dekker_matches true).nmExec (h := fun t p => 10 * t + p) (by decide), dekker_writer true (.inl ⟨rfl, rfl⟩),
    dekker_writer true (.inr ⟨rfl, rfl⟩), ⟨dst 0x1000, .relaxed, rfl, rfl⟩, ⟨bar true, .full, rfl, rfl, rfl⟩, ⟨dmiss, rfl, rfl, ?_⟩,
    ⟨dst 0x2000, .relaxed, rfl, rfl⟩, ⟨bar true, .full, rfl, rfl, rfl⟩, ⟨dget true, rfl, rfl, ?_⟩⟩
  · rw [ldDone_ret, zero_load]
  · rw [ldDone_ret, if_pos rfl, after_eq]
    exact congrArg _ (load_store (by decide) _)

/-- C62: the fences are needed. Without them both threads can miss the other's store. -/
theorem C62_needs_fences : ∃ (X : AxShape 32) (rf : Node → Nat → Option Node) (items : Nat → List (Item 32)), NMExec X rf ∧
    OneWriter armv7 (fun _ => True) X 2 items 32 0x1000 0 ∧ OneWriter armv7 (fun _ => True) X 2 items 32 0x2000 1 ∧
    StoresAt items 0 32 0x1000 0 1#32 ∧ LoadsAt items 0 32 0x2000 2 .relaxed 0#32 ∧
    StoresAt items 1 32 0x2000 0 1#32 ∧ LoadsAt items 1 32 0x1000 2 .relaxed 0#32 ∧
    ¬ ((∃ q, 0 ≤ q ∧ StoresAt items 1 32 0x2000 q 0#32) ∨ ∃ q, 0 ≤ q ∧ StoresAt items 0 32 0x1000 q 0#32) := by
  refine ⟨dekkerShape false, _, dekkerItems false, (dekker_matches false).nmExec (h := fun _ _ => 0) (by decide), dekker_writer false (.inl ⟨rfl, rfl⟩),
    dekker_writer false (.inr ⟨rfl, rfl⟩), ⟨dst 0x1000, .relaxed, rfl, rfl⟩, ⟨dmiss, rfl, rfl, ?_⟩,
    ⟨dst 0x2000, .relaxed, rfl, rfl⟩, ⟨dget false, rfl, rfl, ?_⟩, ?_⟩
  · rw [ldDone_ret, zero_load]
  · rw [ldDone_ret, if_neg (by decide), zero_load]
  · rintro (⟨q, _, d, o, h1, h2⟩ | ⟨q, _, d, o, h1, h2⟩)
    all_goals
      obtain ⟨_, _, _, h4⟩ := dekker_op (List.mem_of_getElem? h1)
      rw [h2] at h4
      rcases h4 with h | ⟨h, _⟩ <;> cases h

end IRIW
end Verif
