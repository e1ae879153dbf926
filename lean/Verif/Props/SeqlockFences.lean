/-
C61: the fences are needed. Two executions of a seqlock on Armv7 in which the reader loads the initial version (Acquire), data 1 and the initial
version again, although the writer stores this data only after version 1: in the first the reader has no acquire fence, in the second the
writer has no release fence. What the reader has loaded is no snapshot.
-/
import Verif.Props.SeqlockLitmus
import Verif.Props.NonMCALitmus

namespace Verif
namespace IRIW
open SeqlockSample (D Stable)

/-- a fence, or nothing that orders anything -/
def bar (b : Bool) : Own 32 :=
  ⟨.fence (if b then .full else .none), regs (ldB .none 0), .fence (if b then .full else .none), zero, zero⟩

abbrev vodd : Done 32 := stDone .relaxed (.none, .none) 0x1000
abbrev vdat : Done 32 := stDone .relaxed (.none, .none) 0x2000
abbrev vget : Done 32 := ldDone .acquire .full 0x1000 zero
abbrev vlook : Done 32 := ldDone .relaxed .none 0x2000 (after (.none, .none) 0x2000)
abbrev vagain : Done 32 := ldDone .relaxed .none 0x1000 zero

/-- Thread 0 stores version 1, executes a fence if `b`, and stores data 1; thread 1 loads the version (Acquire) and the data, executes a fence if
`b'`, and loads the version again. -/
def tornItems (b b' : Bool) : Nat → List (Item 32)
  | 0 => [.op vodd, .other (bar b), .op vdat]
  | 1 => [.op vget, .op vlook, .other (bar b'), .op vagain]
  | _ => []

/-- the events -/
def tornTest (b b' : Bool) : LTest :=
  [ [.tau, .fence false, .wr 0 1, .tau, .fence false, .fence b, .tau, .fence false, .wr 1 2, .tau, .fence false],
    [.rd 0 none, .tau, .fence true, .rd 1 (some (0, 8)), .tau, .fence false, .fence b', .rd 0 none, .tau, .fence false] ]

def tornShape (b b' : Bool) : AxShape 32 := ⟨fun t => (tornItems b b' t).flatMap Item.code, zero, (tornTest b b').rank⟩

theorem torn_matches (b b' : Bool) : (tornTest b b').Matches (tornShape b b') := by
  refine .mk' rfl fun t => ?_
  match t with
  | 0 => exact .append (fits_st (.none, .none) (p := 0x1000) 1 rfl) (.append (ls := [.fence b]) (os := [bar b]) ⟨rfl, trivial⟩ (fits_st (.none, .none) (p := 0x2000) 2 rfl))
  | 1 =>
    exact .append (fits_ld (X := tornShape b b') (src := none) (k := 0) .full (p := 0x1000) rfl rfl)
      (.append (fits_ld (X := tornShape b b') (src := some (0, 8)) (k := 1) .none (p := 0x2000) rfl ⟨_, rfl, rfl⟩)
        (.append (ls := [.fence b']) (os := [bar b']) ⟨rfl, trivial⟩ (fits_ld (src := none) (k := 0) .none (p := 0x1000) rfl rfl)))
  | _ + 2 => trivial

/-- a time for each access: without a fence of the reader -/
def time1 : Nat → Nat → Nat
  | 1, 7 => 1 | 0, 2 => 2 | 0, 8 => 3 | 1, 3 => 4 | _, _ => 0
/-- without a fence of the writer -/
def time2 : Nat → Nat → Nat
  | 0, 8 => 1 | 1, 3 => 2 | 1, 7 => 3 | 0, 2 => 4 | _, _ => 0

theorem torn_items {b b' : Bool} {t : Nat} {it : Item 32} (h : it ∈ tornItems b b' t) :
    (t = 0 ∧ (it = .op vodd ∨ it = .other (bar b) ∨ it = .op vdat)) ∨
    (t = 1 ∧ (it = .op vget ∨ it = .op vlook ∨ it = .other (bar b') ∨ it = .op vagain)) := by
  match t with
  | 0 =>
    left
    have : it ∈ [Item.op vodd, .other (bar b), .op vdat] := h
    simpa using this
  | 1 =>
    right
    have : it ∈ [Item.op vget, .op vlook, .other (bar b'), .op vagain] := h
    simpa using this
  | t + 2 => cases h

theorem torn_op {b b' : Bool} {t : Nat} {d : Done 32} (h : Item.op d ∈ tornItems b b' t) :
    d.OK armv7 ∧ d.call.width = 32 ∧ (d.call.addr = 0x1000 ∨ d.call.addr = 0x2000) ∧
      ((∃ o, d.call = .load o 32 d.call.addr ∧ t = 1) ∨ t = 0 ∧ d.call = .store .relaxed 32 d.call.addr 1#32) := by
  rcases torn_items h with ⟨rfl, h | h | h⟩ | ⟨rfl, h | h | h | h⟩ <;> cases h
  · exact ⟨stDone_ok rfl _, rfl, .inl rfl, .inr ⟨rfl, rfl⟩⟩
  · exact ⟨stDone_ok rfl _, rfl, .inr rfl, .inr ⟨rfl, rfl⟩⟩
  · exact ⟨ldDone_ok rfl _ _, rfl, .inl rfl, .inl ⟨_, rfl, rfl⟩⟩
  · exact ⟨ldDone_ok rfl _ _, rfl, .inr rfl, .inl ⟨_, rfl, rfl⟩⟩
  · exact ⟨ldDone_ok rfl _ _, rfl, .inl rfl, .inl ⟨_, rfl, rfl⟩⟩

theorem torn_stores {b b' : Bool} {w a k : Nat} {v : BitVec w} (h : StoresAt (tornItems b b') 0 w a k v) :
    w = 32 ∧ v.toNat = 1 ∧ (k = 0 ∧ a = 0x1000 ∨ k = 2 ∧ a = 0x2000) := by
  obtain ⟨d, o, g1, g2⟩ := h
  match k with
  | 0 =>
    have g1 : some (Item.op vodd) = some (.op d) := g1
    cases g1; cases g2; exact ⟨rfl, rfl, .inl ⟨rfl, rfl⟩⟩
  | 1 =>
    have g1 : some (Item.other (bar b)) = some (.op d) := g1
    cases g1
  | 2 =>
    have g1 : some (Item.op vdat) = some (.op d) := g1
    cases g1; cases g2; exact ⟨rfl, rfl, .inr ⟨rfl, rfl⟩⟩
  | k + 3 =>
    have g1 : (none : Option (Item 32)) = some (.op d) := g1
    cases g1

/-- The hypotheses on the program hold, with any notion of release fence that the item between the stores satisfies. -/
theorem torn_run (b b' : Bool) {rel : Nat → Prop} (hrel : rel 1) :
    SeqlockRun armv7 (fun _ => True) (tornShape b b') 2 (tornItems b b') 32 0x1000 D Stable 0 rel where
  size := .inr (.inr (.inl rfl))
  aligned := rfl
  data := by rintro w a ⟨rfl, rfl⟩; exact ⟨.inr (.inr (.inl rfl)), rfl⟩
  threads := fun t ht => match t, ht with | _ + 2, _ => rfl
  code := fun _ => rfl
  ops := by
    intro t d hd
    obtain ⟨h1, h2, h3, _⟩ := torn_op hd
    have v32 : IsSize 32 := .inr (.inr (.inl rfl))
    refine ⟨h1, trivial, ⟨by rw [h2]; exact v32, by rw [h2]; rcases h3 with h | h <;> rw [h], ?_⟩, ?_⟩
    · rcases h3 with h | h
      · exact .inl ⟨h2, h⟩
      · exact .inr (.inr (by rw [h]; decide))
    · rintro w a ⟨rfl, rfl⟩
      refine ⟨by rw [h2]; exact v32, by rw [h2]; rcases h3 with h | h <;> rw [h], ?_⟩
      rcases h3 with h | h
      · exact .inr (.inl (by rw [h2, h]; decide))
      · exact .inl ⟨h2, h⟩
  apart := by rintro w a ⟨rfl, rfl⟩ ⟨_, h⟩; cases h
  others := by
    intro t o x ho hx
    rcases torn_items ho with ⟨rfl, h | h | h⟩ | ⟨rfl, h | h | h | h⟩ <;> cases h <;> exact absurd hx.1 (by simp [bar, Ev.isWrite])
  writer := by
    intro t d w a hd _ ⟨h1, h2⟩
    obtain ⟨_, h3, _, h4⟩ := torn_op hd
    have hw : w = 32 := h1.symm.trans h3
    rcases h4 with ⟨o, h, _⟩ | ⟨ht, h⟩
    · left
      subst hw
      exact ⟨o, by rw [h2] at h; exact h⟩
    · right
      subst hw
      exact ⟨ht, .relaxed, 1#32, by rw [h2] at h; exact h⟩
  fresh := by
    intro k k' v h1 h2
    have := (torn_stores h1).2.2
    have := (torn_stores h2).2.2
    omega
  initial := by
    intro k v h1 h2
    have h3 := (torn_stores h1).2.1
    have h4 : v = 0#32 := h2.trans (zero_load _)
    rw [h4] at h3
    cases h3
  releases := by
    intro d o v hd hc hs
    have h3 : v.toNat = 1 := by
      obtain ⟨k, hk⟩ := List.getElem?_of_mem hd
      exact (torn_stores (k := k) ⟨d, o, hk, hc⟩).2.1
    exact absurd hs (by simp [Stable, h3])
  marked := by
    rintro w a k v ⟨rfl, rfl⟩ h
    have hk : k = 2 := by have := (torn_stores h).2.2; omega
    subst hk
    refine ⟨0, 1, 1#32, by decide, by decide, ⟨vodd, .relaxed, rfl, rfl⟩, by decide, hrel, fun k' v' h1 h2 h3 => ?_⟩
    have := (torn_stores h3).2.2
    omega

theorem torn_sole (b b' : Bool) : SolelyStored (tornItems b b') 32 0x1000 D 0 := by
  intro t d o w a x hd ho _ _ _ hx
  rcases torn_items hd with ⟨rfl, h | h | h⟩ | ⟨rfl, h | h | h | h⟩ <;> cases h
  · rfl
  · rfl
  all_goals
    exfalso
    replace hx := hx.1
    simp only [ldDone, owns_evs, ldOwns, List.mem_cons, List.not_mem_nil, or_false] at ho
    rcases ho with rfl | rfl | rfl <;> cases hx

theorem torn_loads (b b' : Bool) : LoadsAt (tornItems b b') 1 32 0x1000 0 .acquire 0#32 ∧ LoadsAt (tornItems b b') 1 32 0x2000 1 .relaxed 1#32 ∧
    LoadsAt (tornItems b b') 1 32 0x1000 3 .relaxed 0#32 := by
  refine ⟨⟨vget, rfl, rfl, ?_⟩, ⟨vlook, rfl, rfl, ?_⟩, ⟨vagain, rfl, rfl, ?_⟩⟩
  · rw [ldDone_ret, zero_load]
  · rw [ldDone_ret, after_eq]
    exact congrArg _ (load_store (by decide) _)
  · rw [ldDone_ret, zero_load]

/-- Data 1 was never there together with the initial version. -/
theorem torn (b b' : Bool) (g : Nat) (hg : 1 < g) : ¬ Snapshots .little zero (tornItems b b') 32 0x1000 D 0 1 0 g 0#32 := by
  rintro ⟨K, h1, h2⟩
  have h3 := h2 32 0x2000 1 .relaxed 1#32 ⟨rfl, rfl⟩ (by decide) hg (torn_loads b b').2.1
  have hK : K = 0 := by
    rcases h1 with ⟨k, _, g2, _⟩ | ⟨_, g2⟩
    · exact absurd (torn_stores g2).2.1 (by decide)
    · rcases Nat.eq_zero_or_pos K with h | h
      · exact h
      · exact absurd ⟨vodd, .relaxed, rfl, rfl⟩ (g2 0 1#32 h)
  subst hK
  rcases h3 with ⟨_, h, _⟩ | ⟨h, _⟩
  · cases h
  · rw [zero_load] at h
    cases h

/-- C61: the reader needs its acquire fence. All other hypotheses of C61 hold of this execution (an Armv7 that need not be multi-copy atomic), but
what the reader has loaded is no snapshot. -/
theorem C61_reader_needs_fence : ∃ (X : AxShape 32) (rf : Node → Nat → Option Node) (items : Nat → List (Item 32)),
    RAExec armv7.imp X rf ∧
    SeqlockRun armv7 (fun _ => True) X 2 items 32 0x1000 D Stable 0
      (fun f => ∃ o p, (items 0)[f]? = some (.other o) ∧ o.ev = .fence p ∧ p.rw = true ∧ p.ww = true) ∧
    SolelyStored items 32 0x1000 D 0 ∧ Stable 0#32 ∧
    LoadsAt items 1 32 0x1000 0 .acquire 0#32 ∧ LoadsAt items 1 32 0x1000 3 .relaxed 0#32 ∧
    ¬ Snapshots .little X.m0 items 32 0x1000 D 0 1 0 2 0#32 :=
  ⟨tornShape true false, _, tornItems true false, (torn_matches true false).raExec (h := time1) (by decide) (by decide),
    torn_run true false ⟨bar true, .full, rfl, rfl, rfl, rfl⟩, torn_sole _ _, by decide, (torn_loads _ _).1, (torn_loads _ _).2.2,
    torn _ _ 2 (by decide)⟩

/-- C61: the writer needs its release fence. All other hypotheses of C61 hold of this execution. -/
theorem C61_writer_needs_fence : ∃ (X : AxShape 32) (rf : Node → Nat → Option Node) (items : Nat → List (Item 32)),
    RAExec armv7.imp X rf ∧
    SeqlockRun armv7 (fun _ => True) X 2 items 32 0x1000 D Stable 0 (fun _ => True) ∧
    SolelyStored items 32 0x1000 D 0 ∧ Stable 0#32 ∧
    LoadsAt items 1 32 0x1000 0 .acquire 0#32 ∧
    (∃ o p, (items 1)[2]? = some (.other o) ∧ o.ev = .fence p ∧ p.rr = true ∧ p.rw = true) ∧ LoadsAt items 1 32 0x1000 3 .relaxed 0#32 ∧
    ¬ Snapshots .little X.m0 items 32 0x1000 D 0 1 0 2 0#32 :=
  ⟨tornShape false true, _, tornItems false true, (torn_matches false true).raExec (h := time2) (by decide) (by decide),
    torn_run false true trivial, torn_sole _ _, by decide, (torn_loads _ _).1, ⟨bar true, .full, rfl, rfl, rfl, rfl⟩, (torn_loads _ _).2.2,
    torn _ _ 2 (by decide)⟩

end IRIW
end Verif
