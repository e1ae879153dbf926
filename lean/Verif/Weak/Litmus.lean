/-
Litmus tests with plain 32-bit loads and stores and barriers, as executions of machines that need not be multi-copy atomic:
a test is given as lists of events, and a finite check shows that it is a consistent execution. Used only for
examples of executions.
-/
import Verif.Weak.NonMCA
import Verif.Weak.NonMCASync

namespace Verif

/-- An event of a litmus test: a load of object `k` that takes its value from the store at `src` (thread, position), a store
to object `k` with its place in the coherence order, a barrier (full or not), anything else. -/
inductive LE where
  | rd (k : Nat) (src : Option (Nat × Nat))
  | wr (k : Nat) (rank : Nat)
  | fence (full : Bool)
  | tau
deriving DecidableEq

/-- The events of each thread. -/
abbrev LTest := List (List LE)

namespace LTest
/-- address of object `k` -/
def adr (k : Nat) : Nat := 0x1000 * (k + 1)
def get (T : LTest) (t p : Nat) : Option LE := (T[t]?.getD [])[p]?
def rankAt (T : LTest) (t p : Nat) : Nat := match T.get t p with | some (.wr _ r) => r | _ => 0
def rank (T : LTest) (n : Node) : Nat := T.rankAt n.thread n.pos
def rf (T : LTest) (n : Node) (_ : Nat) : Option Node :=
  match T.get n.thread n.pos with | some (.rd _ (some (t, p))) => some ⟨t, p, .wr⟩ | _ => none

/-- instruction `o` is the event -/
def Fits {W : Nat} (X : AxShape W) : LE → Own W → Prop
  | .rd k src, o => o.ev = .rd .plain ∧ o.ins.access o.rs = some (adr k, 32) ∧ o.ins.rdFoot o.rs = (adr k, 4) ∧ o.ins.isLL = false ∧
    match src with
    | none => o.m = X.m0
    | some (t, p) => ∃ o', (X.po t)[p]? = some o' ∧ o.m = o'.m'
  | .wr k _, o => o.ev = .wr .plain ∧ o.ins.access o.rs = some (adr k, 32) ∧ o.ins.wrFoot o.rs = (adr k, 4)
  | .fence b, o => o.ev = .fence (if b then .full else .none)
  | .tau, o => o.ev = .tau

/-- all events with their places -/
def nodes (T : LTest) : List (Nat × Nat × LE) := T.zipIdx.flatMap fun z => z.1.zipIdx.map fun y => (z.2, y.2, y.1)

theorem mem_nodes {T : LTest} {t p : Nat} {l : LE} (h : T.get t p = some l) : (t, p, l) ∈ T.nodes := by
  unfold get at h
  cases hT : T[t]? with
  | none => rw [hT] at h; simp at h
  | some ls =>
    rw [hT] at h
    simp only [Option.getD_some] at h
    refine List.mem_flatMap.2 ⟨(ls, t), List.mk_mem_zipIdx_iff_getElem?.2 hT, List.mem_map.2 ⟨(l, p), ?_, rfl⟩⟩
    exact List.mk_mem_zipIdx_iff_getElem?.2 h

/-- the conditions on single events -/
def Ok1 (T : LTest) (h : Nat → Nat → Nat) (t p : Nat) : LE → Prop
  | .rd k (some (t', p')) => (∃ r, T.get t' p' = some (.wr k r)) ∧ h t' p' ≤ h t p
  | _ => True

/-- the conditions on pairs of events -/
def Ok2 (T : LTest) (h : Nat → Nat → Nat) (t p t' p' : Nat) : LE → LE → Prop
  | .wr k r, .wr k' r' => (r = r' → t = t' ∧ p = p') ∧ (k = k' → (t = t' → p < p' → r < r') ∧ (r < r' → h t p ≤ h t' p'))
  | .rd k none, .wr k' _ => k = k' → h t p ≤ h t' p'
  | .rd k (some s), .wr k' r' => k = k' → (t = t' → p < p' → T.rankAt s.1 s.2 < r') ∧ (T.rankAt s.1 s.2 < r' → h t p ≤ h t' p')
  | .wr k _, .rd k' none => k = k' → t = t' → ¬ p < p'
  | .wr k r, .rd k' (some s) => k = k' → t = t' → p < p' → r ≤ T.rankAt s.1 s.2
  | .rd k (some _), .rd k' none => k = k' → t = t' → ¬ p < p'
  | .rd k (some s), .rd k' (some s') => k = k' → t = t' → p < p' → T.rankAt s.1 s.2 ≤ T.rankAt s'.1 s'.2
  | _, _ => True

/-- the condition on a full barrier -/
def Ok3 (h : Nat → Nat → Nat) (t p t' p' t'' q : Nat) : LE → LE → LE → Prop
  | .fence _, _, _ | _, .fence _, _ | .tau, _, _ | _, .tau, _ => True
  | _, _, .fence true => t = t' → t = t'' → p < q → q < p' → h t p < h t' p'
  | _, _, _ => True

instance (T : LTest) (h : Nat → Nat → Nat) (t p : Nat) (l : LE) : Decidable (Ok1 T h t p l) := by
  unfold Ok1
  split
  · rename_i k t' p'
    cases hg : T.get t' p' with
    | none => exact isFalse fun ⟨⟨_, h⟩, _⟩ => nomatch h
    | some l =>
      cases l with
      | wr k' r =>
        by_cases hk : k' = k
        · subst hk
          exact if hh : h t' p' ≤ h t p then isTrue ⟨⟨r, rfl⟩, hh⟩ else isFalse fun h => hh h.2
        · exact isFalse fun ⟨⟨_, h⟩, _⟩ => hk (by injection h with h; injection h)
      | rd _ _ => exact isFalse fun ⟨⟨_, h⟩, _⟩ => nomatch h
      | fence _ => exact isFalse fun ⟨⟨_, h⟩, _⟩ => nomatch h
      | tau => exact isFalse fun ⟨⟨_, h⟩, _⟩ => nomatch h
  · exact isTrue trivial
instance (T : LTest) (h : Nat → Nat → Nat) (t p t' p' : Nat) (l l' : LE) : Decidable (Ok2 T h t p t' p' l l') := by
  unfold Ok2; split <;> infer_instance
instance (h : Nat → Nat → Nat) (t p t' p' t'' q : Nat) (l l' l'' : LE) : Decidable (Ok3 h t p t' p' t'' q l l' l'') := by
  unfold Ok3; split <;> infer_instance

/-- the finite check -/
def Check (T : LTest) (h : Nat → Nat → Nat) : Prop :=
  (∀ a ∈ T.nodes, Ok1 T h a.1 a.2.1 a.2.2) ∧
  (∀ a ∈ T.nodes, ∀ b ∈ T.nodes, Ok2 T h a.1 a.2.1 b.1 b.2.1 a.2.2 b.2.2) ∧
  ∀ a ∈ T.nodes, ∀ b ∈ T.nodes, ∀ c ∈ T.nodes, Ok3 h a.1 a.2.1 b.1 b.2.1 c.1 c.2.1 a.2.2 b.2.2 c.2.2
instance (T : LTest) (h : Nat → Nat → Nat) : Decidable (Check T h) := by unfold Check; infer_instance

/-- `X` is an execution of the instructions of the test -/
structure Matches {W : Nat} (T : LTest) (X : AxShape W) : Prop where
  rank : X.rank = T.rank
  fits : ∀ t p o, (X.po t)[p]? = some o → ∃ l, T.get t p = some l ∧ Fits X l o

/-- the instructions are the events -/
def FitsAll {W : Nat} (X : AxShape W) : List LE → List (Own W) → Prop
  | [], [] => True
  | l :: ls, o :: os => Fits X l o ∧ FitsAll X ls os
  | _, _ => False

theorem FitsAll.append {W : Nat} {X : AxShape W} : ∀ {ls ls' : List LE} {os os' : List (Own W)}, FitsAll X ls os → FitsAll X ls' os' →
    FitsAll X (ls ++ ls') (os ++ os')
  | [], _, [], _, _, h => h
  | _ :: _, _, _ :: _, _, h, h' => ⟨h.1, h.2.append h'⟩
  | [], _, _ :: _, _, h, _ => h.elim
  | _ :: _, _, [], _, h, _ => h.elim

theorem FitsAll.get {W : Nat} {X : AxShape W} : ∀ {ls : List LE} {os : List (Own W)}, FitsAll X ls os → ∀ {p : Nat} {o : Own W},
    os[p]? = some o → ∃ l, ls[p]? = some l ∧ Fits X l o
  | [], [], _, _, _, h => by simp at h
  | l :: _, _ :: _, h, 0, _, hp => by
    simp only [List.getElem?_cons_zero, Option.some.injEq] at hp
    subst hp
    exact ⟨l, rfl, h.1⟩
  | _ :: _, _ :: _, h, p + 1, _, hp => by
    simp only [List.getElem?_cons_succ] at hp ⊢
    exact h.2.get hp
  | [], _ :: _, h, _, _, _ => h.elim
  | _ :: _, [], h, _, _, _ => h.elim

theorem Matches.mk' {W : Nat} {T : LTest} {X : AxShape W} (hr : X.rank = T.rank) (h : ∀ t, FitsAll X (T[t]?.getD []) (X.po t)) :
    Matches T X := ⟨hr, fun t _ _ hp => (h t).get hp⟩

theorem adr_inj {k k' x : Nat} (h1 : adr k ≤ x) (h2 : x < adr k + 4) (h3 : adr k' ≤ x) (h4 : x < adr k' + 4) : k = k' := by
  unfold adr at *; omega

section
variable {W : Nat} {T : LTest} {X : AxShape W} (M : Matches T X)
include M

theorem Matches.rd {n : Node} {o : Own W} {x : Nat} (hat : X.At n o) (hk : n.kind = .rd) (hx : o.reads x) :
    ∃ k src, T.get n.thread n.pos = some (.rd k src) ∧ adr k ≤ x ∧ x < adr k + 4 ∧ Fits X (.rd k src) o := by
  obtain ⟨l, h1, h2⟩ := M.fits _ _ _ hat.1
  have hh := hat.2
  rw [hk] at hh
  cases l with
  | rd k src =>
    have h2' := h2
    obtain ⟨_, _, h3, _⟩ := h2'
    simp only [Own.reads, h3] at hx
    exact ⟨k, src, h1, hx.1, hx.2, h2⟩
  | wr k r => rw [h2.1] at hh; exact False.elim hh
  | fence b => rw [show o.ev = _ from h2] at hh; exact False.elim hh
  | tau => rw [show o.ev = .tau from h2] at hh; exact False.elim hh

theorem Matches.wr {n : Node} {o : Own W} {x : Nat} (hat : X.At n o) (hk : n.kind = .wr) (hx : o.writes x) :
    ∃ k r, T.get n.thread n.pos = some (.wr k r) ∧ adr k ≤ x ∧ x < adr k + 4 ∧ X.rank n = r := by
  obtain ⟨l, h1, h2⟩ := M.fits _ _ _ hat.1
  have hh := hat.2
  rw [hk] at hh
  cases l with
  | wr k r =>
    obtain ⟨_, _, h3⟩ := h2
    simp only [Own.writes, h3] at hx
    exact ⟨k, r, h1, hx.2.1, hx.2.2, by rw [M.rank]; simp [LTest.rank, rankAt, h1]⟩
  | rd k r => rw [h2.1] at hh; exact False.elim hh
  | fence b => rw [show o.ev = _ from h2] at hh; exact False.elim hh
  | tau => rw [show o.ev = .tau from h2] at hh; exact False.elim hh

theorem Matches.full {n : Node} {o : Own W} (hat : X.At n o) : o.ev.acc.full = false := by
  obtain ⟨l, h1, h2⟩ := M.fits _ _ _ hat.1
  cases l with
  | wr k r => rw [h2.1]; rfl
  | rd k r => rw [h2.1]; rfl
  | fence b => rw [show o.ev = _ from h2]; rfl
  | tau => rw [show o.ev = .tau from h2]; rfl

theorem Matches.rf_some {n w : Node} {x k : Nat} {src : Option (Nat × Nat)} (h : T.get n.thread n.pos = some (.rd k src))
    (hw : T.rf n x = some w) : ∃ s, src = some s ∧ w = ⟨s.1, s.2, .wr⟩ ∧ X.rank w = T.rankAt s.1 s.2 := by
  unfold rf at hw
  rw [h] at hw
  cases src with
  | none => cases hw
  | some s =>
    obtain ⟨a, b⟩ := s
    simp only [Option.some.injEq] at hw
    exact ⟨(a, b), rfl, hw.symm, by rw [M.rank, ← hw]; rfl⟩

omit M in
theorem rf_of {n : Node} {x k : Nat} {s : Nat × Nat} (h : T.get n.thread n.pos = some (.rd k (some s))) :
    T.rf n x = some ⟨s.1, s.2, .wr⟩ := by
  unfold rf; rw [h]

/-- accesses with a barrier between them -/
theorem Matches.fence_lt {h : Nat → Nat → Nat}
    (h3 : ∀ a ∈ T.nodes, ∀ b ∈ T.nodes, ∀ c ∈ T.nodes, Ok3 h a.1 a.2.1 b.1 b.2.1 c.1 c.2.1 a.2.2 b.2.2 c.2.2) {a b : Node} {oa ob o : Own W}
    {q : Nat} {p : Pairs} (ht : a.thread = b.thread) (ha : X.At a oa) (hb : X.At b ob) (g1 : a.pos < q) (g2 : q < b.pos)
    (g3 : (X.po a.thread)[q]? = some o) (g4 : o.ev = .fence p) (g5 : p ≠ .none) : h a.thread a.pos < h b.thread b.pos := by
  obtain ⟨la, ga, fa⟩ := M.fits _ _ _ ha.1
  obtain ⟨lb, gb, fb⟩ := M.fits _ _ _ hb.1
  obtain ⟨lc, gc, fc⟩ := M.fits _ _ _ g3
  have hlc : lc = .fence true := by
    cases lc with
    | fence b =>
      rw [show o.ev = _ from fc] at g4
      cases b with
      | true => rfl
      | false => cases g4; exact absurd rfl g5
    | wr k r => rw [fc.1] at g4; cases g4
    | rd k r => rw [fc.1] at g4; cases g4
    | tau => rw [show o.ev = .tau from fc] at g4; cases g4
  subst hlc
  have := h3 _ (mem_nodes ga) _ (mem_nodes gb) _ (mem_nodes gc)
  have acc : ∀ {l : LE} {n : Node} {o : Own W}, X.At n o → Fits X l o → (∃ k s, l = .rd k s) ∨ ∃ k r, l = .wr k r := by
    rintro l n o ⟨_, hh⟩ hf
    cases l with
    | rd k s => exact .inl ⟨_, _, rfl⟩
    | wr k s => exact .inr ⟨_, _, rfl⟩
    | fence b => rw [show o.ev = _ from hf] at hh; exact False.elim hh
    | tau => rw [show o.ev = .tau from hf] at hh; exact False.elim hh
  rcases acc ha fa with ⟨_, _, rfl⟩ | ⟨_, _, rfl⟩ <;> rcases acc hb fb with ⟨_, _, rfl⟩ | ⟨_, _, rfl⟩ <;>
    exact this ht rfl g1 g2

/-- A test that passes the check is a consistent execution. -/
theorem Matches.nmExec {h : Nat → Nat → Nat} (hc : Check T h) : NMExec X T.rf := by
  obtain ⟨h1, h2, h3⟩ := hc
  have one : ∀ {t p l}, T.get t p = some l → Ok1 T h t p l := fun hg => h1 _ (mem_nodes hg)
  have two : ∀ {t p l t' p' l'}, T.get t p = some l → T.get t' p' = some l' → Ok2 T h t p t' p' l l' :=
    fun hg hg' => h2 _ (mem_nodes hg) _ (mem_nodes hg')
  have rk : ∀ t p k, X.rank ⟨t, p, k⟩ = T.rankAt t p := fun _ _ _ => by rw [M.rank]; rfl
  refine { value := ?_, inj := ?_, single := ?_, coWW := ?_, coRW := ?_, coWR := ?_, coRR := ?_, rmw := ?_, llsc := ?_, propagation := ?_ }
  · intro n o x hat hk hx
    obtain ⟨k, src, g1, g2, g3, g4⟩ := M.rd hat hk hx
    obtain ⟨_, _, _, _, g4⟩ := g4
    refine ⟨fun w hw => ?_, fun hn => ?_⟩
    · obtain ⟨s, rfl, rfl, _⟩ := M.rf_some g1 hw
      obtain ⟨o', g5, g6⟩ := g4
      obtain ⟨⟨r, g7⟩, _⟩ := one g1
      obtain ⟨l, g8, g9⟩ := M.fits _ _ _ g5
      rw [g7] at g8
      cases g8
      obtain ⟨e1, e2, e3⟩ := g9
      refine ⟨rfl, o', ⟨g5, by rw [e1]; trivial⟩, ⟨by rw [e1]; rfl, by rw [e3]; exact g2, by rw [e3]; exact g3⟩, ?_⟩
      rw [g6]
    · cases src with
      | none => rw [show o.m = X.m0 from g4]
      | some s => rw [rf_of g1] at hn; cases hn
  · rintro ⟨t, p, kd⟩ o x ⟨t', p', kd'⟩ o' x' ⟨ha, hk, _, hx⟩ ⟨ha', hk', _, hx'⟩ hr
    obtain ⟨k, r, g1, _, _, g2⟩ := M.wr ha hk hx
    obtain ⟨k', r', g1', _, _, g2'⟩ := M.wr ha' hk' hx'
    simp only at hk hk'
    obtain ⟨rfl, rfl⟩ := (two g1 g1').1 (by omega)
    rw [hk, hk']
  · intro n o x y w o' ⟨ha, hk, _, hx⟩ ⟨_, _, _, hy⟩ hrf hw
    refine ⟨w, ?_, Nat.le_refl _⟩
    exact hrf
  · intro n n' o o' x ht hp ⟨ha, hk, _, hx⟩ ⟨ha', hk', _, hx'⟩
    obtain ⟨k, r, g1, i1, i2, g2⟩ := M.wr ha hk hx
    obtain ⟨k', r', g1', i1', i2', g2'⟩ := M.wr ha' hk' hx'
    rw [g2, g2']
    exact ((two g1 g1').2 (adr_inj i1 i2 i1' i2')).1 ht hp
  · intro n n' o o' x w ht hp ⟨ha, hk, _, hx⟩ ⟨ha', hk', _, hx'⟩ hrf
    obtain ⟨k, src, g1, i1, i2, _⟩ := M.rd ha hk hx
    obtain ⟨k', r', g1', i1', i2', g2'⟩ := M.wr ha' hk' hx'
    obtain ⟨s, rfl, rfl, g3⟩ := M.rf_some g1 hrf
    rw [g3, g2']
    exact ((two g1 g1') (adr_inj i1 i2 i1' i2')).1 ht hp
  · intro n n' o o' x ht hp ⟨ha, hk, _, hx⟩ ⟨ha', hk', _, hx'⟩
    obtain ⟨k, r, g1, i1, i2, g2⟩ := M.wr ha hk hx
    obtain ⟨k', src, g1', i1', i2', _⟩ := M.rd ha' hk' hx'
    have hkk := adr_inj i1 i2 i1' i2'
    cases src with
    | none => exact absurd hp ((two g1 g1') hkk ht)
    | some s => exact ⟨_, rf_of g1', by rw [g2, rk]; exact (two g1 g1') hkk ht hp⟩
  · intro n n' o o' x w ht hp ⟨ha, hk, _, hx⟩ ⟨ha', hk', _, hx'⟩ hrf
    obtain ⟨k, src, g1, i1, i2, _⟩ := M.rd ha hk hx
    obtain ⟨k', src', g1', i1', i2', _⟩ := M.rd ha' hk' hx'
    have hkk := adr_inj i1 i2 i1' i2'
    obtain ⟨s, rfl, rfl, g3⟩ := M.rf_some g1 hrf
    cases src' with
    | none => exact absurd hp ((two g1 g1') hkk ht)
    | some s' => exact ⟨_, rf_of g1', by rw [g3, rk]; exact (two g1 g1') hkk ht hp⟩
  · intro n n' o x ht hp ⟨ha, hk, _, hx⟩ ⟨ha', hk', _, hx'⟩
    obtain ⟨k, src, g1, i1, i2, _⟩ := M.rd ha hk hx
    obtain ⟨k', r', g1', i1', i2', g2'⟩ := M.wr ha' hk' hx'
    rw [ht, hp, g1'] at g1
    cases g1
  · intro n n' l s x ht hp ⟨ha, hk, _, hx⟩ _ hl
    obtain ⟨k, src, g1, i1, i2, g2⟩ := M.rd ha hk hx
    rw [g2.2.2.2.1] at hl
    cases hl
  · have hcom : ∀ a b, X.Com T.rf a b → h a.thread a.pos ≤ h b.thread b.pos := by
      rintro a b ⟨o, o', x, ⟨⟨ha, hk, _, hx⟩, ⟨ha', hk', _, hx'⟩, hrf⟩ | ⟨⟨ha, hk, _, hx⟩, ⟨ha', hk', _, hx'⟩, hr⟩ |
        ⟨⟨ha, hk, _, hx⟩, ⟨ha', hk', _, hx'⟩, hr⟩⟩
      · obtain ⟨k', src', g1', i1', i2', _⟩ := M.rd ha' hk' hx'
        obtain ⟨s, rfl, rfl, g3⟩ := M.rf_some g1' hrf
        exact (one g1').2
      · obtain ⟨k, r, g1, i1, i2, g2⟩ := M.wr ha hk hx
        obtain ⟨k', r', g1', i1', i2', g2'⟩ := M.wr ha' hk' hx'
        exact ((two g1 g1').2 (adr_inj i1 i2 i1' i2')).2 (by omega)
      · obtain ⟨k, src, g1, i1, i2, _⟩ := M.rd ha hk hx
        obtain ⟨k', r', g1', i1', i2', g2'⟩ := M.wr ha' hk' hx'
        have hkk := adr_inj i1 i2 i1' i2'
        cases src with
        | none => exact two g1 g1' hkk
        | some s =>
          refine (two g1 g1' hkk).2 ?_
          have := hr _ (rf_of g1)
          rw [rk, g2'] at this
          exact this
    have hstar : ∀ a b, Star (X.Com T.rf) a b → h a.thread a.pos ≤ h b.thread b.pos := by
      intro a b hs
      induction hs with
      | refl => exact Nat.le_refl _
      | tail _ hs ih => exact Nat.le_trans ih (hcom _ _ hs)
    have hfen : ∀ a b, X.Fenced a b → h a.thread a.pos < h b.thread b.pos := by
      rintro a b ⟨ht, hp, oa, ob, ha, hb, ⟨q, o, p, g1, g2, g3, g4, g5⟩ | hf | hf⟩
      · exact M.fence_lt h3 ht ha hb g1 g2 g3 g4 fun hn => by rw [hn] at g5; cases g5
      · rw [M.full ha] at hf; cases hf
      · rw [M.full hb] at hf; cases hf
    have hplus : ∀ a b, Plus (fun a b => ∃ c, Star (X.Com T.rf) a c ∧ X.Fenced c b) a b → h a.thread a.pos < h b.thread b.pos := by
      intro a b hp
      induction hp with
      | one hs => obtain ⟨c, h1, h2⟩ := hs; exact Nat.lt_of_le_of_lt (hstar _ _ h1) (hfen _ _ h2)
      | tail _ hs ih =>
        obtain ⟨c, h1, h2⟩ := hs
        exact Nat.lt_trans ih (Nat.lt_of_le_of_lt (hstar _ _ h1) (hfen _ _ h2))
    intro n hn
    exact Nat.lt_irrefl _ (hplus _ _ hn)
end
/-- what `RAExec` needs in addition -/
def Strict1 (h : Nat → Nat → Nat) (t p : Nat) : LE → Prop
  | .rd _ (some (t', p')) => t' ≠ t → h t' p' < h t p
  | _ => True
def Strict2 (h : Nat → Nat → Nat) (t p t' p' : Nat) : LE → LE → Prop
  | .wr k r, .wr k' r' => k = k' → r < r' → h t p < h t' p'
  | _, _ => True
instance (h : Nat → Nat → Nat) (t p : Nat) (l : LE) : Decidable (Strict1 h t p l) := by unfold Strict1; split <;> infer_instance
instance (h : Nat → Nat → Nat) (t p t' p' : Nat) (l l' : LE) : Decidable (Strict2 h t p t' p' l l') := by
  unfold Strict2; split <;> infer_instance
/-- the finite check for `RAExec` -/
def Strict (T : LTest) (h : Nat → Nat → Nat) : Prop :=
  (∀ a ∈ T.nodes, Strict1 h a.1 a.2.1 a.2.2) ∧ ∀ a ∈ T.nodes, ∀ b ∈ T.nodes, Strict2 h a.1 a.2.1 b.1 b.2.1 a.2.2 b.2.2
instance (T : LTest) (h : Nat → Nat → Nat) : Decidable (Strict T h) := by unfold Strict; infer_instance

/-- A test that passes both checks is a consistent execution. -/
theorem Matches.raExec {W : Nat} {T : LTest} {X : AxShape W} (M : Matches T X) {h : Nat → Nat → Nat} (hc : Check T h) (hs : Strict T h) :
    RAExec .none X T.rf := by
  have coh := (M.nmExec hc).toCohExec
  obtain ⟨h1, h2, h3⟩ := hc
  have two : ∀ {t p l t' p' l'}, T.get t p = some l → T.get t' p' = some l' → Ok2 T h t p t' p' l l' :=
    fun hg hg' => h2 _ (mem_nodes hg) _ (mem_nodes hg')
  have plain : ∀ {n o}, X.At n o → o.ev.acc.aq = false ∧ o.ev.acc.rl = false := by
    intro n o hat
    obtain ⟨l, _, hf⟩ := M.fits _ _ _ hat.1
    cases l with
    | rd k s => rw [hf.1]; exact ⟨rfl, rfl⟩
    | wr k s => rw [hf.1]; exact ⟨rfl, rfl⟩
    | fence b => rw [show o.ev = _ from hf]; exact ⟨rfl, rfl⟩
    | tau => rw [show o.ev = _ from hf]; exact ⟨rfl, rfl⟩
  have ext : ∀ a b, X.ReadsOther T.rf a b → h a.thread a.pos < h b.thread b.pos := by
    rintro a b ⟨ht, o, o', x, _, ⟨hb, hk, _, hx⟩, hrf⟩
    obtain ⟨k, src, g1, _, _, _⟩ := M.rd hb hk hx
    obtain ⟨s, rfl, rfl, _⟩ := M.rf_some g1 hrf
    exact hs.1 _ (mem_nodes g1) ht
  have hb : ∀ a b, X.Hb .none T.rf a b → h a.thread a.pos < h b.thread b.pos := by
    rintro a b (⟨ht, _, x, y, hx, hy, kx, ky, hh⟩ | hh | ⟨ht, hka, hkb, l, s, hl, hs', hp⟩)
    · rw [List.getElem?_map] at hx hy
      obtain ⟨oa, hoa, rfl⟩ := Option.map_eq_some_iff.1 hx
      obtain ⟨ob, hob, rfl⟩ := Option.map_eq_some_iff.1 hy
      have hA : X.At a oa := ⟨hoa, kx⟩
      have hB : X.At b ob := ⟨by rw [← ht]; exact hob, ky⟩
      rcases hh with hh | ⟨n, p, i1, i2, i3, i4⟩ | hh | hh | ⟨_, hh⟩ | ⟨_, hh⟩ | ⟨_, _, hh, _⟩
      · cases hka : a.kind <;> cases hkb : b.kind <;> rw [hka, hkb] at hh <;> cases hh
      · rw [List.getElem?_map] at i3
        obtain ⟨o, ho, hev⟩ := Option.map_eq_some_iff.1 i3
        refine M.fence_lt h3 ht hA hB i1 i2 ho hev fun hn => ?_
        rw [hn] at i4
        cases hka : a.kind <;> cases hkb : b.kind <;> rw [hka, hkb] at i4 <;> cases i4
      · rw [M.full hA] at hh; cases hh
      · rw [M.full hB] at hh; cases hh
      · rw [(plain hA).1] at hh; cases hh
      · rw [(plain hB).2] at hh; cases hh
      · rw [(plain hA).2] at hh; cases hh
    · exact ext _ _ hh
    · exfalso
      have rl : ∀ {n o}, X.At n o → n.kind = .rd → o.ev = .rd .plain ∧ o.ins.isLL = false := by
        intro n o hat hk
        have hh := hat.2
        rw [hk] at hh
        obtain ⟨l, _, hf⟩ := M.fits _ _ _ hat.1
        cases l with
        | rd k s => exact ⟨hf.1, hf.2.2.2.1⟩
        | wr k s => rw [hf.1] at hh; exact False.elim hh
        | fence b => rw [show o.ev = _ from hf] at hh; exact False.elim hh
        | tau => rw [show o.ev = _ from hf] at hh; exact False.elim hh
      rcases hp with hp | ⟨_, hp, _⟩
      · have : l = s := by
          have := hl.1
          rw [ht, hp, hs'.1] at this
          simpa using this.symm
        subst this
        have hh := hs'.2
        rw [hkb, (rl hl hka).1] at hh
        exact False.elim hh
      · rw [(rl hl hka).2] at hp; cases hp
  have star : ∀ a b, Star (X.Hb .none T.rf) a b → h a.thread a.pos ≤ h b.thread b.pos := by
    intro a b hs
    induction hs with
    | refl => exact Nat.le_refl _
    | tail _ hs ih => exact Nat.le_trans ih (Nat.le_of_lt (hb _ _ hs))
  have plus : ∀ {R : Node → Node → Prop} (_ : ∀ a b, R a b → h a.thread a.pos < h b.thread b.pos) a b, Plus R a b →
      h a.thread a.pos < h b.thread b.pos := by
    intro R hR a b hp
    induction hp with
    | one hs => exact hR _ _ hs
    | tail _ hs ih => exact Nat.lt_trans ih (hR _ _ hs)
  have cum : ∀ a b, X.Cumul a b → h a.thread a.pos < h b.thread b.pos := by
    rintro a b ⟨ht, hp, oa, ob, ha, hb, ⟨q, o, p, g1, g2, g3, g4, g5, _⟩ | hf | hf⟩
    · exact M.fence_lt h3 ht ha hb g1 g2 g3 g4 fun hn => by rw [hn] at g5; cases g5
    · rw [M.full ha] at hf; cases hf
    · rw [M.full hb] at hf; cases hf
  have prop : ∀ a b, X.Propagates .none T.rf a b → h a.thread a.pos < h b.thread b.pos := by
    rintro a b ⟨_, _, c, d, hc | hc, hcd, hd⟩
    · subst hc; exact Nat.lt_of_lt_of_le (cum _ _ hcd) (star _ _ hd)
    · exact Nat.lt_trans (ext _ _ hc) (Nat.lt_of_lt_of_le (cum _ _ hcd) (star _ _ hd))
  refine { coh with thinAir := fun n hn => Nat.lt_irrefl _ (plus hb _ _ hn), observation := ?_, propagation := fun n hn => Nat.lt_irrefl _ (plus ?_ _ _ hn) }
  · intro a b c o o' x hA hB _ hfr hp hcb
    have i1 := Nat.lt_of_lt_of_le (prop _ _ hp) (star _ _ hcb)
    obtain ⟨k, r, g1, i1', i2', g2⟩ := M.wr hA.1 hA.2.1 hA.2.2.2
    obtain ⟨k', src, g1', i1'', i2'', _⟩ := M.rd hB.1 hB.2.1 hB.2.2.2
    have hkk := adr_inj i1'' i2'' i1' i2'
    have : h b.thread b.pos ≤ h a.thread a.pos := by
      cases src with
      | none => exact two g1' g1 hkk
      | some s =>
        refine (two g1' g1 hkk).2 ?_
        have := hfr _ (rf_of g1')
        rw [M.rank] at this g2
        rw [g2] at this
        exact this
    omega
  · rintro a b (⟨o, o', x, hA, hB, hr⟩ | hp)
    · obtain ⟨k, r, g1, i1, i2, g2⟩ := M.wr hA.1 hA.2.1 hA.2.2.2
      obtain ⟨k', r', g1', i1', i2', g2'⟩ := M.wr hB.1 hB.2.1 hB.2.2.2
      exact hs.2 _ (mem_nodes g1) _ (mem_nodes g1') (adr_inj i1 i2 i1' i2') (by omega)
    · exact prop _ _ hp
end LTest
end Verif
