/-
Annotated programs and the soundness of their verification conditions, for all runs.
-/
import Verif.Core.Local
import Verif.Core.Attr

namespace Verif

/-- Auxiliary (ghost) state: memory seen by the last load-linked, last access of the thread (memory
before/after), and the ordering monitor. -/
structure Ghost where
  snap : Mem
  last : Option (Mem × Mem)
  mon : Mon

namespace Ghost
/-- no own write so far -/
@[reducible] def Clean (g : Ghost) : Prop := g.mon.wr = none
def fence (g : Ghost) (p : Pairs) : Ghost := { g with mon := g.mon.onFence p }
def rd (g : Ghost) (a : Acc) (m : Mem) : Ghost := { g with last := some (m, m), mon := g.mon.onRd a }
def ll (g : Ghost) (a : Acc) (m : Mem) : Ghost :=
  { snap := m, last := some (m, m), mon := g.mon.onRd a }
def wr (g : Ghost) (a : Acc) (m m' : Mem) : Ghost :=
  { g with last := some (m, m'), mon := g.mon.onWr a }
def rmw (g : Ghost) (a : Acc) (m m' : Mem) : Ghost :=
  { g with last := some (m, m'), mon := (g.mon.onRd a).onWr a }
end Ghost

/-- Assertions. -/
abbrev Assn (W : Nat) := RS W → Ghost → Prop

/-- Weakest precondition of the instruction at index `i`, given the assertions `at'` at the program
points: all outcomes of the instruction, for all memories the environment may have produced. -/
def wpIns (e : Endian) {W : Nat} (at' : Nat → Assn W) (i : Nat) : Instr W → Assn W
  | .op f => fun rs g => ∀ o, at' (i + 1) (f o rs) g
  | .fence p => fun rs g => at' (i + 1) rs (g.fence p)
  | .br c t => fun rs g => if c rs = true then at' t rs g else at' (i + 1) rs g
  | .ld acc addr w k => fun rs g => ∀ m,
      g.Clean ∧ at' (i + 1) (k (load e m (addr rs) w) rs) (g.rd acc m)
  | .st acc addr w v => fun rs g => ∀ m,
      g.Clean ∧ at' (i + 1) rs (g.wr acc m (store e m (addr rs) w (v rs)))
  | .ll acc tear addr w k => fun rs g => ∀ m,
      g.Clean ∧ at' (i + 1) (k (load e m (addr rs) w) rs) (g.ll acc m) ∧
      (tear = true → ∀ mt,
        at' (i + 1) (k (load e mt (addr rs) w) rs) { g.rd acc m with snap := mt })
  | .sc acc addr w v k => fun rs g =>
      (∀ j, at' (i + 1) (k false j rs) g) ∧
      ∀ m j, Agree m g.snap (addr rs) (w / 8) →
        g.Clean ∧ at' (i + 1) (k true j rs) (g.wr acc m (store e m (addr rs) w (v rs)))
  | .rmw acc addr w f k => fun rs g => ∀ m,
      g.Clean ∧
      (f rs (load e m (addr rs) w) = none → at' (i + 1) (k (load e m (addr rs) w) rs) (g.rd acc m)) ∧
      (∀ y, f rs (load e m (addr rs) w) = some y →
        at' (i + 1) (k (load e m (addr rs) w) rs) (g.rmw acc m (store e m (addr rs) w y)))
  | .clrex => fun rs g => at' (i + 1) rs g

theorem wpIns_mono {e : Endian} {W : Nat} {at1 at2 : Nat → Assn W}
    (h : ∀ pc rs g, at1 pc rs g → at2 pc rs g) {i : Nat} {ins : Instr W} {rs : RS W} {g : Ghost}
    (hw : wpIns e at1 i ins rs g) : wpIns e at2 i ins rs g := by
  cases ins with
  | op f => exact fun o => h _ _ _ (hw o)
  | fence p => exact h _ _ _ hw
  | br c t =>
    simp only [wpIns] at hw ⊢
    split
    · rename_i hc; rw [if_pos hc] at hw; exact h _ _ _ hw
    · rename_i hc; rw [if_neg hc] at hw; exact h _ _ _ hw
  | ld acc addr w k => exact fun m => ⟨(hw m).1, h _ _ _ (hw m).2⟩
  | st acc addr w v => exact fun m => ⟨(hw m).1, h _ _ _ (hw m).2⟩
  | ll acc tear addr w k =>
    exact fun m => ⟨(hw m).1, h _ _ _ (hw m).2.1, fun ht mt => h _ _ _ ((hw m).2.2 ht mt)⟩
  | sc acc addr w v k =>
    exact ⟨fun j => h _ _ _ (hw.1 j), fun m j ha => ⟨(hw.2 m j ha).1, h _ _ _ (hw.2 m j ha).2⟩⟩
  | rmw acc addr w f k =>
    exact fun m => ⟨(hw m).1, fun hn => h _ _ _ ((hw m).2.1 hn), fun y hy => h _ _ _ ((hw m).2.2 y hy)⟩
  | clrex => exact h _ _ _ hw

/-- Cut points: program points with an explicit invariant (loop heads). -/
abbrev Cuts (W : Nat) := Nat → Option (Assn W)

mutual
/-- Weakest precondition of executing the instruction at `pc` and then continuing until a cut point or
the end of the program; `fuel` bounds the unfolding between cut points, not the executions. -/
def wpAt (e : Endian) {W : Nat} (P : List (Instr W)) (cut : Cuts W) (post : Assn W) :
    Nat → Nat → Assn W
  | 0, _ => fun _ _ => False
  | n + 1, pc =>
    match P[pc]? with
    | some ins => wpIns e (fun pc' => wp e P cut post n pc') pc ins
    | none => if pc = P.length then post else fun _ _ => False
/-- As `wpAt`, but at a cut point the invariant is required instead. -/
def wp (e : Endian) {W : Nat} (P : List (Instr W)) (cut : Cuts W) (post : Assn W) :
    Nat → Nat → Assn W
  | 0, _ => fun _ _ => False
  | n + 1, pc =>
    match cut pc with
    | some I => I
    | none => wpAt e P cut post n pc
end

theorem monOf_snoc (tr : List TEv) (x : TEv) : monOf (tr ++ [x]) = (monOf tr).onTEv x := by
  simp [monOf, List.foldl_append]

/-- The monitor knows whether there was a write. -/
theorem monOf_wr {W : Nat} {tr : List (LEv W)} (h : (monOf (tr.map LEv.erase)).wr = none) :
    ∀ x ∈ tr, x.isWrite = false := by
  rw [← List.reverse_reverse tr] at h ⊢
  generalize tr.reverse = u at h ⊢
  induction u with
  | nil => intro x hx; simp at hx
  | cons y t ih =>
    rw [List.reverse_cons] at h ⊢
    rw [List.map_append, List.map_singleton, monOf_snoc] at h
    intro x hx
    generalize t.reverse = t at *
    have ht : (monOf (t.map LEv.erase)).wr = none ∧ y.isWrite = false := by
      cases y with
      | env => exact ⟨h, rfl⟩
      | own ins rs ev m m' =>
        cases ev with
        | tau => exact ⟨h, rfl⟩
        | fence p => exact ⟨h, rfl⟩
        | rd a => exact ⟨h, rfl⟩
        | wr a => simp [LEv.erase, Mon.onTEv, Mon.onEv, Mon.onWr] at h
        | rmw a => simp [LEv.erase, Mon.onTEv, Mon.onEv, Mon.onWr] at h
    rcases List.mem_append.1 hx with hx | hx
    · exact ih ht.1 x hx
    · simp at hx; subst hx; exact ht.2

/-- The ghost state describes the trace so far; `I` is the assertion at the current program point and holds for every
memory the last access may have seen. -/
inductive GhostOK {W : Nat} (I : Ghost → Prop) (tr : List (LEv W)) (g : Ghost) : Prop
  | none (hmon : g.mon = monOf (tr.map LEv.erase)) (hg : I g) (hl : g.last = none)
  | some (hmon : g.mon = monOf (tr.map LEv.erase)) (hg : I g)
      (h : ∃ pre ins rs ev m m' post, tr = pre ++ LEv.own ins rs ev m m' :: post ∧ ev.isAccess = true ∧
        (∀ x ∈ pre, x.isWrite = false) ∧ (∀ x ∈ post, x.isAccess = false) ∧
        ∀ M, Agree M m (ins.rdFoot rs).1 (ins.rdFoot rs).2 →
          ∃ g', g'.last = some (M, afterAccess ins rs ev m' M) ∧ g'.mon = g.mon ∧ I g')

namespace GhostOK
variable {W : Nat} {I J : Ghost → Prop} {tr : List (LEv W)} {g : Ghost}
theorem mon (h : GhostOK I tr g) : g.mon = monOf (tr.map LEv.erase) := by cases h <;> assumption
theorem holds (h : GhostOK I tr g) : I g := by cases h <;> assumption

/-- an entry that is no access -/
theorem skip (h : GhostOK I tr g) (x : LEv W) (hx : x.isAccess = false) (f : Mon → Mon)
    (hf : (monOf (tr.map LEv.erase)).onTEv x.erase = f (monOf (tr.map LEv.erase)))
    (hIJ : ∀ g, I g → J { g with mon := f g.mon }) : GhostOK J (tr ++ [x]) { g with mon := f g.mon } := by
  have hm : f g.mon = monOf ((tr ++ [x]).map LEv.erase) := by
    rw [List.map_append, List.map_singleton, monOf_snoc, hf, ← h.mon]
  cases h with
  | none hmon hg hl => exact .none hm (hIJ _ hg) hl
  | some hmon hg h =>
    obtain ⟨pre, ins, rs, ev, m, m', post, rfl, h2, h3, h4, h5⟩ := h
    refine .some hm (hIJ _ hg) ⟨pre, ins, rs, ev, m, m', post ++ [x], by simp, h2, h3, ?_, ?_⟩
    · intro y hy
      rcases List.mem_append.1 hy with hy | hy
      · exact h4 _ hy
      · simp at hy; subst hy; exact hx
    · intro M hM
      obtain ⟨g', e1, e2, e3⟩ := h5 M hM
      exact ⟨{ g' with mon := f g'.mon }, e1, by show f g'.mon = f g.mon; rw [e2], hIJ _ e3⟩

theorem tau (h : GhostOK I tr g) (ins : Instr W) (rs m) (hIJ : ∀ g, I g → J g) :
    GhostOK J (tr ++ [.own ins rs .tau m m]) g := h.skip _ rfl id rfl hIJ
theorem env (h : GhostOK I tr g) (m m') : GhostOK I (tr ++ [.env m m']) g := h.skip _ rfl id rfl fun _ h => h
theorem fence (h : GhostOK I tr g) (ins : Instr W) (rs m) (p : Pairs) (hIJ : ∀ g, I g → J (g.fence p)) :
    GhostOK J (tr ++ [.own ins rs (.fence p) m m]) (g.fence p) := h.skip _ rfl (·.onFence p) rfl hIJ

/-- an access -/
theorem access (h : GhostOK I tr g) (hc : g.Clean) {ins : Instr W} {rs : RS W} {ev : Ev} (ha : ev.isAccess = true)
    {m m' : Mem} {g1 : Ghost} (hmon : g1.mon = g.mon.onEv ev) (hg1 : J g1)
    (hall : ∀ M, Agree M m (ins.rdFoot rs).1 (ins.rdFoot rs).2 →
      ∃ g', g'.last = Option.some (M, afterAccess ins rs ev m' M) ∧ g'.mon = g1.mon ∧ J g') :
    GhostOK J (tr ++ [.own ins rs ev m m']) g1 := by
  refine .some ?_ hg1 ⟨tr, ins, rs, ev, m, m', [], rfl, ha, ?_, by simp, hall⟩
  · rw [List.map_append, List.map_singleton, monOf_snoc, ← h.mon, hmon]; rfl
  · have : g.mon.wr = Option.none := hc
    rw [h.mon] at this
    exact monOf_wr this
end GhostOK

/-- The reservation, if any, covers bytes that still have the value the load-linked saw. -/
def ResvOK {W : Nat} (c : Cfg W) (g : Ghost) : Prop :=
  ∀ a n, c.resv = some (a, n) → Agree c.mem g.snap a n

/-- What the soundness proof assumes about the assertions at the program points. -/
structure Valid (e : Endian) {W : Nat} (P : List (Instr W)) (post : Assn W) (at' : Nat → Assn W) :
    Prop where
  ins : ∀ pc ins rs g, P[pc]? = some ins → at' pc rs g → wpIns e at' pc ins rs g
  fin : ∀ rs g, at' P.length rs g → post rs g

/-- Soundness: whatever the environment does, in every run the assertion at the current program point
holds of a ghost state that describes the trace. -/
theorem sound {e : Endian} {W : Nat} {P : List (Instr W)} {post : Assn W} {at' : Nat → Assn W}
    (hvc : Valid e P post at') {c0 : Cfg W} (hpc : c0.pc = 0)
    (h0 : at' 0 c0.rs { snap := c0.mem, last := none, mon := {} })
    {tr : List (LEv W)} {c : Cfg W} (hrun : LRun e P c0 tr c) :
    ∃ g, GhostOK (at' c.pc c.rs) tr g ∧ ResvOK c g := by
  induction hrun with
  | nil =>
    refine ⟨{ snap := c0.mem, last := none, mon := {} }, .none rfl ?_ rfl, ?_⟩
    · rw [hpc]; exact h0
    · intro a n _; exact Agree.refl _ _ _
  | env h m' r' hr ih =>
    rename_i tr c
    obtain ⟨g, h1, h2⟩ := ih
    refine ⟨g, h1.env _ _, ?_⟩
    intro a n hres
    simp only at hres
    rcases hr with hr | ⟨hr, hag⟩
    · rw [hr] at hres; cases hres
    · rw [hr] at hres
      intro x hx1 hx2
      show m' x = g.snap x
      rw [← hag a n hres x hx1 hx2]
      exact h2 a n hres x hx1 hx2
  | own h hi hs ih =>
    rename_i tr c i ev c'
    obtain ⟨g, h1, h2⟩ := ih
    have hv : ∀ g, at' c.pc c.rs g → wpIns e at' c.pc i c.rs g := fun g h => hvc.ins _ _ _ _ hi h
    have hv0 := hv g h1.holds
    cases hs with
    | op f _ o => exact ⟨g, h1.tau _ _ _ (fun g h => hv g h o), h2⟩
    | fence p => exact ⟨g.fence p, h1.fence _ _ _ p (fun g h => hv g h), h2⟩
    | br cond t =>
      refine ⟨g, h1.tau _ _ _ ?_, h2⟩
      intro g hg
      have hg := hv g hg
      cases hc : cond c.rs with
      | true => simpa [wpIns, hc] using hg
      | false => simpa [wpIns, hc] using hg
    | ld acc addr w k =>
      refine ⟨g.rd acc c.mem, h1.access (hv0 c.mem).1 rfl rfl (hv0 c.mem).2 ?_, h2⟩
      intro M hM
      refine ⟨g.rd acc M, rfl, rfl, ?_⟩
      have := (hv0 M).2
      rwa [show load e M (addr c.rs) w = _ from load_congr_ceil hM] at this
    | st acc addr w v =>
      refine ⟨g.wr acc c.mem _, h1.access (hv0 c.mem).1 rfl rfl (hv0 c.mem).2 ?_, by intro a n hr; simp at hr⟩
      intro M hM
      refine ⟨g.wr acc M (store e M (addr c.rs) w (v c.rs)), ?_, rfl, (hv0 M).2⟩
      simp [Ghost.wr, afterAccess, Ev.isWrite, Instr.wrFoot, overlay_store]
    | ll acc tear addr w k =>
      refine ⟨g.ll acc c.mem, h1.access (hv0 c.mem).1 rfl rfl (hv0 c.mem).2.1 ?_, ?_⟩
      · intro M hM
        refine ⟨g.ll acc M, rfl, rfl, ?_⟩
        have := (hv0 M).2.1
        rwa [show load e M (addr c.rs) w = _ from load_congr_ceil hM] at this
      · intro a n _; exact Agree.refl _ _ _
    | llTear acc addr w k _ mt =>
      refine ⟨{ g.rd acc c.mem with snap := mt }, h1.access (hv0 c.mem).1 rfl rfl ((hv0 c.mem).2.2 rfl mt) ?_,
        by intro a n hr; simp at hr⟩
      intro M hM
      exact ⟨{ g.rd acc M with snap := mt }, rfl, rfl, (hv0 M).2.2 rfl mt⟩
    | scOk acc addr w v k _ j hres =>
      have := hv0.2 c.mem j (h2 _ _ hres)
      refine ⟨g.wr acc c.mem _, h1.access this.1 rfl rfl this.2 ?_, by intro a n hr; simp at hr⟩
      intro M hM
      refine ⟨g.wr acc M (store e M (addr c.rs) w (v c.rs)), ?_, rfl, (hv0.2 M j ?_).2⟩
      · simp [Ghost.wr, afterAccess, Ev.isWrite, Instr.wrFoot, overlay_store]
      · intro x hx1 hx2
        rw [hM x hx1 hx2]
        exact h2 _ _ hres x hx1 hx2
    | scFail acc addr w v k _ j =>
      exact ⟨g, h1.tau _ _ _ (fun g h => (hv g h).1 j), by intro a n hr; simp at hr⟩
    | rmwNo acc addr w f k _ hf =>
      refine ⟨g.rd acc c.mem, h1.access (hv0 c.mem).1 rfl rfl ((hv0 c.mem).2.1 hf) ?_, h2⟩
      intro M hM
      refine ⟨g.rd acc M, rfl, rfl, ?_⟩
      have hl : load e M (addr c.rs) w = load e c.mem (addr c.rs) w := load_congr_ceil hM
      have := (hv0 M).2.1 (by rw [hl]; exact hf)
      rwa [hl] at this
    | rmwYes acc addr w f k _ y hf =>
      refine ⟨g.rmw acc c.mem _, h1.access (hv0 c.mem).1 rfl rfl ((hv0 c.mem).2.2 y hf) ?_,
        by intro a n hr; simp at hr⟩
      intro M hM
      have hl : load e M (addr c.rs) w = load e c.mem (addr c.rs) w := load_congr_ceil hM
      have := (hv0 M).2.2 y (by rw [hl]; exact hf)
      rw [hl] at this
      refine ⟨g.rmw acc M (store e M (addr c.rs) w y), ?_, rfl, this⟩
      simp [Ghost.rmw, afterAccess, Ev.isWrite, Instr.wrFoot, overlay_store]
    | clrex => exact ⟨g, h1.tau _ _ _ (fun g h => hv g h), by intro a n hr; simp at hr⟩

/-- The weakest-precondition calculus yields valid assertions. -/
theorem valid_wp {e : Endian} {W : Nat} {P : List (Instr W)} {cut : Cuts W} {post : Assn W} {N : Nat}
    (hcut : ∀ pc I, cut pc = some I → ∀ rs g, I rs g → wpAt e P cut post N pc rs g)  :
    Valid e P post (fun pc rs g => ∃ n, wp e P cut post n pc rs g) := by
  have key : ∀ pc rs g, (∃ n, wp e P cut post n pc rs g) → ∃ n, wpAt e P cut post n pc rs g := by
    rintro pc rs g ⟨n, h⟩
    cases n with
    | zero => exact absurd h (by simp [wp])
    | succ n =>
      simp only [wp] at h
      cases hI : cut pc with
      | some I => rw [hI] at h; exact ⟨N, hcut pc I hI rs g h⟩
      | none => rw [hI] at h; exact ⟨n, h⟩
  constructor
  · intro pc ins rs g hi h
    obtain ⟨n, hn⟩ := key pc rs g h
    cases n with
    | zero => exact absurd hn (by simp [wpAt])
    | succ n =>
      simp only [wpAt, hi] at hn
      exact wpIns_mono (fun pc rs g h => ⟨n, h⟩) hn
  · intro rs g h
    obtain ⟨n, hn⟩ := key P.length rs g h
    cases n with
    | zero => exact absurd hn (by simp [wpAt])
    | succ n => simpa [wpAt] using hn

/-- The last access of the thread satisfies `Q`. -/
def Last {W : Nat} (Q : Mem → Mem → RS W → Mon → Prop) : Assn W :=
  fun rs g => match g.last with
    | some (m, m') => Q m m' rs g.mon
    | none => False

/-- A completed run is atomic and its monitor is the ghost monitor: the form used for every
operation. -/
theorem sound_atomic {e : Endian} {W : Nat} {P : List (Instr W)} {at' : Nat → Assn W}
    {Q : Mem → Mem → RS W → Mon → Prop} (hvc : Valid e P (Last Q) at')
    {c0 : Cfg W} (hpc : c0.pc = 0) (h0 : at' 0 c0.rs { snap := c0.mem, last := none, mon := {} })
    {tr : List (LEv W)} {c : Cfg W} (hrun : LRun e P c0 tr c) (hend : c.pc = P.length) :
    LocalTrace tr (fun m m' => Q m m' c.rs (monOf (tr.map LEv.erase))) := by
  obtain ⟨g, h1, _⟩ := sound hvc hpc h0 hrun
  rw [hend] at h1
  cases h1 with
  | none hmon hg hl =>
    have hfin := hvc.fin _ _ hg
    simp only [Last, hl] at hfin
  | some hmon hg h =>
    obtain ⟨pre, ins, rs, ev, m, m', post, h1, h2, h3, h4, h5⟩ := h
    refine ⟨pre, ins, rs, ev, m, m', post, h1, h2, h3, h4, ?_⟩
    intro M hM
    obtain ⟨g', e1, e2, e3⟩ := h5 M hM
    have hfin := hvc.fin _ _ e3
    simp only [Last, e1] at hfin
    rw [← hmon, ← e2]
    exact hfin

end Verif
