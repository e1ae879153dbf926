/-
C51: a compare-exchange loop (`fetch_update` is one) retries only because of others.

A thread that always expects what it knows the object to have held last (from its own last operation on it) finds something else at
most as often as other threads wrote to the object. Hence among threads that compete for an object each retry of one is paid for by
a success of another.
-/
import Verif.Api.Updates

namespace Verif

/-! ### Specification -/

/-- What a compare-exchange expects. -/
def Call.expects (w : Nat) : Call → Option (BitVec w)
  | .cas _ _ _ _ old _ | .casWeak _ _ _ _ old _ => some (old.setWidth w)
  | _ => none

/-- What the caller knows the object to hold right after the call. -/
def Call.leaves (w : Nat) : Call → Ret → Option (BitVec w)
  | .load _ _ _, .bits _ v => some (v.setWidth w)
  | .store _ _ _ v, _ | .swap _ _ _ v, _ => some (v.setWidth w)
  | .cas _ _ _ _ _ new, .cas _ _ true | .casWeak _ _ _ _ _ new, .cas _ _ true => some (new.setWidth w)
  | .cas _ _ _ _ _ _, .cas _ v false | .casWeak _ _ _ _ _ _, .cas _ v false => some (v.setWidth w)
  | _, _ => none

/-- A thread that knows `k` of the object makes these calls; its compare-exchanges expect what it knows. -/
def Informed (w : Nat) : Option (BitVec w) → List (Call × Ret) → Prop
  | _, [] => True
  | k, (c, r) :: t => (∀ old, c.expects w = some old → k = some old) ∧ Informed w (c.leaves w r) t

/-- The call is a compare-exchange that failed because the object held something else than expected. -/
def Call.Overtaken : Call → Ret → Bool
  | .cas _ _ _ _ old _, .cas _ v false | .casWeak _ _ _ _ old _, .cas _ v false => v.toNat != old.toNat
  | _, _ => false

/-- The call wrote to the object. -/
def Call.Wrote : Call → Ret → Bool
  | .store .., _ | .swap .., _ | .cas .., .cas _ _ true | .casWeak .., .cas _ _ true => true
  | _, _ => false

/-- How often the calls failed because the object held something else than expected. -/
def overtaken (l : List (Call × Ret)) : Nat := (l.filter fun z => z.1.Overtaken z.2).length
/-- How often the calls wrote to the object. -/
def written (l : List (Call × Ret)) : Nat := (l.filter fun z => z.1.Wrote z.2).length
/-- The sum of `f j` over the threads `j < N` other than `i`. -/
def others (N i : Nat) (f : Nat → Nat) : Nat := ((List.range N).map fun j => if j = i then 0 else f j).sum

/-- C51 for the calls of the threads `0 … N-1` on one object. -/
def RetriesPaid (w N : Nat) (calls : Nat → List (Call × Ret)) : Prop :=
  ∀ i, Informed w none (calls i) → overtaken (calls i) ≤ others N i fun j => written (calls j)

/-- C51. In every run, whenever all have returned, each thread whose compare-exchanges expect what it saw last has been overtaken
at most as often as the others wrote. -/
def Backend.RetriesPaid {W : Nat} (A : Backend W) (P : Call → Prop) : Prop :=
  ∀ (w a : Nat), w % 8 = 0 → w ≠ 0 → ∀ (m0 : Mem) (tr : List GEv) (g : GState W),
    GRun A P ⟨m0, fun _ => .idle⟩ tr g → (∀ i, g.th i = .idle) → VRegular A.e w a (fun _ _ => True) (GEv.vis tr) →
    ∀ N, (∀ i, N ≤ i → threadCalls w a i (GEv.vis tr) = []) → Verif.RetriesPaid w N fun i => threadCalls w a i (GEv.vis tr)

/-- C51 on weak memory, with any orderings. -/
def Backend.RetriesPaidWeak {W : Nat} (A : Backend W) (P : Call → Prop) : Prop :=
  ∀ (w a : Nat) (X : AxShape W) (rf : Node → Nat → Option Node) (N : Nat) (items : Nat → List (Item W)),
    CohRun A P (fun _ _ => True) w a X rf N items → Verif.RetriesPaid w N fun t => objectCalls w a (items t)

/-- How often an update succeeded. -/
def FetchUpdate.successes {w a : Nat} (l : List (FetchUpdate w a)) : Nat :=
  (l.filter fun u => match u.result with | .ok _ => true | .error _ => false).length

/-- C51 for `fetch_update`: among threads that access an object by `fetch_update` only, the attempts of a thread that were
overtaken are at most as many as the updates of the others that succeeded. -/
def Backend.UpdatesPaid {W : Nat} (A : Backend W) (P : Call → Prop) : Prop :=
  ∀ (w a : Nat), w % 8 = 0 → w ≠ 0 → ∀ (m0 : Mem) (tr : List GEv) (g : GState W),
    GRun A P ⟨m0, fun _ => .idle⟩ tr g → (∀ i, g.th i = .idle) → VRegular A.e w a (fun _ _ => True) (GEv.vis tr) →
    ∀ (N : Nat) (ups : Nat → List (FetchUpdate w a)), ByFetchUpdate N ups (fun i => threadCalls w a i (GEv.vis tr)) →
      ∀ i, ((ups i).map fun u => overtaken u.calls).sum ≤ others N i fun j => FetchUpdate.successes (ups j)

/-- C51 for `fetch_update` on weak memory, with any orderings. -/
def Backend.UpdatesPaidWeak {W : Nat} (A : Backend W) (P : Call → Prop) : Prop :=
  ∀ (w a : Nat) (X : AxShape W) (rf : Node → Nat → Option Node) (N : Nat) (items : Nat → List (Item W)),
    CohRun A P (fun _ _ => True) w a X rf N items →
    ∀ (ups : Nat → List (FetchUpdate w a)), ByFetchUpdate N ups (fun t => objectCalls w a (items t)) →
      ∀ i, ((ups i).map fun u => overtaken u.calls).sum ≤ others N i fun j => FetchUpdate.successes (ups j)

/-! ### Proofs -/

theorem overtaken_append (s t : List (Call × Ret)) : overtaken (s ++ t) = overtaken s + overtaken t := by simp [overtaken]
theorem written_append (s t : List (Call × Ret)) : written (s ++ t) = written s + written t := by simp [written]

/-- 1 if the object holds something else than the thread knows -/
def surprise {w : Nat} (k : Option (BitVec w)) (v : BitVec w) : Nat :=
  match k with
  | none => 0
  | some x => if x = v then 0 else 1

theorem surprise_le {w : Nat} (k : Option (BitVec w)) (v : BitVec w) : surprise k v ≤ 1 := by
  cases k <;> simp only [surprise]
  · omega
  · split <;> omega

theorem Call.leaves_after {w a : Nat} {c : Call} {r : Ret} {v : BitVec w} (hon : c.On w a) (hs : c.Sees v r) :
    surprise (c.leaves w r) (c.after w a v r) = 0 := by
  obtain ⟨rfl, rfl⟩ := hon
  cases c with
  | load o w a => simp only [Call.Sees] at hs; subst hs; exact if_pos (BitVec.setWidth_eq (v : BitVec w))
  | store o w a x => simp [surprise, Call.leaves, Call.after, Call.width, Call.addr]
  | swap o w a x => simp [surprise, Call.leaves, Call.after, Call.width, Call.addr]
  | cas s f w a old new =>
    obtain ⟨ok, rfl, hok⟩ := hs
    cases ok
    · exact if_pos (BitVec.setWidth_eq (v : BitVec w))
    · simp [surprise, Call.leaves, Call.after, Call.width, Call.addr]
  | casWeak s f w a old new =>
    obtain ⟨ok, rfl, hok⟩ := hs
    cases ok
    · exact if_pos (BitVec.setWidth_eq (v : BitVec w))
    · simp [surprise, Call.leaves, Call.after, Call.width, Call.addr]

theorem Call.overtaken_le {w a : Nat} {c : Call} {r : Ret} {v : BitVec w} {k : Option (BitVec w)} (hon : c.On w a) (hs : c.Sees v r)
    (hk : ∀ old, c.expects w = some old → k = some old) : (if c.Overtaken r then 1 else 0) ≤ surprise k v := by
  obtain ⟨rfl, rfl⟩ := hon
  have key : ∀ {w : Nat} (v old : BitVec w), (if (v.toNat != old.toNat) = true then 1 else 0) ≤ surprise (some old) v := by
    intro w v old
    simp only [surprise]
    by_cases h : old = v
    · simp [h]
    · have : v.toNat ≠ old.toNat := fun h' => h (BitVec.eq_of_toNat_eq h'.symm)
      simp [h, this]
  cases c with
  | load o w a => simp [Call.Overtaken]
  | store o w a x => simp [Call.Overtaken]
  | swap o w a x => simp [Call.Overtaken]
  | cas s f w a old new =>
    obtain ⟨ok, rfl, hok⟩ := hs
    have := hk old (by simp [Call.expects, Call.width])
    subst this
    cases ok
    · exact key v old
    · simp [Call.Overtaken]
  | casWeak s f w a old new =>
    obtain ⟨ok, rfl, hok⟩ := hs
    have := hk old (by simp [Call.expects, Call.width])
    subst this
    cases ok
    · exact key v old
    · simp [Call.Overtaken]

theorem Call.after_of_not_wrote {w a : Nat} {c : Call} {r : Ret} {v : BitVec w} (h : c.Wrote r = false) : c.after w a v r = v := by
  cases c with
  | load => rfl
  | store => simp [Call.Wrote] at h
  | swap => simp [Call.Wrote] at h
  | cas => cases r with
    | cas w v ok => cases ok <;> first | rfl | simp [Call.Wrote] at h
    | _ => rfl
  | casWeak => cases r with
    | cas w v ok => cases ok <;> first | rfl | simp [Call.Wrote] at h
    | _ => rfl

/-- how often threads other than `i` wrote -/
def othersWrote (i : Nat) (seq : List (Nat × Call × Ret)) : Nat := (seq.filter fun z => z.1 ≠ i && z.2.1.Wrote z.2.2).length

theorem RegSeq.retries {w a : Nat} {v v' : BitVec w} {seq : List (Nat × Call × Ret)} (h : RegSeq w a v seq v') (i : Nat)
    (k : Option (BitVec w)) (hk : Informed w k ((ofThread i seq).map (·.2))) :
    overtaken ((ofThread i seq).map (·.2)) ≤ othersWrote i seq + surprise k v := by
  induction h generalizing k with
  | nil => simp [overtaken, ofThread]
  | @cons v t v' j c r hon hs h ih =>
    by_cases hj : j = i
    · have e : ofThread i ((j, c, r) :: t) = (j, c, r) :: ofThread i t := by simp [ofThread, hj]
      rw [e, List.map_cons] at hk ⊢
      obtain ⟨k1, k2⟩ := hk
      have h1 := ih _ k2
      rw [Call.leaves_after hon hs] at h1
      have h2 := Call.overtaken_le hon hs k1
      have e2 : othersWrote i ((j, c, r) :: t) = othersWrote i t := by simp [othersWrote, hj]
      have e3 : overtaken ((c, r) :: (ofThread i t).map (·.2)) = (if c.Overtaken r then 1 else 0) + overtaken ((ofThread i t).map (·.2)) := by
        simp only [overtaken, List.filter_cons]
        split <;> simp <;> omega
      show overtaken ((c, r) :: _) ≤ _
      omega
    · have e : ofThread i ((j, c, r) :: t) = ofThread i t := by simp [ofThread, hj]
      rw [e] at hk ⊢
      have h1 := ih _ hk
      cases hw : c.Wrote r with
      | false =>
        rw [Call.after_of_not_wrote hw] at h1
        have e2 : othersWrote i ((j, c, r) :: t) = othersWrote i t := by simp [othersWrote, hw]
        omega
      | true =>
        have e2 : othersWrote i ((j, c, r) :: t) = othersWrote i t + 1 := by simp [othersWrote, hj, hw]
        have := surprise_le k (c.after w a v r)
        omega

theorem sum_map_le {l : List Nat} {f g : Nat → Nat} (h : ∀ j ∈ l, f j ≤ g j) : (l.map f).sum ≤ (l.map g).sum := by
  induction l with
  | nil => simp
  | cons x l ih =>
    have h1 := h x List.mem_cons_self
    have h2 := ih fun j hj => h j (List.mem_cons_of_mem _ hj)
    simp only [List.map_cons, List.sum_cons]
    omega
theorem sum_map_add_one {l : List Nat} {f g : Nat → Nat} {j : Nat} (h : ∀ i ∈ l, f i ≤ g i) (hj : j ∈ l) (hlt : f j + 1 ≤ g j) :
    (l.map f).sum + 1 ≤ (l.map g).sum := by
  induction l with
  | nil => cases hj
  | cons x l ih =>
    have h1 := h x List.mem_cons_self
    have h2 : ∀ i ∈ l, f i ≤ g i := fun i hi => h i (List.mem_cons_of_mem _ hi)
    simp only [List.map_cons, List.sum_cons]
    rcases List.mem_cons.1 hj with rfl | hj
    · have := sum_map_le h2
      omega
    · have := ih h2 hj
      omega

theorem othersWrote_le {N i : Nat} {seq : List (Nat × Call × Ret)} (h : ∀ z ∈ seq, z.1 < N) :
    othersWrote i seq ≤ others N i fun j => written ((ofThread j seq).map (·.2)) := by
  induction seq with
  | nil => simp [othersWrote]
  | cons z t ih =>
    obtain ⟨j, c, r⟩ := z
    have hN := h _ List.mem_cons_self
    have ih := ih fun z hz => h z (List.mem_cons_of_mem _ hz)
    have mono : ∀ l ∈ List.range N, (if l = i then 0 else written ((ofThread l t).map (·.2))) ≤
        if l = i then 0 else written ((ofThread l ((j, c, r) :: t)).map (·.2)) := by
      intro l _
      split
      · omega
      · simp only [ofThread, List.filter_cons]
        split
        · simp only [List.map_cons, written, List.filter_cons]; split <;> simp
        · exact Nat.le_refl _
    by_cases hw : (j ≠ i && c.Wrote r) = true
    · have e : othersWrote i ((j, c, r) :: t) = othersWrote i t + 1 := by
        simp only [othersWrote, List.filter_cons, hw, if_true, List.length_cons]
      have := sum_map_add_one mono (List.mem_range.2 hN) (j := j) ?_
      · rw [e]
        exact Nat.le_trans (Nat.add_le_add_right ih 1) this
      · simp only [Bool.and_eq_true, decide_eq_true_eq] at hw
        simp [hw.1, ofThread, written, hw.2]
    · have e : othersWrote i ((j, c, r) :: t) = othersWrote i t := by
        simp only [othersWrote, List.filter_cons, hw, Bool.false_eq_true, if_false]
      rw [e]
      exact Nat.le_trans ih (sum_map_le mono)

theorem RegSeq.retriesPaid {w a N : Nat} {v v' : BitVec w} {seq : List (Nat × Call × Ret)} (h : RegSeq w a v seq v')
    (hN : ∀ i, N ≤ i → (ofThread i seq).map (·.2) = []) : RetriesPaid w N fun i => (ofThread i seq).map (·.2) := by
  intro i hi
  have := h.retries i none hi
  refine Nat.le_trans this (Nat.le_trans (by simp [surprise]) (othersWrote_le fun z hz => Nat.lt_of_not_le fun hle => ?_))
  have hm : z ∈ ofThread z.1 seq := List.mem_filter.2 ⟨hz, by simp⟩
  rw [List.map_eq_nil_iff.1 (hN _ hle)] at hm
  cases hm

variable {W : Nat}

theorem Backend.ObjectAlone.retriesPaid {A : Backend W} {P : Call → Prop} (hl : A.ObjectAlone P) : A.RetriesPaid P := by
  intro w a hw hw0 m0 tr g hr hidle hreg N hN
  obtain ⟨seq, h1, h2⟩ := hl.regSeq hw hw0 hr hidle hreg
  rw [h2]
  exact h1.retriesPaid fun i hi => by have := hN i hi; rw [congrFun h2 i] at this; exact this

theorem Backend.Coherent.retriesPaid {A : Backend W} {P : Call → Prop} (hc : A.Coherent P) : A.RetriesPaidWeak P := by
  intro w a X rf N items h
  obtain ⟨m, seq, h1, h2, h3⟩ := hc.regSeq h
  have hN : ∀ i, N ≤ i → objectCalls w a (items i) = [] := fun i hi => by rw [h.threads i hi]; rfl
  rw [h3]
  exact h2.retriesPaid fun i hi => by have := hN i hi; rw [congrFun h3 i] at this; exact this

/-! #### fetch_update -/

/-- what a thread knows after some calls -/
def knownAfter (w : Nat) : Option (BitVec w) → List (Call × Ret) → Option (BitVec w)
  | k, [] => k
  | _, (c, r) :: t => knownAfter w (c.leaves w r) t

theorem Informed.append {w : Nat} {s t : List (Call × Ret)} {k : Option (BitVec w)} (h : Informed w k s)
    (h' : Informed w (knownAfter w k s) t) : Informed w k (s ++ t) := by
  induction s generalizing k with
  | nil => exact h'
  | cons x s ih => exact ⟨h.1, ih h.2 h'⟩
theorem knownAfter_append {w : Nat} (s t : List (Call × Ret)) (k : Option (BitVec w)) :
    knownAfter w k (s ++ t) = knownAfter w (knownAfter w k s) t := by
  induction s generalizing k with
  | nil => rfl
  | cons x s ih => exact ih _

theorem informed_follows {w a : Nat} {so fo : Ordering} {f : Closure w} {l : List (Call × Ret)}
    {s : (fetchUpdateM w a so fo f).S} (h : (fetchUpdateM w a so fo f).Follows l s) (k : Option (BitVec w)) :
    Informed w k l ∧ ∀ prev next σ, s = FU.set prev next σ → knownAfter w k l = some prev := by
  induction h with
  | start => exact ⟨trivial, fun _ _ _ h => by cases h⟩
  | call h ha x ih =>
    rename_i l s c k'
    obtain ⟨i1, i2⟩ := ih
    have next : ∀ (v : BitVec w) (σ : f.σ) prev n σ', FU.next f v σ = FU.set prev n σ' → prev = v := by
      intro v σ prev n σ' h
      unfold FU.next at h
      split at h <;> cases h
      rfl
    cases s with
    | fin r => simp only [fetchUpdateM] at ha; cases ha
    | start =>
      simp only [fetchUpdateM] at ha
      split at ha
      · cases ha
        refine ⟨i1.append ⟨fun old h => (by cases h), trivial⟩, fun prev n σ h => ?_⟩
        rw [knownAfter_append, next _ _ _ _ _ h]
        exact congrArg some (BitVec.setWidth_eq (x : BitVec w))
      · cases ha
    | set prev next' s =>
      simp only [fetchUpdateM] at ha
      split at ha
      · cases ha
        refine ⟨i1.append ⟨fun old h => ?_, trivial⟩, fun p n σ h => ?_⟩
        · rw [i2 _ _ _ rfl, ← h]
          simp [Call.expects]
        · obtain ⟨v, ok⟩ := x
          cases ok with
          | true => simp only [toResult, if_true] at h; cases h
          | false =>
            simp only [toResult, Bool.false_eq_true, if_false] at h
            rw [knownAfter_append, next _ _ _ _ _ h]
            exact congrArg some (BitVec.setWidth_eq v)
      · cases ha

theorem informed_updates {w a : Nat} {l : List (FetchUpdate w a)} (h : ∀ u ∈ l, u.OK) (k : Option (BitVec w)) :
    Informed w k (l.flatMap (·.calls)) := by
  induction l generalizing k with
  | nil => trivial
  | cons u l ih =>
    obtain ⟨s, h1, _⟩ := h u List.mem_cons_self
    exact (informed_follows h1 k).1.append (ih (fun u hu => h u (List.mem_cons_of_mem _ hu)) _)

theorem overtaken_flatMap {w a : Nat} (l : List (FetchUpdate w a)) :
    overtaken (l.flatMap (·.calls)) = (l.map fun u => overtaken u.calls).sum := by
  induction l with
  | nil => rfl
  | cons u l ih => rw [List.flatMap_cons, overtaken_append, ih]; rfl

theorem written_okPairs {w a : Nat} (l : List (Call × Ret)) (hon : ∀ x ∈ l, x.1.On w a) (hu : ∀ x ∈ l, x.1.Updating) :
    written l = (okPairs w a l).length := by
  induction l with
  | nil => rfl
  | cons x l ih =>
    obtain ⟨c, r⟩ := x
    have ih := ih (fun x hx => hon x (List.mem_cons_of_mem _ hx)) fun x hx => hu x (List.mem_cons_of_mem _ hx)
    have h1 := hon _ List.mem_cons_self
    have h2 := hu _ List.mem_cons_self
    have key : (casOk w a 0 c r).length = if c.Wrote r then 1 else 0 := by
      obtain ⟨rfl, rfl⟩ := h1
      cases c with
      | load => cases r <;> rfl
      | store => exact h2.elim
      | swap => exact h2.elim
      | cas => cases r with
        | cas w v ok => cases ok <;> simp [casOk, Call.Wrote, Call.width, Call.addr]
        | _ => rfl
      | casWeak => cases r with
        | cas w v ok => cases ok <;> simp [casOk, Call.Wrote, Call.width, Call.addr]
        | _ => rfl
    simp only [okPairs, List.flatMap_cons, List.length_append, List.length_map] at ih ⊢
    rw [key, ← ih]
    simp only [written, List.filter_cons]
    split <;> simp <;> omega

theorem written_updates {w a : Nat} {l : List (FetchUpdate w a)} (h : ∀ u ∈ l, u.OK)
    (hs : ∀ u ∈ l, ∀ x ∈ u.calls, x.1.On w a ∧ ∃ cur : BitVec w, x.1.Sees cur x.2) :
    written (l.flatMap (·.calls)) = FetchUpdate.successes l := by
  induction l with
  | nil => rfl
  | cons u l ih =>
    have ih := ih (fun u hu => h u (List.mem_cons_of_mem _ hu)) fun u hu => hs u (List.mem_cons_of_mem _ hu)
    have h1 := hs u List.mem_cons_self
    obtain ⟨p1, p2, p3, _⟩ := (h u List.mem_cons_self).pairs fun x hx => (h1 x hx).2
    rw [List.flatMap_cons, written_append, ih, written_okPairs u.calls (fun x hx => (h1 x hx).1) p2, p1]
    simp only [FetchUpdate.successes, List.filter_cons]
    cases hr : u.result with
    | error v => simp [FetchUpdate.writes, hr]
    | ok v =>
      obtain ⟨n, s, hw, _⟩ := p3 v hr
      simp [hw]
      omega

theorem RegSeq.updatesPaid {w a N : Nat} {v v' : BitVec w} {seq : List (Nat × Call × Ret)} (h : RegSeq w a v seq v')
    {ups : Nat → List (FetchUpdate w a)} (hby : ByFetchUpdate N ups fun i => (ofThread i seq).map (·.2)) (i : Nat) :
    ((ups i).map fun u => overtaken u.calls).sum ≤ others N i fun j => FetchUpdate.successes (ups j) := by
  have h1 := h.retriesPaid (N := N) (fun i hi => by rw [hby.all, hby.threads i hi]; rfl) i
    (by show Informed w none ((ofThread i seq).map (·.2)); rw [hby.all]; exact informed_updates (hby.ok i) _)
  simp only [hby.all] at h1
  rw [overtaken_flatMap] at h1
  refine Nat.le_trans h1 (sum_map_le fun j _ => ?_)
  split
  · exact Nat.le_refl _
  · refine Nat.le_of_eq (written_updates (hby.ok j) fun u hu x hx => ?_)
    have : x ∈ (ofThread j seq).map (·.2) := by rw [hby.all]; exact List.mem_flatMap.2 ⟨u, hu, hx⟩
    obtain ⟨z, hz, rfl⟩ := List.mem_map.1 this
    exact h.sees z (List.mem_filter.1 hz).1

theorem Backend.ObjectAlone.updatesPaid {A : Backend W} {P : Call → Prop} (hl : A.ObjectAlone P) : A.UpdatesPaid P := by
  intro w a hw hw0 m0 tr g hr hidle hreg N ups hby
  obtain ⟨seq, h1, h2⟩ := hl.regSeq hw hw0 hr hidle hreg
  rw [h2] at hby
  exact h1.updatesPaid hby

theorem Backend.Coherent.updatesPaid {A : Backend W} {P : Call → Prop} (hc : A.Coherent P) : A.UpdatesPaidWeak P := by
  intro w a X rf N items h ups hby
  obtain ⟨m, seq, h1, h2, h3⟩ := hc.regSeq h
  rw [h3] at hby
  exact h2.updatesPaid hby

/-! #### back ends whose compare_exchange is only weak -/

theorem Call.weaken_expects (w : Nat) (c : Call) : c.weaken.expects w = c.expects w := by cases c <;> rfl
theorem Call.weaken_leaves (w : Nat) (c : Call) (r : Ret) : c.weaken.leaves w r = c.leaves w r := by
  cases c <;> cases r <;> first | rfl | (rename_i ok; cases ok <;> rfl)
theorem Call.weaken_overtaken (c : Call) (r : Ret) : c.weaken.Overtaken r = c.Overtaken r := by
  cases c <;> cases r <;> first | rfl | (rename_i ok; cases ok <;> rfl)
theorem Call.weaken_wrote (c : Call) (r : Ret) : c.weaken.Wrote r = c.Wrote r := by
  cases c <;> cases r <;> first | rfl | (rename_i ok; cases ok <;> rfl)

theorem informed_weaken {w : Nat} (l : List (Call × Ret)) (k : Option (BitVec w)) (h : Informed w k l) :
    Informed w k (l.map fun x => (x.1.weaken, x.2)) := by
  induction l generalizing k with
  | nil => trivial
  | cons x l ih =>
    refine ⟨fun old ho => h.1 old (by rw [← Call.weaken_expects]; exact ho), ?_⟩
    rw [Call.weaken_leaves]
    exact ih _ h.2
theorem overtaken_weaken (l : List (Call × Ret)) : overtaken (l.map fun x => (x.1.weaken, x.2)) = overtaken l := by
  induction l with
  | nil => rfl
  | cons x l ih => simp only [overtaken, List.map_cons, List.filter_cons, Call.weaken_overtaken] at ih ⊢; split <;> simp [ih]
theorem written_weaken (l : List (Call × Ret)) : written (l.map fun x => (x.1.weaken, x.2)) = written l := by
  induction l with
  | nil => rfl
  | cons x l ih => simp only [written, List.map_cons, List.filter_cons, Call.weaken_wrote] at ih ⊢; split <;> simp [ih]

theorem Backend.retriesPaidWeak_of_weakened {A : Backend W} (h : A.weakened.RetriesPaidWeak fun _ => True)
    (P : Call → Prop) : A.RetriesPaidWeak P := by
  intro w a X rf N items hr i hi
  have := h w a X rf N _ (hr.weaken (Q' := fun _ _ => True) fun _ _ _ => trivial) i
  simp only [objectCalls_weaken, overtaken_weaken, written_weaken] at this
  exact this (informed_weaken _ _ hi)
theorem Backend.updatesPaidWeak_of_weakened {A : Backend W} (h : A.weakened.UpdatesPaidWeak fun _ => True)
    (P : Call → Prop) : A.UpdatesPaidWeak P := by
  intro w a X rf N items hr ups hby
  exact h w a X rf N _ (hr.weaken (Q' := fun _ _ => True) fun _ _ _ => trivial) ups hby.weaken

end Verif
