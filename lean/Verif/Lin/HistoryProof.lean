/-
Proofs about histories of the canonical atomic object, and their transfer to the back ends.
-/
import Verif.Lin.History
import Verif.Lin.Proof

namespace Verif

/-! ### One operation -/

/-- One operation: the right answer, and the object afterwards. -/
theorem sem_on {e : Endian} {c : Call} {w a : Nat} {m m' : Mem} {r : Ret} (hw : w % 8 = 0)
    (h : c.Sem e m m' r) (hon : c.On w a) :
    c.Answer (load e m a w) r ∧ load e m' a w = c.after w a (load e m a w) r := by
  obtain ⟨rfl, rfl⟩ := hon
  cases c with
  | load o w a => obtain ⟨v, ⟨rfl, rfl⟩, rfl⟩ := h; exact ⟨rfl, rfl⟩
  | store o w a v =>
    obtain ⟨h, rfl⟩ := h
    refine ⟨rfl, ?_⟩
    replace hw : w % 8 = 0 := hw
    show load e m' a w = if w = w ∧ a = a then v.setWidth w else _
    rw [h, load_store hw]; simp
  | swap o w a v =>
    obtain ⟨x, ⟨rfl, rfl⟩, rfl⟩ := h
    refine ⟨rfl, ?_⟩
    replace hw : w % 8 = 0 := hw
    show load e (store e m a w v) a w = if w = w ∧ a = a then v.setWidth w else _
    rw [load_store hw]; simp
  | cas s f w a old new =>
    obtain ⟨x, ok, ⟨rfl, h⟩, rfl⟩ := h
    replace hw : w % 8 = 0 := hw
    rcases h with ⟨h1, rfl, rfl⟩ | ⟨h1, rfl, rfl⟩
    · refine ⟨?_, ?_⟩
      · show Ret.cas w (load e m a w) true = .cas w (load e m a w) (decide (load e m a w = old.setWidth w))
        simp [h1]
      · show load e (store e m a w new) a w = if w = w ∧ a = a then new.setWidth w else _
        rw [load_store hw]; simp
    · refine ⟨?_, rfl⟩
      show Ret.cas w (load e m' a w) false = .cas w (load e m' a w) (decide (load e m' a w = old.setWidth w))
      simp [h1]
  | casWeak s f w a old new =>
    obtain ⟨x, ok, ⟨rfl, h⟩, rfl⟩ := h
    replace hw : w % 8 = 0 := hw
    rcases h with ⟨h1, rfl, rfl⟩ | ⟨rfl, rfl⟩
    · refine ⟨⟨true, rfl, fun _ => ?_⟩, ?_⟩
      · show load e m a w = old.setWidth w
        simp [h1]
      · show load e (store e m a w new) a w = if w = w ∧ a = a then new.setWidth w else _
        rw [load_store hw]; simp
    · exact ⟨⟨false, rfl, fun h => by cases h⟩, rfl⟩

/-- Every operation leaves memory as it is or stores into its own object. -/
theorem sem_mem {e : Endian} {c : Call} {m m' : Mem} {r : Ret} (h : c.Sem e m m' r) :
    m' = m ∨ ∃ v, m' = store e m c.addr c.width v := by
  cases c with
  | load o w a => obtain ⟨v, ⟨rfl, rfl⟩, rfl⟩ := h; exact .inl rfl
  | store o w a v => obtain ⟨h, rfl⟩ := h; exact .inr ⟨_, h⟩
  | swap o w a v => obtain ⟨x, ⟨rfl, rfl⟩, rfl⟩ := h; exact .inr ⟨_, rfl⟩
  | cas s f w a old new =>
    obtain ⟨x, ok, ⟨rfl, ⟨_, _, h⟩ | ⟨_, _, h⟩⟩, rfl⟩ := h
    · exact .inr ⟨_, h⟩
    · exact .inl h
  | casWeak s f w a old new =>
    obtain ⟨x, ok, ⟨rfl, ⟨_, _, h⟩ | ⟨_, h⟩⟩, rfl⟩ := h
    · exact .inr ⟨_, h⟩
    · exact .inl h

/-- An operation on a disjoint object leaves the object alone. -/
theorem sem_off {e : Endian} {c : Call} {w a : Nat} {m m' : Mem} {r : Ret} (hw : w % 8 = 0)
    (h : c.Sem e m m' r) (hoff : c.Off w a) : load e m' a w = load e m a w := by
  rcases sem_mem h with rfl | ⟨v, rfl⟩
  · rfl
  · exact load_store_disjoint hw (by unfold Call.Off at hoff; omega)

/-- The call is on another object, and the object has bytes: then it is not on this one. -/
theorem Call.Off.after {c : Call} {w a : Nat} (hw : w % 8 = 0) (h : c.Off w a) (cur : BitVec w) (r : Ret) :
    c.after w a cur r = cur := by
  have hne : ∀ w' a' : Nat, c.width = w' → c.addr = a' → (∀ v : BitVec w',
      (if w' = w ∧ a' = a then v.setWidth w else cur) = cur) := by
    intro w' a' h1 h2 v
    split
    · rename_i h3
      obtain ⟨rfl, rfl⟩ := h3
      unfold Call.Off at h
      rw [h1, h2] at h
      have : w' = 0 := by omega
      subst this
      exact BitVec.eq_of_toNat_eq (by omega)
    · rfl
  cases c with
  | load => cases r <;> rfl
  | store o w' a' v => cases r <;> exact hne _ _ rfl rfl v
  | swap o w' a' v => cases r <;> exact hne _ _ rfl rfl v
  | cas s f w' a' old new =>
    cases r with
    | cas _ _ ok => cases ok; rfl; exact hne _ _ rfl rfl new
    | _ => rfl
  | casWeak s f w' a' old new =>
    cases r with
    | cas _ _ ok => cases ok; rfl; exact hne _ _ rfl rfl new
    | _ => rfl

/-! ### C08: reads return the last write -/

theorem lastWrite_append {w a : Nat} (init : BitVec w) (s t : List SEv) :
    lastWrite w a init (s ++ t) = lastWrite w a (lastWrite w a init s) t := by
  induction s generalizing init with
  | nil => rfl
  | cons x s ih => cases x <;> simp [lastWrite, ih]

theorem Regular.left {e : Endian} {w a : Nat} {s t : List SEv} (h : Regular e w a (s ++ t)) :
    Regular e w a s :=
  ⟨fun i c r hm => h.1 i c r (List.mem_append.2 (.inl hm)), fun m m' hm => h.2 m m' (List.mem_append.2 (.inl hm))⟩

/-- The object always holds the last value written to it. -/
theorem SRun.value {e : Endian} {w a : Nat} (hw : w % 8 = 0) {s0 s : SState} {str : List SEv}
    (h : SRun e s0 str s) (hreg : Regular e w a str) :
    load e s.mem a w = lastWrite w a (load e s0.mem a w) str := by
  induction h with
  | nil => rfl
  | snoc h hs ih =>
    rename_i tr s ev s'
    have ih := ih hreg.left
    rw [lastWrite_append, ← ih]
    cases hs with
    | inv => rfl
    | ret => rfl
    | ext m' => exact hreg.2 _ _ (by simp)
    | pt i c r m' hth hsem =>
      simp only [lastWrite]
      rcases hreg.1 i c r (by simp) with hon | hoff
      · exact (sem_on hw hsem hon).2
      · rw [hoff.after hw]; exact sem_off hw hsem hoff

theorem SRun.split {e : Endian} {s0 s : SState} {l : List SEv} (h : SRun e s0 l s) :
    ∀ pre x post, l = pre ++ x :: post → ∃ s1 s2, SRun e s0 pre s1 ∧ SStep e s1 x s2 := by
  induction h with
  | nil => intro pre x post hl; simp at hl
  | snoc h hs ih =>
    rename_i tr s ev s'
    intro pre x post hl
    rcases List.eq_nil_or_concat post with rfl | ⟨post', y, rfl⟩
    · obtain ⟨rfl, hx⟩ := List.append_inj' hl rfl
      cases hx
      exact ⟨s, s', h, hs⟩
    · rw [List.concat_eq_append, ← List.cons_append, ← List.append_assoc] at hl
      obtain ⟨rfl, hx⟩ := List.append_inj' hl rfl
      exact ih pre x post' rfl

/-- C08. Every operation on the object sees, bit for bit, the last value written before it (whatever the
bits are), and answers accordingly. -/
theorem C08_reads_last_write {e : Endian} {w a : Nat} (hw : w % 8 = 0) {s0 s : SState} {str : List SEv}
    (h : SRun e s0 str s) (hreg : Regular e w a str) (pre : List SEv) (i : Nat) (c : Call) (r : Ret)
    (post : List SEv) (hsplit : str = pre ++ .pt i c r :: post) (hon : c.On w a) :
    c.Answer (lastWrite w a (load e s0.mem a w) pre) r := by
  obtain ⟨s1, s2, h1, h2⟩ := h.split pre _ post hsplit
  have hv := h1.value hw (hsplit ▸ hreg).left
  cases h2 with
  | pt _ _ _ m' hth hsem => rw [← hv]; exact (sem_on hw hsem hon).1

/-- No effect in this part of the history writes the object. -/
def NoWrite (w a : Nat) (str : List SEv) : Prop :=
  ∀ i c r, SEv.pt i c r ∈ str → ∀ cur : BitVec w, c.after w a cur r = cur

theorem lastWrite_noWrite {w a : Nat} {cur : BitVec w} {str : List SEv} (h : NoWrite w a str) :
    lastWrite w a cur str = cur := by
  induction str generalizing cur with
  | nil => rfl
  | cons x t ih =>
    have ht : NoWrite w a t := fun i c r hm => h i c r (List.mem_cons_of_mem _ hm)
    cases x with
    | pt i c r => simp only [lastWrite]; rw [h i c r List.mem_cons_self]; exact ih ht
    | h x => exact ih ht
    | ext m m' => exact ih ht

/-- C34. `compare_exchange` with a value observed before (by a load, a swap's write, a failed
compare-exchange, ...) succeeds if nobody wrote the object in between. `v` are the bits the object held
after the first part of the history. -/
theorem C34_cas_with_observed {e : Endian} {w a : Nat} (hw : w % 8 = 0) {s0 s : SState}
    {pre mid post : List SEv} {i : Nat} {so f : Ordering} {old new : BitVec w} {r : Ret}
    (h : SRun e s0 (pre ++ mid ++ .pt i (.cas so f w a old new) r :: post) s)
    (hreg : Regular e w a (pre ++ mid ++ .pt i (.cas so f w a old new) r :: post))
    (hmid : NoWrite w a mid) (hold : old = lastWrite w a (load e s0.mem a w) pre) :
    r = .cas w old true := by
  have h1 := C08_reads_last_write hw h hreg (pre ++ mid) i _ r post rfl ⟨rfl, rfl⟩
  rw [lastWrite_append, lastWrite_noWrite hmid, ← hold] at h1
  simpa [Call.Answer] using h1

/-- C34, with the observation: an operation returned `v` (`Err(v)`, or a load), then nobody wrote. -/
theorem C34_cas_after_load {e : Endian} {w a : Nat} (hw : w % 8 = 0) {s0 s : SState}
    {pre mid post : List SEv} {i j : Nat} {o so f : Ordering} {v new : BitVec w} {r : Ret}
    (h : SRun e s0 (pre ++ .pt j (.load o w a) (.bits w v) :: mid ++
      .pt i (.cas so f w a v new) r :: post) s)
    (hreg : Regular e w a (pre ++ .pt j (.load o w a) (.bits w v) :: mid ++
      .pt i (.cas so f w a v new) r :: post))
    (hmid : NoWrite w a mid) : r = .cas w v true := by
  have hv : v = lastWrite w a (load e s0.mem a w) pre := by
    have := C08_reads_last_write hw h hreg pre j (.load o w a) (.bits w v)
      (mid ++ .pt i (.cas so f w a v new) r :: post) (by simp) ⟨rfl, rfl⟩
    simpa [Call.Answer] using this
  refine C34_cas_with_observed (pre := pre) (mid := .pt j (.load o w a) (.bits w v) :: mid) hw
    (by simpa using h) (by simpa using hreg) ?_ hv
  intro i' c r' hm cur
  rcases List.mem_cons.1 hm with hm | hm
  · cases hm; rfl
  · exact hmid i' c r' hm cur

/-- C34, after a failed compare-exchange that returned `Err(v)` (also a spurious failure). -/
theorem C34_cas_after_err {e : Endian} {w a : Nat} (hw : w % 8 = 0) {s0 s : SState}
    {pre mid post : List SEv} {i j : Nat} {s1 f1 so f : Ordering} {x y v new : BitVec w} {r : Ret}
    (h : SRun e s0 (pre ++ .pt j (.casWeak s1 f1 w a x y) (.cas w v false) :: mid ++
      .pt i (.cas so f w a v new) r :: post) s)
    (hreg : Regular e w a (pre ++ .pt j (.casWeak s1 f1 w a x y) (.cas w v false) :: mid ++
      .pt i (.cas so f w a v new) r :: post))
    (hmid : NoWrite w a mid) : r = .cas w v true := by
  have hv : v = lastWrite w a (load e s0.mem a w) pre := by
    have := C08_reads_last_write hw h hreg pre j (.casWeak s1 f1 w a x y) (.cas w v false)
      (mid ++ .pt i (.cas so f w a v new) r :: post) (by simp) ⟨rfl, rfl⟩
    simpa [Call.Answer] using this
  refine C34_cas_with_observed (pre := pre) (mid := .pt j (.casWeak s1 f1 w a x y) (.cas w v false) :: mid)
    hw (by simpa using h) (by simpa using hreg) ?_ hv
  intro i' c r' hm cur
  rcases List.mem_cons.1 hm with hm | hm
  · cases hm; rfl
  · exact hmid i' c r' hm cur

/-! ### C22: disjoint objects -/

/-- C22. Stores to disjoint objects commute. -/
theorem store_comm {e : Endian} {m : Mem} {a w b w' : Nat} {u : BitVec w} {v : BitVec w'}
    (h : b + w' / 8 ≤ a ∨ a + w / 8 ≤ b) :
    store e (store e m a w u) b w' v = store e (store e m b w' v) a w u := by
  funext x
  simp only [store]
  by_cases h1 : a ≤ x ∧ x < a + w / 8 <;> by_cases h2 : b ≤ x ∧ x < b + w' / 8 <;> simp [h1, h2]
  omega

/-- leave memory alone, or store -/
def applyEff (e : Endian) (a w : Nat) (g : Option (BitVec w)) (m : Mem) : Mem :=
  match g with
  | none => m
  | some v => store e m a w v

/-- What an operation does depends on memory only through its own object: its effect can be replayed on
any memory with the same bits in the object. -/
theorem sem_eff {e : Endian} {c : Call} {m m' : Mem} {r : Ret} (h : c.Sem e m m' r) :
    ∃ g, m' = applyEff e c.addr c.width g m ∧
      ∀ n, load e n c.addr c.width = load e m c.addr c.width →
        c.Sem e n (applyEff e c.addr c.width g n) r := by
  cases c with
  | load o w a =>
    obtain ⟨v, ⟨rfl, rfl⟩, rfl⟩ := h
    exact ⟨none, rfl, fun n hn => ⟨_, ⟨hn.symm, rfl⟩, rfl⟩⟩
  | store o w a v => obtain ⟨h, rfl⟩ := h; exact ⟨some v, h, fun n _ => ⟨rfl, rfl⟩⟩
  | swap o w a v =>
    obtain ⟨x, ⟨rfl, h⟩, rfl⟩ := h
    exact ⟨some v, h, fun n hn => ⟨_, ⟨hn.symm, rfl⟩, rfl⟩⟩
  | cas s f w a old new =>
    obtain ⟨x, ok, ⟨rfl, ⟨h1, rfl, h⟩ | ⟨h1, rfl, h⟩⟩, rfl⟩ := h
    · exact ⟨some new, h, fun n hn => ⟨_, _, ⟨hn.symm, .inl ⟨hn.trans h1, rfl, rfl⟩⟩, rfl⟩⟩
    · exact ⟨none, h, fun n hn => ⟨_, _, ⟨hn.symm, .inr ⟨fun h' => h1 (hn.symm.trans h'), rfl, rfl⟩⟩, rfl⟩⟩
  | casWeak s f w a old new =>
    obtain ⟨x, ok, ⟨rfl, ⟨h1, rfl, h⟩ | ⟨rfl, h⟩⟩, rfl⟩ := h
    · exact ⟨some new, h, fun n hn => ⟨_, _, ⟨hn.symm, .inl ⟨hn.trans h1, rfl, rfl⟩⟩, rfl⟩⟩
    · exact ⟨none, h, fun n hn => ⟨_, _, ⟨hn.symm, .inr ⟨rfl, rfl⟩⟩, rfl⟩⟩

/-- C22. Two operations on disjoint objects commute: done in the other order they give the same answers and
the same memory. -/
theorem C22_commute {e : Endian} {c d : Call} {m m1 m2 : Mem} {r q : Ret} (hc : c.width % 8 = 0)
    (hd : d.width % 8 = 0) (hdis : c.Off d.width d.addr) (h1 : c.Sem e m m1 r) (h2 : d.Sem e m1 m2 q) :
    ∃ m1', d.Sem e m m1' q ∧ c.Sem e m1' m2 r := by
  have hdis' : d.Off c.width c.addr := by unfold Call.Off at *; omega
  have hl1 : load e m d.addr d.width = load e m1 d.addr d.width := (sem_off hd h1 hdis).symm
  obtain ⟨g1, hm1, t1⟩ := sem_eff h1
  obtain ⟨g2, hm2, t2⟩ := sem_eff h2
  have hs := t2 m hl1
  refine ⟨_, hs, ?_⟩
  have := t1 _ (sem_off hc hs hdis')
  rw [hm2, hm1]
  have hcomm : applyEff e d.addr d.width g2 (applyEff e c.addr c.width g1 m) =
      applyEff e c.addr c.width g1 (applyEff e d.addr d.width g2 m) := by
    cases g1 <;> cases g2 <;> try rfl
    exact store_comm (by unfold Call.Off at hdis; omega)
  rw [hcomm]
  exact this

/-- C22. An operation leaves every byte outside its own object as it is. -/
theorem C22_frame {e : Endian} {c : Call} {m m' : Mem} {r : Ret} (h : c.Sem e m m' r) (x : Nat)
    (hx : x < c.addr ∨ c.addr + c.width / 8 ≤ x) : m' x = m x := by
  rcases sem_mem h with rfl | ⟨v, rfl⟩
  · rfl
  · exact store_outside hx

end Verif
