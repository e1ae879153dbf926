/-
C08 and C22 on the machine of Verif/Lin/Machine.lean: the history of one object is the history of a register on its own.

The specification (up to "Proofs") does not mention memory, blocks or any other object.
-/
import Verif.Lin.Weaken

namespace Verif

/-! ### Specification -/

/-- `r` is an answer to `c` that shows exactly the bits `cur`: they are returned unchanged, and a compare-exchange succeeds
only if they equal the expected bits. (When a strong compare-exchange has to succeed is C04.) -/
def Call.Sees {w : Nat} (cur : BitVec w) : Call → Ret → Prop
  | .load _ _ _, r => r = .bits w cur
  | .store _ _ _ _, r => r = .unit
  | .swap _ _ _ _, r => r = .bits w cur
  | .cas _ _ _ _ old _, r => ∃ ok, r = .cas w cur ok ∧ (ok = true → cur = old.setWidth w)
  | .casWeak _ _ _ _ old _, r => ∃ ok, r = .cas w cur ok ∧ (ok = true → cur = old.setWidth w)

/-- Events of a single register: calls and answers, and the instants at which the calls take effect. -/
inductive OEv where
  | h (x : HEv)
  | pt (i : Nat) (c : Call) (r : Ret)

/-- A single register of `w` bits, and the threads that use it. -/
structure OState (w : Nat) where
  val : BitVec w
  th : Nat → SThread

/-- Steps of the register (for the object at `a`): every call takes effect at one instant between call and answer, where it
sees the bits in the register and replaces them (`Call.after`). -/
inductive OStep (w a : Nat) : OState w → OEv → OState w → Prop where
  | inv (s : OState w) (i : Nat) (c : Call) (h : s.th i = .idle) (hon : c.On w a) :
      OStep w a s (.h (.inv i c)) ⟨s.val, upd s.th i (.pending c)⟩
  | pt (s : OState w) (i : Nat) (c : Call) (r : Ret) (h : s.th i = .pending c) (ha : c.Sees s.val r) :
      OStep w a s (.pt i c r) ⟨c.after w a s.val r, upd s.th i (.done c r)⟩
  | ret (s : OState w) (i : Nat) (c : Call) (r : Ret) (h : s.th i = .done c r) :
      OStep w a s (.h (.ret i c r)) ⟨s.val, upd s.th i .idle⟩

/-- Runs of the register. -/
inductive ORun (w a : Nat) (s0 : OState w) : List OEv → OState w → Prop where
  | nil : ORun w a s0 [] s0
  | snoc {tr s ev s'} (h : ORun w a s0 tr s) (hs : OStep w a s ev s') : ORun w a s0 (tr ++ [ev]) s'

/-- Calls and answers in a run of the register. -/
def OEv.vis : List OEv → List HEv
  | [] => []
  | .h x :: t => x :: vis t
  | .pt _ _ _ :: t => vis t

instance Call.decOn (c : Call) (w a : Nat) : Decidable (c.On w a) := by unfold Call.On; infer_instance

/-- The calls on the object at `a` and their answers, in a visible history that may be about many objects. -/
def objectPart (w a : Nat) : List VEv → List HEv
  | [] => []
  | .h (.inv i c) :: t => if c.On w a then .inv i c :: objectPart w a t else objectPart w a t
  | .h (.ret i c r) :: t => if c.On w a then .ret i c r :: objectPart w a t else objectPart w a t
  | .ext _ _ :: t => objectPart w a t

/-- C22. In every run of any number of threads on any number of disjoint objects, finished or not, the calls on one object
and their answers are those of a register on its own, which starts with the bits the object had and ends with those it has:
the operations on the other objects, even in the same machine word, are invisible. -/
def Backend.ObjectAlone {W : Nat} (A : Backend W) (P : Call → Prop) : Prop :=
  ∀ (w a : Nat), w % 8 = 0 → w ≠ 0 → ∀ (m0 : Mem) (tr : List GEv) (g : GState W),
    GRun A P ⟨m0, fun _ => .idle⟩ tr g → VRegular A.e w a (fun _ _ => True) (GEv.vis tr) →
    ∃ otr o, ORun w a ⟨load A.e m0 a w, fun _ => .idle⟩ otr o ∧ OEv.vis otr = objectPart w a (GEv.vis tr) ∧
      o.val = load A.e g.mem a w ∧ ∀ i, g.th i = .idle → o.th i = .idle

/-- The last bits written to the object (at `a`) in a sequence of events, `init` if there are none. -/
def lastBits (w a : Nat) (init : BitVec w) : List OEv → BitVec w
  | [] => init
  | .pt _ c r :: t => lastBits w a (c.after w a init r) t
  | .h _ :: t => lastBits w a init t

/-- The event is one of thread `i`. -/
def OEv.Of (i : Nat) : OEv → Prop
  | .h (.inv j _) => j = i
  | .h (.ret j _ _) => j = i
  | .pt j _ _ => j = i

/-- C08. In every run of any number of threads, the calls on one object take effect one after the other, each between call
and answer, and each sees, bit for bit, what the last one that wrote left there. -/
def Backend.ReadsLastWrite {W : Nat} (A : Backend W) (P : Call → Prop) : Prop :=
  ∀ (w a : Nat), w % 8 = 0 → w ≠ 0 → ∀ (m0 : Mem) (tr : List GEv) (g : GState W),
    GRun A P ⟨m0, fun _ => .idle⟩ tr g → VRegular A.e w a (fun _ _ => True) (GEv.vis tr) →
    ∃ otr : List OEv, OEv.vis otr = objectPart w a (GEv.vis tr) ∧
      (∀ pre i c r post, otr = pre ++ .pt i c r :: post → c.Sees (lastBits w a (load A.e m0 a w) pre) r) ∧
      (∀ pre i c r post, otr = pre ++ .h (.ret i c r) :: post → ∃ p q s,
        pre = p ++ .h (.inv i c) :: (q ++ .pt i c r :: s) ∧ ∀ ev ∈ q ++ s, ¬ ev.Of i) ∧
      load A.e g.mem a w = lastBits w a (load A.e m0 a w) otr

/-- Not a compare-exchange. -/
def Call.NoCas : Call → Prop
  | .cas .. => False
  | .casWeak .. => False
  | _ => True

/-! ### Proofs -/

theorem Call.Answer.sees {w : Nat} {cur : BitVec w} {c : Call} {r : Ret} (h : c.Answer cur r) : c.Sees cur r := by
  cases c with
  | load => exact h
  | store => exact h
  | swap => exact h
  | cas s f w' a' old new => exact ⟨_, h, fun hd => of_decide_eq_true hd⟩
  | casWeak => exact h

theorem objectPart_append (w a : Nat) (s t : List VEv) : objectPart w a (s ++ t) = objectPart w a s ++ objectPart w a t := by
  induction s with
  | nil => rfl
  | cons x s ih =>
    cases x with
    | ext => exact ih
    | h y => cases y <;> (simp only [List.cons_append, objectPart, ih]; split <;> rfl)

theorem OEv.vis_append (s t : List OEv) : OEv.vis (s ++ t) = OEv.vis s ++ OEv.vis t := by
  induction s with
  | nil => rfl
  | cons x s ih => cases x <;> simp [OEv.vis, ih]

theorem SEv.vis_append' (s t : List SEv) : SEv.vis (s ++ t) = SEv.vis s ++ SEv.vis t := by
  induction s with
  | nil => rfl
  | cons x s ih => cases x <;> simp [SEv.vis, ih]

theorem Call.on_not_off {c : Call} {w a : Nat} (hw : w % 8 = 0) (hw0 : w ≠ 0) (h : c.On w a) (h' : c.Off w a) : False := by
  obtain ⟨h1, h2⟩ := h
  unfold Call.Off at h'
  rw [h1, h2] at h'
  omega

/-- A thread, seen from the object. -/
def SThread.on (w a : Nat) : SThread → SThread
  | .idle => .idle
  | .pending c => if c.On w a then .pending c else .idle
  | .done c r => if c.On w a then .done c r else .idle

theorem upd_on (w a : Nat) (th : Nat → SThread) (i : Nat) (t : SThread) :
    (fun j => (upd th i t j).on w a) = upd (fun j => (th j).on w a) i (t.on w a) := by
  funext j; simp only [upd]; split <;> rfl

/-- Every run of the canonical object, seen from one of its objects. -/
theorem SRun.object {e : Endian} {w a : Nat} (hw : w % 8 = 0) (hw0 : w ≠ 0) {m0 : Mem} {str : List SEv} {s : SState}
    (h : SRun e ⟨m0, fun _ => .idle⟩ str s) (hreg : Regular e w a str) :
    ∃ otr, ORun w a ⟨load e m0 a w, fun _ => .idle⟩ otr ⟨load e s.mem a w, fun i => (s.th i).on w a⟩ ∧
      OEv.vis otr = objectPart w a (SEv.vis str) := by
  induction h with
  | nil => exact ⟨[], .nil, rfl⟩
  | snoc h hs ih =>
    rename_i tr s ev s'
    obtain ⟨otr, ho, hv⟩ := ih hreg.left
    rw [SEv.vis_append', objectPart_append, ← hv]
    cases hs with
    | ext m' =>
      refine ⟨otr, ?_, by simp [SEv.vis, objectPart]⟩
      have : load e m' a w = load e s.mem a w := hreg.2 _ _ (by simp)
      simpa only [this] using ho
    | inv i c hth =>
      simp only [upd_on]
      by_cases hon : c.On w a
      · have hp : SThread.on w a (.pending c) = .pending c := by simp [SThread.on, hon]
        rw [hp]
        refine ⟨_, ho.snoc (.inv _ i c (by simp only [hth]; rfl) hon), ?_⟩
        · rw [OEv.vis_append]; simp [OEv.vis, SEv.vis, objectPart, hon]
      · refine ⟨otr, ?_, by simp [SEv.vis, objectPart, hon]⟩
        have : upd (fun j => (s.th j).on w a) i (SThread.on w a (.pending c)) = fun j => (s.th j).on w a := by
          funext j; simp only [upd]; split
          · rename_i hj; subst hj; simp [hth, SThread.on, hon]
          · rfl
        rw [this]; exact ho
    | ret i c r hth =>
      simp only [upd_on]
      by_cases hon : c.On w a
      · refine ⟨_, ho.snoc (.ret _ i c r (by simp only [hth, SThread.on, hon, if_true])), ?_⟩
        rw [OEv.vis_append]; simp [OEv.vis, SEv.vis, objectPart, hon]
      · refine ⟨otr, ?_, by simp [SEv.vis, objectPart, hon]⟩
        have : upd (fun j => (s.th j).on w a) i (SThread.on w a .idle) = fun j => (s.th j).on w a := by
          funext j; simp only [upd]; split
          · rename_i hj; subst hj; simp [hth, SThread.on, hon]
          · rfl
        rw [this]; exact ho
    | pt i c r m' hth hsem =>
      simp only [upd_on]
      rcases hreg.1 i c r (by simp) with hon | hoff
      · obtain ⟨h1, h2⟩ := sem_on hw hsem hon
        rw [h2]
        have hd : SThread.on w a (.done c r) = .done c r := by simp [SThread.on, hon]
        rw [hd]
        refine ⟨_, ho.snoc (.pt _ i c r (by simp only [hth, SThread.on, hon, if_true]) h1.sees), ?_⟩
        rw [OEv.vis_append]; simp [OEv.vis, SEv.vis, objectPart]
      · have hon : ¬ c.On w a := fun h => Call.on_not_off hw hw0 h hoff
        refine ⟨otr, ?_, by simp [SEv.vis, objectPart]⟩
        rw [sem_off hw hsem hoff]
        have : upd (fun j => (s.th j).on w a) i (SThread.on w a (.done c r)) = fun j => (s.th j).on w a := by
          funext j; simp only [upd]; split
          · rename_i hj; subst hj; simp [hth, SThread.on, hon]
          · rfl
        rw [this]; exact ho

variable {W : Nat}

theorem Backend.Linearizable.objectAlone {A : Backend W} {P : Call → Prop} (hl : A.Linearizable P) : A.ObjectAlone P := by
  intro w a hw hw0 m0 tr g hr hreg
  obtain ⟨str, s, h1, h2, h3, h4⟩ := hl m0 tr g hr
  rw [← h2] at hreg ⊢
  have hR : Regular A.e w a str := ⟨fun i c r hm => (hreg.1 i c (h1.pt_inv hm)).imp (·.1) id,
    fun m m' hm => hreg.2 m m' (ext_vis hm)⟩
  obtain ⟨otr, ho, hv⟩ := h1.object hw hw0 hR
  exact ⟨otr, _, ho, hv, by rw [h3], fun i hi => by simp only [h4 i hi]; rfl⟩

/-! #### C08 from C22 -/

theorem lastBits_append {w a : Nat} (init : BitVec w) (s t : List OEv) :
    lastBits w a init (s ++ t) = lastBits w a (lastBits w a init s) t := by
  induction s generalizing init with
  | nil => rfl
  | cons x s ih => cases x <;> simp [lastBits, ih]

theorem ORun.value {w a : Nat} {s0 s : OState w} {otr : List OEv} (h : ORun w a s0 otr s) :
    s.val = lastBits w a s0.val otr := by
  induction h with
  | nil => rfl
  | snoc h hs ih => rw [lastBits_append, ← ih]; cases hs <;> rfl

theorem ORun.split {w a : Nat} {s0 s : OState w} {l : List OEv} (h : ORun w a s0 l s) :
    ∀ pre x post, l = pre ++ x :: post → ∃ s1 s2, ORun w a s0 pre s1 ∧ OStep w a s1 x s2 := by
  induction h with
  | nil => intro pre x post hl; simp at hl
  | snoc h hs ih =>
    rename_i tr s ev s'
    intro pre x post hl
    rcases List.eq_nil_or_concat post with rfl | ⟨post', y, rfl⟩
    · obtain ⟨rfl, hx⟩ := List.append_inj' hl rfl
      cases hx
      exact ⟨s, s', h, hs⟩
    · rw [List.concat_eq_append, ← List.cons_append, ← List.append_assoc] at hl
      obtain ⟨rfl, hx⟩ := List.append_inj' hl rfl
      exact ih pre x post' rfl

/-- What the events say about a thread in a state. -/
def OThreadOK (otr : List OEv) (i : Nat) : SThread → Prop
  | .idle => True
  | .pending c => ∃ p q, otr = p ++ .h (.inv i c) :: q ∧ ∀ ev ∈ q, ¬ ev.Of i
  | .done c r => ∃ p q s, otr = p ++ .h (.inv i c) :: (q ++ .pt i c r :: s) ∧ ∀ ev ∈ q ++ s, ¬ ev.Of i

theorem OThreadOK.snoc {otr : List OEv} {i : Nat} {t : SThread} (h : OThreadOK otr i t) {ev : OEv} (hev : ¬ ev.Of i) :
    OThreadOK (otr ++ [ev]) i t := by
  cases t with
  | idle => exact trivial
  | pending c =>
    obtain ⟨p, q, rfl, h⟩ := h
    refine ⟨p, q ++ [ev], by simp, fun x hx => ?_⟩
    rcases List.mem_append.1 hx with hx | hx
    · exact h x hx
    · rw [List.mem_singleton.1 hx]; exact hev
  | done c r =>
    obtain ⟨p, q, s, rfl, h⟩ := h
    refine ⟨p, q, s ++ [ev], by simp, fun x hx => ?_⟩
    rw [← List.append_assoc] at hx
    rcases List.mem_append.1 hx with hx | hx
    · exact h x hx
    · rw [List.mem_singleton.1 hx]; exact hev

theorem ORun.threads {w a : Nat} {v : BitVec w} {s : OState w} {otr : List OEv}
    (h : ORun w a ⟨v, fun _ => .idle⟩ otr s) (i : Nat) : OThreadOK otr i (s.th i) := by
  induction h with
  | nil => exact trivial
  | snoc h hs ih =>
    cases hs with
    | inv j c hth hon =>
      by_cases hij : i = j
      · subst hij; simp only [upd, if_true]; exact ⟨_, [], rfl, by simp⟩
      · simp only [upd, if_neg hij]; exact ih.snoc fun (h : j = i) => hij h.symm
    | ret j c r hth =>
      by_cases hij : i = j
      · subst hij; simp only [upd, if_true]; exact trivial
      · simp only [upd, if_neg hij]; exact ih.snoc fun (h : j = i) => hij h.symm
    | pt j c r hth ha =>
      by_cases hij : i = j
      · subst hij
        rw [hth] at ih
        obtain ⟨p, q, rfl, hq⟩ := ih
        simp only [upd, if_true]; exact ⟨p, q, [], by simp, by simpa using hq⟩
      · simp only [upd, if_neg hij]; exact ih.snoc fun (h : j = i) => hij h.symm

theorem Backend.ObjectAlone.readsLastWrite {A : Backend W} {P : Call → Prop} (h : A.ObjectAlone P) : A.ReadsLastWrite P := by
  intro w a hw hw0 m0 tr g hr hreg
  obtain ⟨otr, o, h1, h2, h3, _⟩ := h w a hw hw0 m0 tr g hr hreg
  refine ⟨otr, h2, ?_, ?_, ?_⟩
  · intro pre i c r post hs
    obtain ⟨s1, s2, h4, h5⟩ := h1.split pre _ post hs
    cases h5 with
    | pt _ _ _ hth ha => rw [h4.value] at ha; exact ha
  · intro pre i c r post hs
    obtain ⟨s1, s2, h4, h5⟩ := h1.split pre _ post hs
    cases h5 with
    | ret _ _ _ hth =>
      have := h4.threads i
      rw [hth] at this
      exact this
  · rw [← h3]; exact h1.value

/-! #### Back ends whose strong compare-exchange is only weak -/

theorem Call.sees_weaken {w : Nat} {cur : BitVec w} {c : Call} {r : Ret} : c.weaken.Sees cur r ↔ c.Sees cur r := by
  cases c <;> exact Iff.rfl
theorem Call.after_weaken {w a : Nat} {cur : BitVec w} {c : Call} {r : Ret} : c.weaken.after w a cur r = c.after w a cur r := by
  cases c
  case cas => cases r with
    | cas _ _ ok => cases ok <;> rfl
    | _ => rfl
  all_goals rfl

def SThread.weaken : SThread → SThread
  | .idle => .idle
  | .pending c => .pending c.weaken
  | .done c r => .done c.weaken r
/-- The call a thread is in. -/
def SThread.call : SThread → Option Call
  | .idle => none
  | .pending c => some c
  | .done c _ => some c

/-- A history in which calls and answers alternate in every thread; `t i` is the call thread `i` is in. -/
inductive Alternates : List HEv → (Nat → Option Call) → Prop where
  | nil : Alternates [] fun _ => none
  | inv {v t} (h : Alternates v t) (i c) (hi : t i = none) : Alternates (v ++ [.inv i c]) (upd t i (some c))
  | ret {v t} (h : Alternates v t) (i c r) (hi : t i = some c) : Alternates (v ++ [.ret i c r]) (upd t i none)

theorem Alternates.inv_inv {v : List HEv} {t} {i : Nat} {c : Call} (h : Alternates (v ++ [.inv i c]) t) :
    ∃ t', Alternates v t' ∧ t' i = none ∧ t = upd t' i (some c) := by
  generalize hx : v ++ [HEv.inv i c] = x at h
  cases h with
  | nil => simp at hx
  | inv h j d hj => obtain ⟨rfl, h2⟩ := List.append_inj' hx rfl; cases h2; exact ⟨_, h, hj, rfl⟩
  | ret h j d r hj => obtain ⟨rfl, h2⟩ := List.append_inj' hx rfl; cases h2
theorem Alternates.ret_inv {v : List HEv} {t} {i : Nat} {c : Call} {r : Ret} (h : Alternates (v ++ [.ret i c r]) t) :
    ∃ t', Alternates v t' ∧ t' i = some c ∧ t = upd t' i none := by
  generalize hx : v ++ [HEv.ret i c r] = x at h
  cases h with
  | nil => simp at hx
  | inv h j d hj => obtain ⟨rfl, h2⟩ := List.append_inj' hx rfl; cases h2
  | ret h j d r hj => obtain ⟨rfl, h2⟩ := List.append_inj' hx rfl; cases h2; exact ⟨_, h, hj, rfl⟩

/-- The call on the object a thread is in. -/
def Thread.callOn (w a : Nat) : Thread W → Option Call
  | .idle => none
  | .run c _ _ _ _ => if c.On w a then some c else none

theorem Disturbed.callOn {m m' : Mem} {t t' : Thread W} (h : Disturbed m m' t t') (w a : Nat) :
    t'.callOn w a = t.callOn w a := by
  cases h <;> rfl

theorem GEv.vis_append' (s t : List GEv) : GEv.vis (s ++ t) = GEv.vis s ++ GEv.vis t := by
  induction s with
  | nil => rfl
  | cons x s ih => cases x <;> simp [GEv.vis, ih]

/-- The steps of a thread inside its operation are invisible. -/
theorem vis_own {i : Nat} {t : List GEv} (h : ∀ ev ∈ t, ∃ x m m', ev = GEv.own i x m m') : GEv.vis t = [] := by
  induction t with
  | nil => rfl
  | cons x t ih =>
    obtain ⟨y, m, m', rfl⟩ := h x (by simp)
    exact ih fun ev hev => h ev (by simp [hev])

theorem GRun.alternates {A : Backend W} {P : Call → Prop} {m0 : Mem} {tr : List GEv} {g : GState W}
    (h : GRun A P ⟨m0, fun _ => .idle⟩ tr g) (w a : Nat) :
    Alternates (objectPart w a (GEv.vis tr)) fun i => (g.th i).callOn w a := by
  induction h with
  | nil => exact .nil
  | snoc h hs ih =>
    rename_i tr g ev g'
    rw [GEv.vis_append', objectPart_append]
    cases hs with
    | inv i c B rs r hidle hp hv hB hpre =>
      by_cases hon : c.On w a
      · have := ih.inv i c (by simp only [hidle]; rfl)
        simp only [GEv.vis, objectPart, hon, if_true]
        refine cast (congrArg _ ?_) this
        funext j; simp only [upd]; split
        · simp [Thread.callOn, hon]
        · rfl
      · simp only [GEv.vis, objectPart, hon, if_false, List.append_nil]
        refine cast (congrArg _ ?_) ih
        funext j; simp only [upd]; split
        · rename_i hj; subst hj; simp [Thread.callOn, hon, hidle]
        · rfl
    | ret i c B rs r hrun =>
      by_cases hon : c.On w a
      · have := ih.ret i c (c.result B rs) (by simp only [hrun, Thread.callOn, hon, if_true])
        simp only [GEv.vis, objectPart, hon, if_true]
        refine cast (congrArg _ ?_) this
        funext j; simp only [upd]; split <;> rfl
      · simp only [GEv.vis, objectPart, hon, if_false, List.append_nil]
        refine cast (congrArg _ ?_) ih
        funext j; simp only [upd]; split
        · rename_i hj; subst hj; simp [Thread.callOn, hon, hrun]
        · rfl
    | ext m' th' hd =>
      simp only [GEv.vis, objectPart, List.append_nil]
      refine cast (congrArg _ ?_) ih
      funext j; exact ((hd j).callOn w a).symm
    | own i c B pc rs r ins ev c' th' hrun hi hs hth hd =>
      simp only [GEv.vis, objectPart, List.append_nil]
      refine cast (congrArg _ ?_) ih
      funext j
      by_cases hj : j = i
      · subst hj; simp only [hth, hrun]; rfl
      · exact ((hd j hj).callOn w a).symm

theorem objectPart_weaken (w a : Nat) (v : List VEv) :
    objectPart w a (v.map VEv.weaken) = (objectPart w a v).map HEv.weaken := by
  induction v with
  | nil => rfl
  | cons x t ih =>
    cases x with
    | ext => exact ih
    | h y =>
      cases y <;>
        (simp only [List.map_cons, VEv.weaken, HEv.weaken, objectPart, on_weaken, ih]; split <;> simp [HEv.weaken])

/-- A run of the register with the weakened calls comes from one with the calls themselves. -/
theorem ORun.unweaken {w a : Nat} {v0 : BitVec w} {otr' : List OEv} {o' : OState w}
    (h : ORun w a ⟨v0, fun _ => .idle⟩ otr' o') : ∀ (v : List HEv) (t : Nat → Option Call),
      v.map HEv.weaken = OEv.vis otr' → Alternates v t → ∃ otr o, ORun w a ⟨v0, fun _ => .idle⟩ otr o ∧ OEv.vis otr = v ∧
        o.val = o'.val ∧ (∀ i, o'.th i = (o.th i).weaken) ∧ ∀ i, (o.th i).call = t i := by
  induction h with
  | nil =>
    intro v t hv ha
    have hv : v = [] := List.map_eq_nil_iff.1 hv
    subst hv
    generalize hx : ([] : List HEv) = x at ha
    cases ha with
    | nil => exact ⟨[], _, .nil, rfl, rfl, fun _ => rfl, fun _ => rfl⟩
    | inv => simp at hx
    | ret => simp at hx
  | snoc h hs ih =>
    rename_i tr s ev s'
    intro v t hv ha
    rw [OEv.vis_append] at hv
    cases hs with
    | inv i c hth hon =>
      simp only [OEv.vis] at hv
      rcases List.eq_nil_or_concat v with rfl | ⟨v', y, rfl⟩
      · simp at hv
      rw [List.concat_eq_append] at hv ha ⊢
      rw [List.map_append] at hv
      obtain ⟨hv', hy⟩ := List.append_inj' hv rfl
      cases y with
      | ret => simp [HEv.weaken] at hy
      | inv j d =>
        simp only [List.map_cons, List.map_nil, HEv.weaken, List.cons.injEq, HEv.inv.injEq, and_true] at hy
        obtain ⟨rfl, rfl⟩ := hy
        obtain ⟨t', h1, h2, rfl⟩ := ha.inv_inv
        obtain ⟨otr, o, g1, g2, g3, g4, g5⟩ := ih v' t' hv' h1
        have hi : o.th j = .idle := by
          have := g5 j; rw [h2] at this
          cases hx : o.th j <;> rw [hx] at this <;> simp [SThread.call] at this ⊢
        refine ⟨_, _, g1.snoc (.inv _ j d hi ((on_weaken _ _ _).1 hon)), ?_, g3, ?_, ?_⟩
        · rw [OEv.vis_append, g2]; rfl
        · intro k; simp only [upd]; split
          · rfl
          · exact g4 k
        · intro k; simp only [upd]; split
          · rfl
          · exact g5 k
    | ret i c r hth =>
      simp only [OEv.vis] at hv
      rcases List.eq_nil_or_concat v with rfl | ⟨v', y, rfl⟩
      · simp at hv
      rw [List.concat_eq_append] at hv ha ⊢
      rw [List.map_append] at hv
      obtain ⟨hv', hy⟩ := List.append_inj' hv rfl
      cases y with
      | inv => simp [HEv.weaken] at hy
      | ret j d q =>
        simp only [List.map_cons, List.map_nil, HEv.weaken, List.cons.injEq, HEv.ret.injEq, and_true] at hy
        obtain ⟨rfl, rfl, rfl⟩ := hy
        obtain ⟨t', h1, h2, rfl⟩ := ha.ret_inv
        obtain ⟨otr, o, g1, g2, g3, g4, g5⟩ := ih v' t' hv' h1
        have hi : o.th j = .done d q := by
          have e1 := g5 j; rw [h2] at e1
          have e2 := g4 j; rw [hth] at e2
          cases hx : o.th j with
          | idle => rw [hx] at e1; cases e1
          | pending c => rw [hx] at e2; cases e2
          | done c r =>
            rw [hx] at e1 e2
            cases e1
            injection e2 with _ e2
            rw [e2]
        refine ⟨_, _, g1.snoc (.ret _ j d q hi), ?_, g3, ?_, ?_⟩
        · rw [OEv.vis_append, g2]; rfl
        · intro k; simp only [upd]; split
          · rfl
          · exact g4 k
        · intro k; simp only [upd]; split
          · rfl
          · exact g5 k
    | pt i c r hth hsees =>
      simp only [OEv.vis, List.append_nil] at hv
      obtain ⟨otr, o, g1, g2, g3, g4, g5⟩ := ih v t hv ha
      have e2 := g4 i; rw [hth] at e2
      cases hx : o.th i with
      | idle => rw [hx] at e2; cases e2
      | done d q => rw [hx] at e2; cases e2
      | pending d =>
        rw [hx] at e2
        injection e2 with e2
        subst e2
        refine ⟨_, _, g1.snoc (.pt _ i d r hx (by rw [g3]; exact Call.sees_weaken.1 hsees)), ?_, ?_, ?_, ?_⟩
        · rw [OEv.vis_append, g2]; simp [OEv.vis]
        · simp only [g3]; exact Call.after_weaken.symm
        · intro k; simp only [upd]; split
          · rfl
          · exact g4 k
        · intro k; simp only [upd]; split
          · rename_i hk; subst hk
            have := g5 k; rw [hx] at this; exact this
          · exact g5 k

theorem Backend.objectAlone_of_weakened {A : Backend W} (h : A.weakened.ObjectAlone fun _ => True) (P : Call → Prop) :
    A.ObjectAlone P := by
  intro w a hw hw0 m0 tr g hr hreg
  obtain ⟨otr', o', h1, h2, h3, h4⟩ := h w a hw hw0 m0 _ _ (grun_weaken hr) (by
    rw [vis_weaken]; exact vregular_weaken (fun i c hc => hc) hreg)
  rw [vis_weaken, objectPart_weaken] at h2
  obtain ⟨otr, o, g1, g2, g3, g4, g5⟩ := h1.unweaken _ _ h2.symm (hr.alternates w a)
  refine ⟨otr, o, g1, g2, g3.trans h3, fun i hi => ?_⟩
  have := g5 i
  simp only [hi] at this
  cases hx : o.th i <;> rw [hx] at this <;> simp [SThread.call, Thread.callOn] at this ⊢

/-- C22 for every good back end. -/
theorem Good.objectAlone {A : Backend W} {sc : List Mon} (h : Good A sc) (hp : A.ProgressOK) (P : Call → Prop) :
    A.ObjectAlone P := Backend.objectAlone_of_weakened (h.linearizable_weakened hp).objectAlone P
/-- C08 for every good back end. -/
theorem Good.readsLastWrite {A : Backend W} {sc : List Mon} (h : Good A sc) (hp : A.ProgressOK) (P : Call → Prop) :
    A.ReadsLastWrite P := (h.objectAlone hp P).readsLastWrite

end Verif
