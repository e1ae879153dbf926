#!/usr/bin/env python3
"""Generates lean/Verif/Props/HW.lean from the C21 theorems: the textbook form of linearizability for each back end."""
import re
out = ["/- Generated by tools/hw.py. C21 in the form of Herlihy and Wing, for each back end. -/",
       "import Verif.Props.LinMore", "import Verif.Props.Avr", "import Verif.Props.Msp430", "import Verif.Lin.SC", "", "namespace Verif", ""]
for f in ["Lin", "LinMore"]:
    s = open(f"/verif/lean/Verif/Props/{f}.lean").read()
    for m in re.finditer(r"theorem (C21_(\w+)) *(.*) : (\(.*\))\.Linearizable (.*) :=\n", s):
        full, name, args, be, P = m.groups()
        use = " ".join(x.strip() for g in re.findall(r"[({](.*?)[)}]", args.replace("(hW : W = 32 ∨ W = 64)", "(hW : _)"))
                       for x in [g.split(":")[0]] if not g.startswith("W :"))
        part = name.endswith("_partial")
        n = name[:-8] if part else name
        out.append(f"theorem C21_hw_{n}{'_partial' if part else ''} {args} : {be}.Herlihy {P} := ({full} {use}).herlihy")
out.append("""
/-- C21 in the textbook form on one core with interrupts, for runs that end with only the main program active. -/
def IBackend.Herlihy {W : Nat} (A : IBackend W) (P : Call → Prop) : Prop :=
  ∀ (m0 m : Mem) (tr : List IEv), ISRun A P ⟨m0, .idle, []⟩ tr ⟨m, .idle, []⟩ →
    (∀ m m', IEv.ext m m' ∉ tr) → HWLinearizable A.e m0 (IEv.vis tr) m

theorem iext_vis {m m' : Mem} {tr : List IEv} (h : VEv.ext m m' ∈ IEv.vis tr) : IEv.ext m m' ∈ tr := by
  induction tr with
  | nil => simp [IEv.vis] at h
  | cons x t ih =>
    cases x with
    | h y => simp [IEv.vis] at h; exact List.mem_cons_of_mem _ (ih h)
    | own => simp [IEv.vis] at h; exact List.mem_cons_of_mem _ (ih h)
    | irq => simp [IEv.vis] at h; exact List.mem_cons_of_mem _ (ih h)
    | reti => simp [IEv.vis] at h; exact List.mem_cons_of_mem _ (ih h)
    | ext a b =>
      simp [IEv.vis] at h
      rcases h with ⟨rfl, rfl⟩ | h
      · exact List.mem_cons_self
      · exact List.mem_cons_of_mem _ (ih h)

theorem IBackend.Linearizable.herlihy {W : Nat} {A : IBackend W} {P : Call → Prop} (h : A.Linearizable P) :
    A.Herlihy P := by
  intro m0 m tr hr hext
  obtain ⟨str, s, h1, h2, h3, h4⟩ := h m0 tr _ hr
  obtain ⟨h3, h5⟩ := h3 rfl
  have h3 : s.mem = m := h3
  rw [← h2, ← h3]
  refine h1.hw (fun i => ?_) fun m m' hm => hext m m' (iext_vis (h2 ▸ hm))
  cases i with
  | zero => exact h5
  | succ i => exact h4 _ (Nat.succ_pos i)

theorem C21_hw_avr (P) : Avr.backend.Herlihy P := (Avr.C21_avr P).herlihy
theorem C21_hw_msp430 (P) : Msp430.backend.Herlihy P := (Msp430.C21_msp430 P).herlihy""")
out += ["", "end Verif", ""]
open("/verif/lean/Verif/Props/HW.lean", "w").write("\n".join(out))
