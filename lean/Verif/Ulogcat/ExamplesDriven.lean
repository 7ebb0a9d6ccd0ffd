import Verif.Ulogcat.PropsDriven
import Verif.Kernel.ExamplesBase

/-!
# A concrete dump meeting the hypotheses of C90 and C91

Two entries are in the log when the viewer opens it. A third is written while the
second, for which the small buffer is too small, is being read.
-/
namespace Verif.Ulogcat.Examples.Driven
open Verif Verif.Kernel Verif.Kernel.Examples Verif.Libulog Verif.Ulogcat

def before : List Op :=
  [.openF 0 true false true, .openF 1 false true false, .write 1 t1 (txt 20 65) noJunk,
   .write 1 t2 (txt 180 66) noJunk]

def third : Op := .write 1 t1 (.ubuf ([4, 0, 0, 0, 116, 0, 104, 105, 0].map some)) noJunk

/-- Nothing happened yet. -/
def start : DW := { sys := Kernel.init dev 14 noJunk, tr := [], os := [], env := [[], [], [], [], [], [], [third]] }
/-- The viewer has opened the device, and others have written to it. -/
def opened : DW := start.execAll before
/-- It has asked for the amount that is readable. -/
def asked : DW := (opened.exec (.getLogLen 0)).1

def W : World DW := driverWorld 0 0 false (fun _ => true) 3

def final := processLogs W true 0 20 (openCtx [266] 0) asked 0

/-- The dump as seen from outside: the time stamps of the entries printed. -/
def stamps (c : Ctx) : List Nat := c.out.map fun e => match e with | .entry f => f.stamp | .banner .. => 0

def plainOp : Op → Bool
  | .flush _ => false
  | _ => true

def good : Bool :=
  match final with
  | .ok (c, w, r) => r == some 0 && stamps c == [5000000, 7000000, 5000000] && !c.outErr &&
      w.tr.all (fun p => plainOp p.1) && decide (Genuine (obs dev w.tr).hist) && (obs dev w.tr).hist.length == 3 &&
      w.os.length == 3
  | .error _ => false

theorem good_ok : good = true := by decide +kernel

theorem opened_tr : opened.tr.map (·.2) = [.ok, .ok, .ret 20, .ret 180] := by decide +kernel
theorem asked_tr : (opened.exec (.getLogLen 0)).2 = some (.ret 266) := by decide +kernel

theorem real_start : start.Real dev 14 noJunk :=
  ⟨⟨[], by simp, rfl⟩, by decide⟩

theorem real_asked : asked.Real dev 14 noJunk := by
  have h1 : opened.Real dev 14 noJunk := real_start.execAll before (by decide)
  exact (h1.exec (op := .getLogLen 0) rfl).1

/-- `C91_dump` (and `C90_printed`): the hypotheses hold; three entries are printed. -/
example : ∃ c w', processLogs W true 0 20 (openCtx [266] 0) asked 0 = .ok (c, w', some 0) ∧
    Drives W 0 0 0 false (fun _ => true) id DW.tr DW.os ∧ asked.os = [] ∧
    (∃ ops, Run dev 14 noJunk ops w'.sys w'.tr) ∧ asked.tr = opened.tr ++ [(.getLogLen 0, .ret 266)] ∧
    At dev opened.tr 0 0 ∧ (∀ t, w'.tr = opened.tr ++ t → NoFlush t) ∧
    calls W true [(20, 0)] (openCtx [266] 0) asked = .ok (c, w') ∧
    c.outErr = false ∧ stamps c = [5000000, 7000000, 5000000] ∧ (obs dev w'.tr).hist.length = 3 := by
  have hg := good_ok
  unfold good at hg
  cases hf : final with
  | error e => rw [hf] at hg; cases hg
  | ok x =>
    obtain ⟨c, w', r⟩ := x
    rw [hf] at hg
    simp only [Bool.and_eq_true, beq_iff_eq, Bool.not_eq_true', decide_eq_true_eq, List.all_eq_true] at hg
    obtain ⟨⟨⟨⟨⟨⟨h1, h2⟩, h3⟩, h4⟩, h5⟩, h6⟩, h7⟩ := hg
    subst h1
    have hreal := (driverWorld_real 0 0 false (fun _ => true) 3 dev 14 noJunk).logs real_asked hf
    refine ⟨c, w', hf, driverWorld_drives 0 0 false _ 3, ?_, hreal.run (by omega) (by decide) h5 (by omega), ?_, ?_, ?_, ?_,
      h3, h2, h6⟩
    · obtain ⟨_, _, _, h⟩ := DW.execAll_tr 77 before start (by decide)
      have := DW.exec_some (w := opened) (w' := asked) (op := .getLogLen 0) (o := .ret 266) (by
        unfold asked; rw [← asked_tr])
      rw [this.2]
      exact h
    · exact (DW.exec_some (w := opened) (w' := asked) (op := .getLogLen 0) (o := .ret 266) (by
        unfold asked; rw [← asked_tr])).1
    · exact ⟨{ all := true, ver := 2, got := 0, told := 0 }, by decide +kernel, rfl, rfl, by decide +kernel⟩
    · intro t ht p hp g hpg
      have := h4 p (by rw [ht]; simp [hp])
      rw [hpg] at this
      cases this
    · have hf' : processLogs W true 0 20 (openCtx [266] 0) asked 0 = .ok (c, w', some 0) := hf
      simp [calls, hf', Except.bind]

end Verif.Ulogcat.Examples.Driven
