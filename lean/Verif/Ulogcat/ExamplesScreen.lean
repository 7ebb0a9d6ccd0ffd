import Verif.Ulogcat.PropsScreen
import Verif.Ulogcat.ExamplesDriven
import Verif.Ulogcat.ExamplesText

/-!
# A concrete dump meeting the hypotheses of C98

The dump of `ExamplesDriven`, written to a stream.
-/
namespace Verif.Ulogcat.Examples.Screen
open Verif Verif.Kernel Verif.Kernel.Examples Verif.Libulog Verif.Ulogcat Verif.Ulogcat.Examples Verif.Ulogcat.Examples.Driven

def look : Look := looks .short

def V : World DW := driverWorld 0 0 false (canRender look) 3

def final := processLogs V true 0 20 (openCtx [266] 0) asked 0

def good : Bool :=
  match final with
  | .ok (c, w, r) => r == some 0 && !c.outErr && w.tr.all (fun p => plainOp p.1) && decide (Genuine (obs dev w.tr).hist) &&
      (obs dev w.tr).hist.length == 3
  | .error _ => false

theorem good_ok : good = true := by decide +kernel

def stream : Scr DW → OutEv → List WrAns := fun _ _ => [.took 6000]

/-- `C98_run`, and so `C98_dump` and `C98_screen`: three entries are in the log, and the
bytes on the stream are their texts. -/
theorem dump_shown : ∃ c t all, processLogs (V.onto .file (fun _ => []) (entriesBy look all) stream) true 0 20 (openCtx [266] 0)
      ⟨asked, List.replicate 5248 170, []⟩ 0 = .ok (c, t, some 0) ∧ all = t.st.os ∧
    (obs dev t.st.tr).hist.length = 3 ∧
    ∃ q, 2 ≤ q ∧ q ≤ 3 ∧ OnScreen look dev (2 ^ 14) (obs dev t.st.tr).hist 0 t.bytes q := by
  have hg := good_ok
  unfold good at hg
  cases hf : final with
  | error e => rw [hf] at hg; cases hg
  | ok x =>
    obtain ⟨c, w', r⟩ := x
    rw [hf] at hg
    simp only [Bool.and_eq_true, beq_iff_eq, Bool.not_eq_true', decide_eq_true_eq, List.all_eq_true] at hg
    obtain ⟨⟨⟨⟨h1, h3⟩, h4⟩, h5⟩, h6⟩ := hg
    subst h1
    have hreal := (driverWorld_real 0 0 false (canRender look) 3 dev 14 noJunk).logs real_asked hf
    obtain ⟨ops, hrun⟩ := hreal.run (by omega) (by decide) h5 (by omega)
    have hex := DW.exec_some (w := opened) (w' := asked) (op := .getLogLen 0) (o := .ret 266) (by
        unfold asked; rw [← asked_tr])
    obtain ⟨t, t1, t2, q, q1, q2, q3⟩ := C98_run (ans := stream) (paths := fun _ => []) (buf0 := List.replicate 5248 170)
      (driverWorld_drives 0 0 false (canRender look) 3) (L := look) rfl (fun h => by cases h) (fun _ _ => rfl)
      (fun _ _ => ⟨6000, rfl, by omega⟩) (Int.le_refl 0) hf (by
        obtain ⟨_, _, _, h⟩ := DW.execAll_tr 77 before start (by decide)
        rw [hex.2]; exact h) List.length_replicate h3 hrun (t1 := []) hex.1 (by intro x hx; cases hx) (p := 0)
      ⟨{ all := true, ver := 2, got := 0, told := 0 }, by decide +kernel, rfl, rfl, by decide +kernel⟩
      (by
        intro t ht p hp g hpg
        have := h4 p (by rw [ht]; simp [hp])
        rw [hpg] at this
        cases this)
    refine ⟨c, t, w'.os, t1, by rw [t2], by rw [t2]; exact h6, q, ?_, by omega, by rw [t2]; exact q3⟩
    have : (obs dev opened.tr).hist.length = 2 := by decide +kernel
    omega

/-- `C98_text`: two lines logged by a thread of a program. -/
example : ∃ e, (obs dev (opened.tr ++ [(.write 1 t1 (userVec (writerKernel 6 (ascii "tag") (ascii "one\ntwo" ++ [0]))) noJunk, .ret 16)])).hist =
      (obs dev opened.tr).hist ++ [e] ∧
    entryText look e = ascii "U I tag         : one\nU I tag         : two\n" := by
  obtain ⟨e, h1, h2⟩ := C98_text look rfl dev opened.tr 1 t1 noJunk 16 (prio := 6) (tag := ascii "tag") (text := ascii "one\ntwo")
    (by decide +kernel) (by decide) (by decide) (by decide) (by decide)
  refine ⟨e, h1, ?_⟩
  rw [h2]
  decide +kernel

/-- `C98_notice`. -/
example : entryText look (summaryEntry dev 12 (plainSpec t1 [])) = ascii "U W ulog_main   : 12 log entries dropped\n" := by
  rw [C98_notice look rfl (by decide) (by decide)]
  decide +kernel

end Verif.Ulogcat.Examples.Screen
