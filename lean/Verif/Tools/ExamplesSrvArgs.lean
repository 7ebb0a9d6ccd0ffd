import Verif.Tools.PropsSrvArgs
import Verif.Tools.ExamplesGetopt

/-! # Lines of arguments meeting the hypotheses of C144 -/
namespace Verif.Tools.Getopt.Examples
open Verif Verif.Libulog Verif.Tools Verif.Tools.CtlSrv Verif.Tools.Getopt

/-- `ulogctl-srv -pu first x --unix=second -i 80` -/
theorem srvUnix : SrvLine true ([.process, .unix (ascii "first")] ++ .unix (ascii "second") :: [.inet (ascii "80")]) [ascii "x"]
    [ascii "-pu", ascii "first", ascii "x", ascii "--unix=second", ascii "-i", ascii "80"] := by
  have hu : Names srvGram (ascii "unix") ⟨ascii "unix", true, 117⟩ := (find_names srvTable (by decide +kernel) _).1 (by decide +kernel)
  refine .pair (ws := [(112, none)]) (o := 117) (.letters (by decide +kernel) (.flag (by decide +kernel) (.wants (by decide +kernel)))) ?_
  refine .operand (by decide +kernel) ?_
  refine .word (ws := [(117, some (ascii "second"))]) (.longIs hu rfl) ?_
  exact .pair (ws := []) (o := 105) (.letters (by decide +kernel) (.wants (by decide +kernel))) .done

/-- `C144_unix` -/
example : Makes true [ascii "-pu", ascii "first", ascii "x", ascii "--unix=second", ascii "-i", ascii "80"] (some (.unix (ascii "second"))) :=
  C144_unix srvUnix (by decide +kernel) (by simp)

/-- `ulogctl-srv --in 80 -p -i4711` -/
theorem srvInet : SrvLine false ([.inet (ascii "80"), .process] ++ .inet (ascii "4711" ++ []) :: []) []
    [ascii "--in", ascii "80", ascii "-p", ascii "-i4711"] := by
  have hi : Names srvGram (ascii "in") ⟨ascii "inet", true, 105⟩ := (find_names srvTable (by decide +kernel) _).1 (by decide +kernel)
  refine .pair (ws := []) (o := 105) (.longWants (by decide +kernel) hi rfl) ?_
  refine .word (ws := [(112, none)]) (.letters (by decide +kernel) (.flag (by decide +kernel) .done)) ?_
  exact .word (ws := [(105, some (ascii "4711"))]) (.letters (by decide +kernel) (.glued (by decide +kernel) (by decide +kernel))) .done

/-- `C144_inet` -/
example : Makes false [ascii "--in", ascii "80", ascii "-p", ascii "-i4711"] (some (.inet 4711)) :=
  C144_inet srvInet (by decide +kernel) (by simp) (by simp)
    ⟨[], [], ascii "4711", rfl, by simp, .inl rfl, by decide +kernel, by decide +kernel, by decide +kernel⟩ (by simp) (by decide) (by decide) (by decide)

/-- `C144_process`: `ulogctl-srv --p x`, and no words. -/
example : Makes true [ascii "--p", ascii "x"] (some .process) ∧ Makes true [] none := by
  have hp : Names srvGram (ascii "p") ⟨ascii "process", false, 112⟩ := (find_names srvTable (by decide +kernel) _).1 (by decide +kernel)
  have h : SrvLine true [.process] [ascii "x"] [ascii "--p", ascii "x"] :=
    .word (ws := [(112, none)]) (.long (by decide +kernel) hp rfl) (.operand (by decide +kernel) .done)
  exact ⟨C144_process h (by simp) (by simp) (by simp), C144_process (opts := []) (ops := []) .done (by simp) (by simp) (by simp)⟩

/-- `C144_refused`: `-i` without a port; `C144_help`: `-ph`. -/
example : (¬ ∃ os ops, Line srvGram true os ops [ascii "-p", ascii "-i"]) ∧ SrvLine true [.process, .help] [] [ascii "-ph"] :=
  ⟨(C141_refused srvTable _).1 (by decide +kernel),
    .word (ws := [(112, none), (104, none)]) (.letters (by decide +kernel) (.flag (by decide +kernel) (.flag (by decide +kernel) .done))) .done⟩

theorem noNumber {c : UInt8} {s : Bytes} (h1 : c ∉ blanks) (h2 : c ≠ 43) (h3 : c ≠ 45) (h4 : Kernel.isDigit c = false) : NoNumber (c :: s) := by
  rintro a r v e ⟨sp, sg, ds, rfl, hsp, hsg, hds, hd, _⟩
  cases sp with
  | cons b sp =>
    have : c = b := (List.cons.inj e).1
    exact h1 (this ▸ hsp b (by simp))
  | nil =>
    rcases hsg with rfl | rfl | rfl
    · cases ds with
      | nil => exact hds rfl
      | cons d ds =>
        have : c = d := (List.cons.inj e).1
        have := hd d (by simp)
        simp_all
    · exact h2 (List.cons.inj e).1
    · exact h3 (List.cons.inj e).1

/-- `C144_false_port`: `-i ssh` -/
example : Makes true [ascii "-i", ascii "ssh"] (some (.inet 0)) :=
  C144_false_port (a := ascii "ssh") (ops := []) (.pair (ws := []) (o := 105) (.letters (by decide +kernel) (.wants (by decide +kernel))) .done)
    (noNumber (c := 115) (s := [115, 104]) (by decide +kernel) (by decide) (by decide) (by decide))

end Verif.Tools.Getopt.Examples
