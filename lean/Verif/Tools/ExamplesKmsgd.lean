import Verif.Tools.PropsKmsgd

/-!
# Concrete streams for the kernel message daemon
-/
namespace Verif.Tools.Examples
open Verif Verif.Ulogcat Verif.Tools

def room (n : Nat) : KState := { buf := List.replicate n 170, offset := 0 }

def logged (ns : List Nat) (s : KState) (stream : Bytes) : Option (List KOut) := (kmsgdRun ns s stream).map fun x => x.2.2

def boot : Bytes := ascii "<6>up\n<4>cpu0\n<6>"

/-- Hypotheses of `C41_lines` and `C41_all`, and what they say for two ways of cutting. -/
example : NoNul boot ∧ Short 20 boot := by
  constructor
  · unfold NoNul; decide
  · refine ⟨?_, by decide⟩
    decide
example : logged [3, 1, 9, 100, 100] (room 20) boot = some [.line (ascii "<6>up"), .line (ascii "<4>cpu0")] := by decide +kernel
example : logged (List.replicate 17 1) (room 20) boot = some [.line (ascii "<6>up"), .line (ascii "<4>cpu0")] := by decide +kernel

/-- C68: the trace of an oops. -/
def oops : Bytes := ascii "<4>---[ end trace 1f2e ]---\n"
example : logged [10, 100] (room 64) oops = some [.line (ascii "<4>---[ end trace 1f2e ]---"), .anomaly (ascii "1f2e")] := by decide +kernel
example : anomalyOf (ascii "<4>---[ end trace 1f2e ]---") = [.anomaly (ascii "1f2e")] := by decide +kernel

/-- A line that does not fit is cut: its beginning is dropped, its end logged as a
line. `C41_lines` needs the lines to be short. -/
example : logged [100, 100, 100] (room 8) (ascii "abcdefghij\nk\n") = some [.line (ascii "hij"), .line (ascii "k")] := by decide +kernel
example : ¬ Short 8 (ascii "abcdefghij\nk\n") := by
  intro h
  have := h.1 (ascii "abcdefghij") (by decide)
  exact absurd this (by decide)

/-- C41_false_nul: no line is logged after a NUL, until the buffer is full. -/
example : logged [4, 4, 4, 4] (room 20) (ascii "a" ++ [0] ++ ascii "b\nc\nd\n") = some [] := by decide +kernel
example : logged [100, 100] (room 10) (ascii "a" ++ [0] ++ ascii "b\nc\nd\ne\nf\n") = some [.line [], .line (ascii "f")] := by decide +kernel

end Verif.Tools.Examples
