import Verif.Tools.PropsWrapper

/-!
# Examples for C103
-/
namespace Verif.Tools.Examples.Wrapper
open Verif Verif.Libulog Verif.Tools

/-- A process that preloads another library and has a log device. -/
def env : Env := fun n =>
  if n = ascii "LD_PRELOAD" then some (ascii "/lib/a.so:/lib/b.so") else if n = ascii "HOME" then some (ascii "/root") else none

def dev : Bytes → Bool := fun p => p = ascii "/dev/ulog_main"

/-- C103_run -/
example : wrapMain dev (fun _ => true) env [] = .ends 1 ∧
    wrapMain dev (fun p => p = ascii "ls") env [ascii "cat", ascii "x"] = .ends (-1) ∧
    wrapMain dev (fun p => p = ascii "ls") env [ascii "ls", ascii "-l"] =
      .execs (ascii "ls") [ascii "ls", ascii "-l"] (wrapEnv dev env) := ⟨rfl, rfl, rfl⟩

/-- C103_env: without a device nothing changes; with one the other variables stay. -/
example : (fun _ : Bytes => false) (wrapDev env) = false ∧ ascii "HOME" ≠ ascii "LD_PRELOAD" ∧
    ascii "HOME" ≠ ascii "ULOG_NOSYSLOG" ∧ wrapEnv dev env (ascii "HOME") = some (ascii "/root") ∧
    wrapEnv dev env (ascii "ULOG_NOSYSLOG") ≠ env (ascii "ULOG_NOSYSLOG") := by decide +kernel

/-- C103_preload, C103_either, C103_twice -/
example : dev (wrapDev env) = true ∧
    (∀ libs, env (ascii "LD_PRELOAD") = some libs → hasSub wrapLib libs = false ∧ libs.length ≤ 4064) ∧
    preloads (wrapEnv dev env) = [wrapLib, ascii "/lib/a.so", ascii "/lib/b.so"] ∧
    preloads (wrapEnv dev (wrapEnv dev env)) = [wrapLib, ascii "/lib/a.so", ascii "/lib/b.so"] := by
  refine ⟨by decide +kernel, fun libs h => ?_, by decide +kernel, by decide +kernel⟩
  have : libs = ascii "/lib/a.so:/lib/b.so" := by
    have h2 : env (ascii "LD_PRELOAD") = some (ascii "/lib/a.so:/lib/b.so") := by decide +kernel
    rw [h2] at h; injection h with h; exact h.symm
  subst this; decide +kernel

end Verif.Tools.Examples.Wrapper
