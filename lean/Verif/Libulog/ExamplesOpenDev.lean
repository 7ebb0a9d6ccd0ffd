import Verif.Libulog.PropsOpenDev
import Verif.Kernel.ExamplesRegistry

/-!
# Examples for C102
-/
namespace Verif.Libulog.Examples.OpenDev
open Verif Verif.Libulog Verif.Kernel

/-- `/dev/ulog_main` and `/dev/ulog_mainbin` are devices of the driver, `/tmp/x` is a file
and `/dev/null` does not know raw mode. The descriptors are `n` to `n + 3`. -/
def env (n : Nat) (var : Option Bytes) : OpenEnv where
  getenv := fun v => if v = ascii "ULOG_DEVICE" then var else none
  openRes := fun p =>
    if p = ascii "/dev/ulog_main" then .inl n else if p = ascii "/dev/ulog_mainbin" then .inl (n + 1)
    else if p = ascii "/tmp/x" then .inl (n + 2) else if p = ascii "/dev/null" then .inl (n + 3) else .inr 2
  isChr := fun fd => fd ≠ n + 2
  rawOk := fun fd => fd = n

theorem env_fresh {n : Nat} {l : List Nat} (h : ∀ x ∈ l, x < n) (var : Option Bytes) : (env n var).Fresh l := by
  refine ⟨fun p fd hp hl => ?_, fun p err hp => ?_⟩
  · have := h fd hl
    simp only [env] at hp
    repeat' split at hp
    all_goals first | (injection hp with hp; omega) | cases hp
  · simp only [env] at hp
    repeat' split at hp
    all_goals first | (injection hp with hp; omega) | cases hp

/-- C102_raw: a device, a file, a device without raw mode, nothing. -/
example : (env 5 none).Fresh [0, 1, 2] ∧ rawOpen (env 5 none) none = (5, [.opened (ascii "/dev/ulog_main") 5, .raw 5]) ∧
    rawOpen (env 5 none) (some (ascii "/tmp/x")) = (-22, [.opened (ascii "/tmp/x") 7, .closed 7]) ∧
    rawOpen (env 5 none) (some (ascii "/dev/null")) = (-38, [.opened (ascii "/dev/null") 8, .closed 8]) ∧
    rawOpen (env 5 (some (ascii "radio"))) none = (-2, []) :=
  ⟨env_fresh (by decide) _, by decide, by decide, by decide, by decide⟩

/-- C102_bin -/
example : (env 5 none).Fresh [0, 1, 2] ∧ binOpen (env 5 none) none = (6, [.opened (ascii "/dev/ulog_mainbin") 6]) ∧
    binOpen (env 5 none) (some (ascii "/tmp/x")) = (-22, [.opened (ascii "/tmp/x") 7, .closed 7]) :=
  ⟨env_fresh (by decide) _, by decide, by decide⟩

/-- C102_held: raw, a failure, binary, and the raw one closed. -/
example : ∃ c evs, HRun [0, 1, 2] c evs ∧ c.map Prod.snd = [5, -22, 11, 0] ∧ held [0, 1, 2] evs = [11, 0, 1, 2] ∧
    returned [0, 1, 2] c = [11, 0, 1, 2] :=
  ⟨_, _, .cons (e := env 5 none) (op := .rawOpen none) (env_fresh (by decide) _)
    (.cons (e := env 10 none) (op := .rawOpen (some (ascii "/tmp/x"))) (env_fresh (by decide) _)
      (.cons (e := env 10 none) (op := .binOpen none) (env_fresh (by decide) _)
        (.cons (e := env 20 none) (op := .close 5) (env_fresh (by decide) _) .nil))), by decide, by decide, by decide⟩

/-- C102_path: a log added to the driver is found by its name. -/
example : ∃ r, RegReach 18 true r ∧ (∃ d ∈ r.devs, d.name = ascii "ulog_" ++ ascii "flight") ∧
    openPath (env 5 (some (ascii "flight"))).getenv (ascii "ULOG_DEVICE") (ascii "/dev/ulog_main") none =
      ascii "/dev/ulog_flight" :=
  ⟨_, Kernel.Examples.reg1_reach, by decide +kernel, by decide⟩

/-- C102_path: a longer name is cut to the 31 bytes of the buffer. -/
example : openPath (fun _ => some (ascii "abcdefghijklmnopqrstuvwxyz")) (ascii "ULOG_DEVICE") [] none =
    ascii "/dev/ulog_abcdefghijklmnopqrstu" := by decide

/-- C102_retry: two interruptions. -/
example : (∀ i < 2, ([.inr 4, .inr 4, .inl 30, .inr 5] : List WvRes)[i]? = some (.inr 4)) ∧
    writevLoop true 2 [.inr 4, .inr 4, .inl 30, .inr 5] = some (0, 3) ∧
    writevLoop false 2 [.inr 4, .inr 11] = some (-11, 2) ∧ writevLoop true 2 [.inr 4, .inl 0] = some (-4, 2) :=
  ⟨by decide, by decide, by decide, by decide⟩

end Verif.Libulog.Examples.OpenDev
