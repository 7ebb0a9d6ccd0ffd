import Verif.Tools.PropsDevice
import Verif.Tools.ExamplesWhole

/-! # Environments meeting the hypotheses of C145 -/
namespace Verif.Tools.Examples.Whole
open Verif Verif.Kernel Verif.Kernel.Examples Verif.Libulog Verif.Ulogcat Verif.Tools Verif.Tools.Whole

def flightEnv : Bytes → Option Bytes := fun n => if n = ascii "ULOG_DEVICE" then some (ascii "flight") else none

theorem flight_in : flight1 ∈ reg1.devs := by rw [show reg1.devs = _ from box_devs]; simp

/-- `C145_agree`, `C145_one`: the value names the second log and not the first. -/
example : Named (some (ascii "flight")) flight1 ∧ ¬ Named (some (ascii "flight")) main1 ∧ Named none main1 ∧
    cmdPath flightEnv = pathOf flight1 :=
  ⟨by unfold Named; decide +kernel, by unfold Named; decide +kernel, by unfold Named; decide +kernel,
    (((C145_agree reg1_reach flight_in (some (ascii "flight"))).2.1 flightEnv (by decide +kernel)).2).2 (by unfold Named; decide +kernel)⟩

/-- `C145_opens` -/
example : cmdOpen { getenv := flightEnv, openRes := fun p => if p = ascii "/dev/ulog_flight" then .inl 7 else .inr 2, isChr := fun _ => true, rawOk := fun _ => true } =
    (7, [.opened (ascii "/dev/ulog_flight") 7, .raw 7]) :=
  C145_opens reg1_reach flight_in _ (by unfold Named; decide +kernel) (by decide +kernel) rfl rfl

/-- `C145_view` -/
example : ∃ x s', addUlog (opening fun _ => 0) (ascii "flight") ⟨[], [], 0, 0⟩ = (true, s') ∧ s'.devs = [x] ∧ x.path = pathOf flight1 :=
  ⟨_, _, by rfl, by rfl, by decide +kernel⟩

/-- `C145_long`, `C145_false_long` -/
example : 10 < (ascii "flightrecorder").length ∧ 21 < (ascii "a-name-of-twenty-two-by").length := by decide +kernel

end Verif.Tools.Examples.Whole
