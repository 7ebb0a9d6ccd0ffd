import Verif.Kernel.PropsRegistry

/-!
# Requests at work
-/
namespace Verif.Kernel.Examples
open Verif Verif.Kernel

def yes : Grant := { name := true, log := true, buffer := true, register := true }

/-- The driver right after loading. -/
def reg0 : Reg := { slots := some { name := ascii "ulog_main", size := 2 ^ 18, buf := true } :: List.replicate 15 none }

theorem reg0_reach : RegReach 18 true reg0 := .init true rfl

/-- One device was added. -/
def reg1 : Reg := (addLog reg0 (ascii "  ulog_flight\t16\n") yes).1

theorem reg1_reach : RegReach 18 true reg1 := .add _ _ reg0_reach (by decide +kernel)

/-- `C15_devices`, `C15_request`: two devices. -/
example : RegReach 18 true reg1 ∧ reg1.devs = [{ name := ascii "ulog_main", size := 262144, buf := true },
    { name := ascii "ulog_flight", size := 65536, buf := true }] := ⟨reg1_reach, by decide +kernel⟩

/-- `C15_granted`: a third one. -/
example : RegReach 18 true reg1 ∧ DevName (ascii "ulog_b") ∧ (∀ d ∈ reg1.devs, d.name ≠ ascii "ulog_b") ∧
    reg1.devs.length < 16 :=
  ⟨reg1_reach, ⟨[98], rfl, by unfold SmallLetter; decide, by decide⟩, by decide +kernel, by decide +kernel⟩

/-- `C15_refused`: the name is in use. -/
example : RegReach 18 true reg1 ∧ DevName (ascii "ulog_flight") ∧ (∃ d ∈ reg1.devs, d.name = ascii "ulog_flight") ∧
    (addLog reg1 (ascii "ulog_flight 16\n") yes) = (reg1, .einval) :=
  ⟨reg1_reach, ⟨ascii "flight", rfl, by unfold SmallLetter; decide, by decide⟩, by decide +kernel, by decide +kernel⟩

/-- Refused: prefix, capital letter, digit, sizes, no number. -/
example : ∀ s ∈ ["log_a 16", "ulog_A 16", "ulog_a1 16", "ulog_a 13", "ulog_a 25", "ulog_a", "ulog_a -16", ""],
    addLog reg0 (ascii s) yes = (reg0, .einval) := by decide +kernel

/-- `C56_text`: an accepted request, with white space around. -/
example : RegReach 18 true reg0 ∧ (addLog reg0 (ascii "  ulog_flight\t16\n") yes).2 = .done 17 :=
  ⟨reg0_reach, by decide +kernel⟩

/-- `C57_neg_name`: the state stays, the driver does not. -/
example : addLog reg0 (ascii "ulog_a 16") { yes with name := false } = (reg0, .fault) := by decide +kernel

/-- `C58_show`; its second line makes the device in a driver without it. -/
example : RegReach 18 true reg1 ∧ showLogs 4096 reg1 = ascii "ulog_main 18\nulog_flight 16\n" ∧
    (addLog reg0 (ascii "ulog_flight 16\n") yes).1.devs = reg0.devs ++ [{ name := ascii "ulog_flight", size := 65536, buf := true }] :=
  ⟨reg1_reach, by decide +kernel, by decide +kernel⟩

end Verif.Kernel.Examples
