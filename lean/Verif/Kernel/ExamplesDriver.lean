import Verif.Kernel.PropsDriver
import Verif.Kernel.ExamplesBase

/-!
# Runs of the whole driver meeting the hypotheses of C120
-/
namespace Verif.Kernel.Examples.Driver
open Verif Verif.Kernel Verif.Kernel.Examples

def yes : Grant := { name := true, log := true, buffer := true, register := true }

/-- Two devices are added (one of them twice), two are opened, one of them is not there;
entries go to both, one is read, files are closed and their numbers used again. -/
def calls : List DOp :=
  [.opn (ascii "ulog_aux") 0 true false true, .add (ascii "ulog_aux 14") yes (fun _ => 9), .add (ascii "ulog_aux 20") yes noJunk,
   .opn (ascii "ulog_aux") 0 true true true, .opn (ascii "ulog_main") 1 true true true, .call (.write 0 t1 (txt 20 65) noJunk),
   .call (.write 1 t2 (txt 4 66) noJunk), .add (ascii "ulog_third 15") yes noJunk, .call (.getLogLen 0), .call (.getLogLen 1),
   .call (.release 0), .opn (ascii "ulog_main") 0 true false true, .call (.read 0 0 100 100), .list 4096, .call (.flush 7)]

/-- `C120_safe`, `C120_device`, `C120_files`. -/
theorem calls_run : ∃ d0, dinit 18 true noJunk = some d0 ∧ ∃ d tr, drun d0 calls = .ok (d, tr) := by
  obtain ⟨d0, h0⟩ : ∃ d0, dinit 18 true noJunk = some d0 := Option.isSome_iff_exists.1 (by decide)
  obtain ⟨d, tr, h⟩ := C120_safe h0 (ops := calls) (by decide)
  obtain ⟨r, d1, h1, hr⟩ := h.run
  have : r = true := by cases r with | true => rfl | false => cases h1
  subst this
  rw [h0] at h1
  injection h1 with h1
  exact ⟨d0, h0, d, tr, h1 ▸ hr⟩

def outs : Option (List DOut) := (dinit 18 true noJunk).bind fun d0 => (drun d0 calls).toOption.map fun r => r.2.map (·.2)

def lens (l : List DOut) : List (Option Nat) := l.map fun o => match o with | .out (.ret n) => some n | .out (.data b) => some b.length | .text b => some b.length | _ => none

theorem outs_lens : outs.map lens =
    some [none, none, none, none, none, some 20, some 4, none, some 56, some 34, none, none, some 34, some 39, none] := by decide +kernel

/-- The calls on each device: four on `ulog_aux`, of which the last closes the file, five on
`ulog_main`, partly through a file of the same number. -/
theorem outs_calls : ((dinit 18 true noJunk).bind fun d0 => (drun d0 calls).toOption.map fun r =>
    (((callsOn (ascii "ulog_aux") r.2).map (·.1.fid), (callsOn (ascii "ulog_main") r.2).map (·.1.fid)), owner r.2 0, r.1.names)) =
    some (([0, 0, 0, 0], [1, 1, 1, 0, 0]), some (ascii "ulog_main"), [ascii "ulog_main", ascii "ulog_aux", ascii "ulog_third"]) := by decide +kernel

/-- C120_slot -/
example : slotOf (ascii "ulog_aux") [none, none] = none := by decide

end Verif.Kernel.Examples.Driver
