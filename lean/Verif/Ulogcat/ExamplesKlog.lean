import Verif.Ulogcat.PropsKlog

/-!
# Concrete records for the theorems about the kernel log
-/
namespace Verif.Ulogcat.Examples
open Verif Verif.Ulogcat

/-- C64: a record with an escaped byte and a dictionary. -/
example : kmsgRecord 6 339 5140900 (ascii "-,c") (ascii "tab\there") (ascii " SUBSYSTEM=acpi\n") =
    ascii "6,339,5140900,-,c;tab\\x09here\n SUBSYSTEM=acpi\n" := by decide +kernel

def received : Option (Option KFrame) :=
  klogReceive (kmsgRecord 30 339 5140900 (ascii "-") (ascii "tab\there") (ascii " SUBSYSTEM=acpi\n") ++ [0])

example : received.join.map (fun f => (f.priority, f.sec, f.nsec)) = some (6, 5, 140900000) := by decide +kernel
example : (received.join.bind fun f => (klogParse f).join.bind fun z => strAt z.1 z.2.1) = some (ascii "tab\there") := by decide +kernel

/-- A record without `;` (C40_receive_none). -/
example : klogReceive (ascii "6,1,5,-" ++ [0]) = some none := by decide +kernel

/-- Without the last comma the search for `;` starts after the end (C40_false). -/
example : klogReceive (ascii "6,1,555" ++ [0]) = none := by decide +kernel

/-- An escape cut off by the end of the line stays as it is (C40_parse). -/
example : unesc (ascii "a\\x0") = ascii "a\\x0" ∧ unesc (ascii "\\x41\\x4z") = ascii "A\\x4z" := by decide +kernel

/-- C65: what kmsgd writes. -/
def kmsgdLine : KEntry :=
  { text := ascii "<4>[   12.000345] usb: gone", len := (ascii "<4>[   12.000345] usb: gone").length + 1, priority := 6, sec := 100, nsec := 7 }

example : kmsgdFix kmsgdLine = { text := ascii "usb: gone", len := 10, priority := 4, sec := 12, nsec := 345000 } := by decide +kernel
example : kmsgdLine.text = [60] ++ ascii "4" ++ [62] ++ [91] ++ ascii "   " ++ ascii "12" ++ [46] ++ ascii "000345" ++ [93, 32] ++ ascii "usb: gone" := by
  decide +kernel

/-- Other text is left alone (C65_safe); its time is not known. -/
example : kmsgdFix { kmsgdLine with text := ascii "<4]", len := 4 } = { text := ascii "<4]", len := 4, priority := 4, sec := 0, nsec := 0 } := by
  decide +kernel

end Verif.Ulogcat.Examples
