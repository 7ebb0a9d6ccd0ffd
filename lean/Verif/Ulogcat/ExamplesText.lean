import Verif.Ulogcat.PropsText

/-!
# Concrete entries for the theorems about rendering
-/
namespace Verif.Ulogcat.Examples
open Verif Verif.Ulogcat

def seen : Meta :=
  { sec := 3, nsec := 45678000, priority := 4, pid := 12, pname := ascii "daemon", tid := 13, tname := ascii "worker", tag := ascii "net", isBinary := false, color := 255 }

def looks (f : Fmt) : Look :=
  { fmt := f, color := f = .long, showLabel := true, ansi := fun _ => [27, 91, 49, 109], klog := false, clock := fun _ => ascii "01-01 00:00:03" }

def big : Bytes := List.replicate (5 * 1024 + 128) 170

def showFrame (L : Look) (e : Meta) (msg : Bytes) (len : Nat) (buf : Bytes) : Option (Option Bytes) :=
  (renderFrame L e msg len buf).map fun x => x.2.map fun n => x.1.take n

example : NoNul (ascii "up\ndown\n") ∧ seen.priority < 8 ∧ (looks .short).fmt ≠ .csv ∧ big ≠ [] := by
  refine ⟨by unfold NoNul; decide, by decide, by decide, by decide +kernel⟩

/-- C39: two lines, each with its own header. -/
example : showFrame (looks .short) seen (ascii "up\ndown\n" ++ [0]) 9 big =
    some (some (((shownLines (ascii "up\ndown\n")).map (lineText (looks .short) seen)).flatten)) := by decide +kernel
example : shownLines (ascii "up\ndown\n") = [ascii "up", ascii "down"] := by decide +kernel

/-- A render buffer of 20 bytes cuts the entry. -/
example : (showFrame (looks .short) seen (ascii "up\ndown\n" ++ [0]) 9 (List.replicate 20 170)).map (·.map List.length) =
    some (some 20) := by decide +kernel

/-- C39, binary entries in text formats. -/
example : showFrame (looks .aligned) { seen with isBinary := true } [1, 2, 3] 3 big = some none := by decide +kernel

/-- C62: hypotheses of `C62_one_line`. -/
example : Sane (looks .long) seen := by
  have h : (ascii "01-01 00:00:03").length ≤ 31 := by decide +kernel
  exact ⟨fun _ => by simp [looks], fun _ => h, by decide, by decide, by decide +kernel⟩
example : ∀ b ∈ ascii "link up", b ≠ 10 := by decide
example : showFrame (looks .long) seen (ascii "link up" ++ [0]) 8 big = some (some (lineText (looks .long) seen (ascii "link up"))) := by
  decide +kernel

/-- C63: two entries written as CSV and read back. -/
example : csvReadAll 3 (csvLine seen (ascii "a,b\nc") ++ csvLine { seen with isBinary := true } (hexDump [0, 10, 255])) =
    some [rowOf seen (ascii "a,b\nc"), rowOf { seen with isBinary := true } (hexDump [0, 10, 255])] := by decide +kernel
example : (∀ b ∈ seen.tag, b ≠ 44) ∧ (∀ b ∈ seen.pname, b ≠ 44) ∧ (∀ b ∈ seen.tname, b ≠ 44) := by decide

/-- C63_csv needs the names to be without commas: here one has a comma. -/
example : csvReadAll 2 (csvLine { seen with tag := ascii "n,t" } (ascii "x")) ≠
    some [rowOf { seen with tag := ascii "n,t" } (ascii "x")] := by decide +kernel

end Verif.Ulogcat.Examples
