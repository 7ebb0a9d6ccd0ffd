import Verif.Ulogcat.PropsOutFd
import Verif.Kernel.ExamplesRegistry

/-!
# Concrete worlds for the theorems about opening a context
-/
namespace Verif.Ulogcat.Examples
open Verif Verif.Ulogcat Verif.Kernel Verif.Kernel.Examples

/-- A world with the devices of `reg1`; descriptors are never used again, a path with
an `x` cannot be opened. -/
def devWorld : OWorld where
  noMem _ := false
  openAt evs p := if 120 ∈ p then none else (held evs).map fun H => H.foldl (· + ·) 0 + H.length + 1
  logLen _ := 40
  kmsgReads _ := false
  klogSize _ := 0
  logs := some (showLogs 4096 reg1)

theorem sum_ge (l : List Nat) : ∀ n, (∀ a ∈ l, a ≤ l.foldl (· + ·) n) ∧ n ≤ l.foldl (· + ·) n := by
  induction l with
  | nil => intro n; simp
  | cons x l ih =>
    intro n
    obtain ⟨h1, h2⟩ := ih (n + x)
    refine ⟨fun a ha => ?_, by simp only [List.foldl_cons]; omega⟩
    rcases List.mem_cons.mp ha with rfl | ha
    · simp only [List.foldl_cons]; omega
    · exact h1 a ha

theorem devWorld_fresh : Fresh devWorld := by
  intro evs H p fd hH ho hm
  unfold devWorld at ho
  dsimp only at ho
  split at ho
  · simp at ho
  · rw [hH] at ho
    have := (sum_ge H 0).1 fd hm
    have e : H.foldl (· + ·) 0 + H.length + 1 = fd := by simpa using ho
    omega

example : held [] = some [] ∧ ([] : List Nat).Nodup := by decide

def openPaths (r : Except (List OEv) OSt) : Option (List Bytes) := r.toOption.map fun s => s.devs.map ODev.path

/-- C66: all devices, then the copy of the kernel log. -/
example : openPaths (ulogOpen devWorld true true [] []) =
    some [ascii "/dev/ulog_main", ascii "/dev/ulog_flight", ascii "/proc/kmsg"] := by decide +kernel
example : openPaths (ulogOpen devWorld true false [ascii "b", ascii "kmsgd", ascii "b"] []) =
    some [ascii "/dev/ulog_b", ascii "/dev/ulog_b"] := by decide +kernel

/-- The second device cannot be opened: the first is closed again. -/
example : ulogOpen devWorld true false [ascii "b", ascii "x"] [] =
    .error [.alloc, .alloc, .opened (ascii "/dev/ulog_b") (some 1), .alloc, .opened (ascii "/dev/ulog_x") none, .closed 1, .closeOut] := by
  have h : (match ulogOpen devWorld true false [ascii "b", ascii "x"] [] with | .ok _ => none | .error e => some e) =
    some [.alloc, .alloc, .opened (ascii "/dev/ulog_b") (some 1), .alloc, .opened (ascii "/dev/ulog_x") none, .closed 1, .closeOut] := by
    decide +kernel
  revert h
  cases ulogOpen devWorld true false [ascii "b", ascii "x"] [] with
  | ok s => simp
  | error e => simp

/-- C66_ready: a world in which nothing fails. -/
example : Willing { devWorld with openAt := fun evs _ => some evs.length, kmsgReads := fun _ => true } :=
  ⟨fun _ => rfl, fun _ _ => rfl, fun _ => by simp [devWorld], fun _ => rfl, fun _ => by simp [devWorld]⟩

/-- C67: one use of the first version. -/
example : (v1Process devWorld { ctx := none, names := [] } []).1 = true := by decide +kernel

/-- C67_false: a world without devices. -/
def noWorld : OWorld := { devWorld with openAt := fun _ _ => none, logs := none }
example : (∀ evs, noWorld.noMem evs = false) ∧ (∀ evs p, noWorld.openAt evs p = none) ∧ noWorld.logs = none :=
  ⟨fun _ => rfl, fun _ _ => rfl, rfl⟩

/-- C67_output, C67_stdin: three descriptors are open, then the devices. -/
def three : List OEv := [.opened [] (some 0), .opened [] (some 1), .opened [] (some 2)]
example : held three = some [0, 1, 2] ∧ devWorld.noMem (three ++ [.alloc]) = false := by decide
example : useCtx devWorld mainOut true false [ascii "b"] three =
    [.ev .alloc, .linebuf 0, .ev .alloc, .ev (.opened (ascii "/dev/ulog_b") (some 7)), .ev .alloc, .ev .alloc, .ev .alloc, .ev (.closed 7), .close 0, .fclose 0] := by
  decide +kernel
example : filesAfter (fun _ => 1) (useCtx devWorld mainOut true false [ascii "b"] three) ⟨[0, 1, 2], [0]⟩ = some ⟨[2], []⟩ := by decide +kernel

/-- C67_false_stdout, C67_false_same, C67_nomem -/
example : filesAfter (fun _ => 1) (useCtx devWorld (v1Out (-1)) true false [] three) ⟨[0, 1, 2], [0]⟩ = some ⟨[0, 2], []⟩ ∧
    filesAfter (fun _ => 1) (useCtx devWorld (v1Out (-1)) true false [] []) ⟨[0, 2], []⟩ = none ∧
    filesAfter (fun _ => 1) (useCtx devWorld ⟨1, some 0⟩ true false [] three) ⟨[0, 1, 2], [0]⟩ = none ∧
    useCtx { devWorld with noMem := fun _ => true } mainOut true false [] three = [.ev .alloc] := by decide +kernel

end Verif.Ulogcat.Examples
