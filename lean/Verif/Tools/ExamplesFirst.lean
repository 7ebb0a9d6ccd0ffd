import Verif.Tools.PropsFirst
import Verif.Tools.ExamplesCat

/-!
# Concrete uses of the first version of the viewer's interface
-/
namespace Verif.Tools.Examples.First
open Verif Verif.Ulogcat Verif.Ulogcat.Examples Verif.Tools Verif.Tools.Examples.Cat Verif.Tools.First

def env : Env Logs := ⟨devWorld, clearW, quiet⟩

def opts : Opts :=
  { fmt := .short, binary := false, clear := false, tail := 2, getsize := false, rotate := false, dump := true, color := false, fd := 1 }

def start (o : Opts) : Handle Logs := { opts := o, arr := none, n := 0, ctx := none, evs := [], s := catLogs, arrays := 0 }

/-- The names at three places. -/
def names (a b c : String) : Nat → Option Bytes
  | 0 => some (ascii a)
  | 1 => some (ascii b)
  | 2 => some (ascii c)
  | _ => none

def runs (h : Handle Logs) : List Call → Except Fault (Handle Logs × List Int)
  | [] => .ok (h, [])
  | c :: cs =>
    match step env h c with
    | .error f => .error f
    | .ok (_, none) => .ok (h, [])
    | .ok (h', some r) => (runs h' cs).map fun x => (x.1, r :: x.2)

def shown (o : Opts) (cs : List Call) : Option (List Int × Option (List Bytes × List OutEv) × Nat × List OEv × Nat) :=
  (runs (start o) cs).toOption.map fun x =>
    (x.2, x.1.ctx.map fun c => (c.1.devs.map ODev.path, c.2.out), outClosed x.1.evs, (destroy x.1).1, (destroy x.1).2)

def fails (o : Opts) (cs : List Call) : Option Fault :=
  match runs (start o) cs with
  | .error f => some f
  | .ok _ => none

/-- C131_create -/
example : (create opts true [] catLogs).isSome = true := by decide
example : (create { opts with getsize := true } true [] catLogs).isSome = false := by decide

/-- C131_devices, C131_dump, C131_late, C131_closed: `kmsgd` is left out, the last two entries are shown, a
device added later is not opened. -/
def twice : List Call := [.add 0 true, .add 1 true, .add 2 true, .process (names "b" "kmsgd" "c") 1 20, .add 0 true,
  .process (fun _ => none) 1 20]
example : (shown opts twice).map (fun x => (x.1, x.2.2)) = some ([0, 0, 0, 0, 0, 0], 0,
    [.alloc, .alloc, .opened (ascii "/dev/ulog_b") (some 1), .alloc, .opened (ascii "/dev/ulog_c") (some 3), .alloc, .alloc, .alloc,
       .closed 1, .closed 3, .closeOut], 0) := by decide +kernel
example : (shown opts twice).bind (fun x => x.2.1.map Prod.fst) = some [ascii "/dev/ulog_b", ascii "/dev/ulog_c"] := by decide +kernel
example : (shown opts twice).bind (fun x => x.2.1.map Prod.snd) =
    some [.banner 1 20, .entry ⟨1, 20, 3, true⟩, .banner 0 30, .entry ⟨0, 30, 2, true⟩] := by decide +kernel

/-- C131_all: none but `kmsgd` given. -/
example : (shown opts [.add 0 true, .process (names "kmsgd" "" "") 1 40]).map (fun x => x.2.1.map Prod.fst) =
    (shown opts [.process (fun _ => none) 1 40]).map (fun x => x.2.1.map Prod.fst) := by decide +kernel

/-- C131_clear -/
example : (shown { opts with clear := true } [.add 0 true, .process (names "b" "" "") 1 20]).map (fun x => (x.1, x.2.2.2.1.drop 5)) =
    some ([0, 0], [.alloc, .opened (ascii "/dev/ulog_b") (some 3), .closed 3, .closed 1, .closeOut]) := by decide +kernel

/-- C131_false_output: the first call finds no device and closes the output, the second shows the
logs on it. -/
example : (shown opts [.add 0 true, .process (names "x" "" "") 1 20, .process (names "b" "" "") 1 20]).map
      (fun x => (x.1, x.2.1.isSome, x.2.2.1)) = some ([0, -1, 0], true, 1) := by decide +kernel

/-- C131_false_null, C131_false_unwritten, C131_false_gone -/
example : fails opts [.add 0 true, .add 1 false, .process (names "b" "c" "c") 1 20] = some .null := by decide +kernel
example : fails opts [.add 0 true, .add 1 false, .add 2 true, .process (names "b" "c" "c") 1 20] = some .unwritten := by
  decide +kernel
example : fails opts [.add 0 true, .add 3 true, .process (names "b" "c" "c") 1 20] = some .gone := by decide +kernel

/-- C131_leak: an array is lost twice. -/
example : (shown opts [.add 0 true, .add 1 false, .add 1 false, .add 1 true, .add 1 true, .add 2 false]).map (fun x => x.2.2.2.2) =
    some 2 := by decide +kernel

/-- The hypotheses of the theorems hold of a use. -/
example : ∃ h, Used env opts [] catLogs [.add 0 true, .add 2 true] h [0, 0] ∧ h.ctx = none ∧
    Granted [.add 0 true, .add 2 true] ∧ env.w.noMem (h.evs ++ [.alloc]) = false ∧ Fresh env.w ∧ FreshW env.cw :=
  ⟨_, ⟨_, rfl, .snoc (.snoc .nil rfl) rfl⟩, rfl, by intro m hm; simpa [mems] using hm, rfl, devWorld_fresh, clearW_fresh⟩

/-- C131_tail: two devices and a tail of -4, -3 and the largest. -/
example : (shown { opts with tail := -4 } [.add 0 true, .add 1 true, .process (names "b" "c" "") 1 20]).map (fun x => (x.1, x.2.1.isSome)) =
    some ([0, 0, -1], false) := by decide +kernel
example : fails { opts with tail := 2147483645 } [.add 0 true, .add 1 true, .process (names "b" "c" "") 1 20] = some .overflow := by
  decide +kernel

/-- C131_add: with memory and without. -/
example : (shown opts [.add 0 true, .add 1 false, .add 2 true]).map (fun x => x.1) = some ([0, -1, 0]) := by decide +kernel

end Verif.Tools.Examples.First
