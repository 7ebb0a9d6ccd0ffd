import Verif.Ulogcat.PropsTail
import Verif.Ulogcat.ExamplesOutput

/-! # Examples for C139: logs that grow while they are read -/
namespace Verif.Ulogcat.Examples.Tail
open Verif.Ulogcat

/-- One call that follows for `k` turns, and a dump. -/
def shown (W : World (Nat × Logs)) (dump : Bool) (marks : List Nat) (T : Nat) (s : Logs) (k : Nat) : Option (List Nat × Bool) :=
  match processLogs W dump 0 k (openCtx marks T) (0, s) 0 with
  | .ok (c, _, _) => some (stamps c, c.markReached)
  | .error _ => none

/-- Two devices; entries arrive during the second and the fifth turn, one of them old. -/
def first : Logs := fun i => if i = 0 then [.text 10 0, .text 30 1] else if i = 1 then [.text 20 2, .text 25 3] else []
def late (p i : Nat) : List Item :=
  if p = 1 ∧ i = 1 then [.text 5 4] else if p = 5 ∧ i = 0 then [.text 50 5] else []

/-- C139_dump -/
example : shown (growing late) true [2, 2] 0 first 12 = some ([10, 20, 25, 30], true) := by decide +kernel
example : shown (growing late) true [2, 2] 2 first 12 = some ([25, 30], true) := by decide +kernel
/-- ... before the marks -/
example : shown (growing late) true [2, 2] 2 first 2 = some ([], false) := by decide +kernel

/-- C139_follow and C139_mark: nothing, then all but the first. -/
example : shown (growing late) false [2, 2] 2 first 2 = some ([], false) := by decide +kernel
example : shown (growing late) false [2, 2] 2 first 12 = some ([25, 5, 30, 50], true) := by decide +kernel
example : shown (growing late) false [2, 2] 0 first 12 = some ([10, 20, 25, 5, 30, 50], true) := by decide +kernel

/-- C139_false_many: the entry of 21 comes after that of 30. -/
example : shown (growing tailAgain) false [1, 1, 1] 1 tailThree 12 = some ([30, 21, 40], true) := by decide +kernel
example : shown (growing tailAgain) false [1, 1, 1] 0 tailThree 12 = some ([10, 20, 21, 30, 40], true) := by decide +kernel
/-- C139_dump needs no bound on the devices. -/
example : shown (growing tailAgain) true [1, 1, 1] 1 tailThree 12 = some ([30], true) := by decide +kernel

/-! ## On a stream -/

open Verif Verif.Ulogcat.Examples.Output

def wide : Scr (Nat × Logs) → OutEv → List WrAns := fun _ _ => [.took 6000]

/-- The bytes that calls leave on the stream. -/
def printed (dump : Bool) (T : Nat) (l : List (Nat × Int)) : Option Bytes :=
  match calls ((growing late).onto .file names (entries .short) wide) dump l (openCtx [2, 2] T) ⟨(0, first), screen, []⟩ with
  | .ok (_, t) => some t.bytes
  | .error _ => none

def line (k : Nat) : Bytes := textOf names (entries .short) (.entry ⟨0, 0, k, true⟩)

/-- The conditions hold, -/
example : Silent (growing late) ∧ (∀ id, CanShow (entries .short id)) ∧ (∀ s e, ∃ n, wide s e = [.took n] ∧ 5248 ≤ n) :=
  ⟨growing_silent late, short_ok, fun _ _ => ⟨6000, rfl, by decide⟩⟩

/-- C139_dumped: the last two of four entries. -/
example : printed true 2 [(12, 0)] = some (screenOf names (fun _ bs => bs) true [] [(1, line 3), (0, line 1)]) := by decide +kernel
/-- C139_followed, in two calls: all but the first two. -/
example : printed false 2 [(2, 0)] = some [] := by decide +kernel
example : printed false 2 [(2, 0), (10, 0)] = some (screenOf names (fun _ bs => bs) true [] [(1, line 3), (1, line 4), (0, line 1), (0, line 5)]) := by
  decide +kernel
example : printed false 0 [(2, 0), (10, 0)] =
    some (screenOf names (fun _ bs => bs) true [] [(0, line 0), (1, line 2), (1, line 3), (1, line 4), (0, line 1), (0, line 5)]) := by decide +kernel

end Verif.Ulogcat.Examples.Tail
