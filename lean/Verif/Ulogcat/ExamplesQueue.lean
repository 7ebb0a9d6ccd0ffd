import Verif.Ulogcat.PropsQueue
import Verif.Ulogcat.ExamplesCore

/-! # Concrete runs on linked queues -/

namespace Verif.Ulogcat.Examples.Linked
open Verif Verif.Ulogcat Verif.Ulogcat.Queue

/-- The nodes behind a head, following `next`; at most `n`. -/
def forward (h : Heap) (head : Nat) : Nat → Nat → List Nat
  | 0, _ => []
  | n + 1, a => if h.nx a = head then [] else h.nx a :: forward h head n (h.nx a)

/-- The same following `prev`. -/
def backward (h : Heap) (head : Nat) : Nat → Nat → List Nat
  | 0, _ => []
  | n + 1, a => if h.pv a = head then [] else h.pv a :: backward h head n (h.pv a)

/-- The four lists in both directions. -/
def walks (h : Heap) : List (List Nat) := (List.range 4).flatMap fun q => [forward h q 20 q, backward h q 20 q]

/-- Every entry of device 1 needs an extra buffer. -/
def ext1 : Logs → Nat → Buf := fun _ i => if i = 1 then .extra else .own

def run (tail : Nat) (fuel : Nat) : Except CFault (PCtx × Logs × Option Int) := do
  let p ← openP [90, 80, 0] tail (fun a => a + 77)
  pProcessLogs quiet ext1 true 0 fuel p threeLogs 0

/-- After opening: six frames at 4 to 9, three devices at 10 to 12. -/
example : ((openP [90, 80, 0] 2 (fun a => a + 77)).map fun p => walks p.h).toOption =
    some [[4, 5, 6, 7, 8, 9], [9, 8, 7, 6, 5, 4], [], [], [], [], [10, 11, 12], [12, 11, 10]] := by decide +kernel

/-- In the middle of a run: two frames in the render queue, one pending, with two
extra buffers in use. -/
example : ((run 2 5).map fun x => (walks x.1.h, x.1.bufs, x.2.2)).toOption =
    some ([[5, 8, 4], [4, 8, 5], [6, 9], [9, 6], [7], [7], [10, 11, 12], [12, 11, 10]], 2, none) := by decide +kernel

/-- The whole run, and the same output as with lists of values. -/
example : ((run 2 20).map fun x => (x.1.c.out, x.1.bufs, x.2.2)).toOption =
    some ([.banner 0 30, .entry ⟨0, 30, 2, true⟩, .entry ⟨0, 30, 3, true⟩], 0, some 0) := by decide +kernel

/-- Closing in the middle of a run. -/
example : ((run 2 5).bind fun x => (pClose x.1).map fun y => (walks y.1.h, y.2, y.1.bufs, y.1.badFree)).toOption =
    some ([[5, 8, 4, 6, 9, 7], [7, 9, 6, 4, 8, 5], [], [], [], [], [], []], [10, 11, 12], 0, false) := by decide +kernel

/-- Removing a node twice does no harm only as long as the list is not changed in
between: here node 6, added in between, is lost on the way back. -/
example : ((openHeap 2 0 id).bind fun h => do
      let h ← listRemove h 4
      let h ← listAddTail { h with live := fun _ => true } 0 6
      let h ← listRemove h 5
      let h ← listAddTail h 0 4
      let h ← listRemove h 6
      let h ← listRemove h 5
      .ok (walks h)).toOption ≠
    ((openHeap 2 0 id).bind fun h => do
      let h ← listRemove h 4
      let h ← listAddTail { h with live := fun _ => true } 0 6
      let h ← listRemove h 5
      let h ← listAddTail h 0 4
      let h ← listRemove h 6
      .ok (walks h)).toOption := by decide +kernel

/-- The hypothesis of C105_destroy: the third of three devices. -/
example : ∃ h Q, openHeap 6 3 id = .ok h ∧ Lists h 6 Q [] ∧ Q 3 = [10, 11] ++ 12 :: [] := by
  obtain ⟨h, Q, e, L, _, _, _, q3⟩ := openHeap_spec 6 3 id
  exact ⟨h, Q, e, L, by rw [q3]; rfl⟩

end Verif.Ulogcat.Examples.Linked
