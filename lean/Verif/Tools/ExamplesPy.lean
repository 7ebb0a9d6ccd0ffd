import Verif.Tools.PropsPy
import Verif.Tools.PropsPyLog

/-!
# Concrete runs of the Python package
-/
namespace Verif.Tools.Examples
open Verif Verif.Tools Verif.Libulog

/-- The program has its own write function 5 before the bridge. -/
theorem py_start : HonestRun exNames false { Lib.start with writer := .custom 5 } [] :=
  HonestRun.step (w := bareWorld) (op := .setWriter (some (.custom 5))) HonestRun.start rfl (fun f h => Or.inl ⟨5, by cases h; rfl⟩) rfl

/-- Two loggers, the first leaves again; the second takes only level 30 and above. -/
def pyOps : List (World × PyOp) :=
  [(bareWorld, .enable 1 true), (bareWorld, .enable 2 true), (bareWorld, .disable 1), (bareWorld, .lib (.str 4 1 (ascii "w\n")))]

def pyEn : Nat → Nat → Bool := fun _ l => decide (30 ≤ l)

/-- C49_once: the hypotheses, and what happens to a warning and to an information. -/
example : ∃ p tr, pyRun exNames pyEn 2 { kernelFn := none, loggers := [], lib := { Lib.start with writer := .custom 5 } } pyOps = .ok (p, tr) ∧
    (∀ y ∈ pyOps, PyKeeps false false y) ∧
    tr.getLast? = some (.unit, [.native (.custom 5 4 1 (ascii "w\n\x00")), .handled 2 30 (exNames 1) (ascii "w")]) ∧
    LevelIs exNames bareWorld p.lib 1 6 ∧ (WOp.str 6 1 (ascii "i")).msg = some (6, 1, some (ascii "i\x00")) ∧
    pyOn 2 (pyOps.map Prod.snd) = true ∧ pyOn 1 (pyOps.map Prod.snd) = false := by
  refine ⟨_, _, rfl, ?_, rfl, ⟨_, _, rfl⟩, rfl, by decide +kernel, by decide +kernel⟩
  intro y hy
  simp only [pyOps, List.mem_cons, List.not_mem_nil, or_false] at hy
  rcases hy with rfl | rfl | rfl | rfl <;> exact ⟨rfl, rfl, by first | rfl | trivial⟩

/-- C74_false: a priority word above 7. -/
example : ∃ p tr, pyRun exNames pyEn 2 { kernelFn := none, loggers := [], lib := { Lib.start with writer := .custom 5 } }
    [(bareWorld, .enable 1 true), (bareWorld, .lib (.str 0x14 1 (ascii "w")))] = .ok (p, tr) ∧
    tr.getLast? = some (.unit, [.native (.custom 5 0x14 1 (ascii "w\x00")), .keyError]) := ⟨_, _, rfl, rfl⟩

/-- C49_false -/
example : ∃ p tr, pyRun exNames pyEn 2 { kernelFn := none, loggers := [], lib := Lib.start }
    [(bareWorld, .enable 1 false), (bareWorld, .enable 1 true)] = .ok (p, tr) ∧ LevelIs exNames bareWorld p.lib 1 6 := ⟨_, _, rfl, ⟨_, _, rfl⟩⟩

/-- C74_false_oob: data of a buffer that ends with no NUL, level 6 already known. -/
example : (0 : UInt8) ∉ ascii "raw" ∧ ((4 % 8 : Nat) : Int) ≤ ({ Lib.start with level := fun _ => 6 } : Lib).level 1 := by
  refine ⟨by decide +kernel, by decide⟩

/-- C75 -/
example : IsLines (ascii "a\r\n\rb\n") [ascii "a", [], ascii "b"] := by
  have := splitLines_spec (ascii "a\r\n\rb\n").length (ascii "a\r\n\rb\n") none rfl (by simp) (by simp)
  rw [show splitLines none (ascii "a\r\n\rb\n") = [ascii "a", [], ascii "b"] from by decide +kernel] at this
  simpa using this

example : pyEmit 40 (ascii "a\r\n\rb\n") = some [(3, ascii "a"), (3, []), (3, ascii "b")] ∧
    pyEmit 20 (ascii "EVT:x") = some [(5, ascii "EVT:x")] ∧ pyEmit 25 (ascii "x") = none := by decide +kernel

/-- C76: one line that is not only line ends. With a logger that takes warnings only, an
information is not echoed. -/
example : stripNl (ascii "\nhi\n") = ascii "hi" ∧ (0 : UInt8) ∉ ascii "\nhi\n" ∧
    pyEcho 7 (fun l => decide (30 ≤ l)) 1 (6, ascii "\nhi\n") = some 1 := by decide +kernel

/-- `C76_once`: the master tag is at Error, and the handler sends an information. -/
example : pyEcho 3 (fun _ => true) 1 (6, ascii "hi") = some 1 := by
  refine C76_once 0 3 _ ?_
  intro l ls h1 _ h2 x hx
  have e1 : l = 20 := by
    have : pyLevel (6 : UInt32).toNat = some 20 := by decide
    rw [this] at h1; exact (Option.some.inj h1).symm
  subst e1
  have e2 : ls = [(6, ascii "hi")] := by
    have : pyEmit 20 (stripNl (ascii "hi")) = some [(6, ascii "hi")] := by decide +kernel
    rw [this] at h2; exact (Option.some.inj h2).symm
  subst e2
  rw [List.mem_singleton.1 hx]
  decide

/-- C77, C78 -/
def plusOps : List PlusOp :=
  [.throttle 20 10 100 (ascii "t"), .throttle 20 10 105 (ascii "t"), .change 20 1 (ascii "c"), .throttle 20 10 110 (ascii "t"),
    .throttle 30 10 111 (ascii "u"), .change 20 1 (ascii "c"), .change 20 2 (ascii "c"), .throttle 40 10 111 (ascii "t")]

example : Monotone plusOps := by unfold Monotone; decide +kernel

example : NoClash (ascii "t") plusOps := by
  intro l v
  simp only [plusOps, List.mem_cons, List.not_mem_nil, reduceCtorEq, or_false, false_or, PlusOp.change.injEq, not_or, not_and]
  refine ⟨fun _ _ => by decide +kernel, fun _ _ => by decide +kernel, fun _ _ => by decide +kernel⟩

example : ((plusRun (fun _ => none) plusOps).2.map Prod.snd) =
    [.logged 20 0 (ascii "t"), .silent, .logged 20 0 (ascii "c"), .silent, .logged 30 0 (ascii "u"), .silent, .logged 20 0 (ascii "c"),
      .logged 40 2 (ascii "t")] ∧
    accounted (ascii "t") (plusRun (fun _ => none) plusOps).2 = 4 ∧ callsOf (ascii "t") plusOps = 4 ∧
    lastValue (ascii "c") plusOps = some 2 := by decide +kernel

end Verif.Tools.Examples
