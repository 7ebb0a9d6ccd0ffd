import Verif.Libulog.PropsWriter

/-! # Runs that meet the hypotheses of the theorems about the write side -/
namespace Verif.Libulog
open Verif

/-- `ULOG_LEVEL_foo=D` and `ULOG_LEVEL=W`. -/
def levelWorld : World :=
  { getenv := fun v => if v = ascii "ULOG_LEVEL_foo" then some (ascii "Debug") else
      if v = ascii "ULOG_LEVEL" then some (ascii "W") else none
    openDev := fun _ => none, strdupOk := true }

/-- A function is installed, tag 1 is used, its level is set to 4. -/
def exOps : List (World × WOp) :=
  [(bareWorld, .setHook (some 9)), (bareWorld, .setWriter (some (.custom 5))), (levelWorld, .str 7 1 (ascii "hi")),
    (bareWorld, .setLevel 1 4), (bareWorld, .init 2)]

/-- C21, C24, C26: a run with a refused and an accepted message next. -/
example : ∃ s tr, WRun exNames exOps s tr ∧ s.writer = .custom 5 ∧
    tr = [(.int 0, []), (.int 0, []), (.unit, [.hook 9 1, .custom 5 7 1 (ascii "hi\x00")]), (.unit, []),
      (.unit, [.hook 9 2])] ∧
    LevelIs exNames bareWorld s 1 4 ∧ used (exOps.map Prod.snd) = [2, 1] ∧
    (WOp.str 5 1 (ascii "no")).msg = some (5, 1, some (ascii "no\x00")) ∧
    (WOp.buf 0x84 1 [1, 0, 2]).msg = some (0x84, 1, some [1, 0, 2]) ∧ (4 : Int) < (5 : UInt32).toNat % 8 ∧
    ((0x84 : UInt32).toNat % 8 : Nat) ≤ (4 : Int) := by
  refine ⟨_, _, rfl, rfl, rfl, ⟨_, _, rfl⟩, rfl, rfl, rfl, by decide, by decide⟩

/-- C23: the three sources of a first level. -/
example : ∃ s tr, WRun exNames exOps s tr ∧ 3 ∉ used (exOps.map Prod.snd) ∧ LevelIs exNames levelWorld s 3 4 ∧
    LevelIs exNames bareWorld s 3 6 ∧ LevelIs exNames levelWorld Lib.start 1 7 ∧ LevelIs exNames bareWorld s 0 6 :=
  ⟨_, _, rfl, by decide, ⟨_, _, rfl⟩, ⟨_, _, rfl⟩, ⟨_, _, rfl⟩, ⟨_, _, rfl⟩⟩

example : ∃ s tr, WRun exNames [(bareWorld, .setLevel 0 2)] s tr ∧ LevelIs exNames bareWorld s 3 2 :=
  ⟨_, _, rfl, _, _, rfl⟩

/-- C24: setting by name, listing, enumerating. -/
example : ∃ s tr s', WRun exNames exOps s tr ∧
    wstep exNames bareWorld s (.setTagLevel (ascii "foo") 99) = .ok (s', .int 0, []) ∧
    LevelIs exNames bareWorld s' 1 7 ∧ wstep exNames bareWorld s (.setTagLevel (ascii "bar") 3) = .ok (s, .int (-1), []) ∧
    wstep exNames bareWorld s (.getNames 2) = .ok (s, .names [[], ascii "foo"], []) ∧
    wstep exNames bareWorld s (.getNames 1) = .ok (s, .names [[]], []) ∧
    wstep exNames bareWorld s .foreach = .ok (s, .tags [2, 1], []) :=
  ⟨_, _, _, rfl, rfl, ⟨_, _, rfl⟩, rfl, rfl, rfl, rfl⟩

/-- C25, C50: the same with the copy on stderr. -/
example : ∃ s tr s1 s2 tr', WRun exNames exOps s tr ∧
    wstep exNames stderrWorld s (.setWriter (some (.custom 6))) = .ok (s1, .int 0, []) ∧
    wrun exNames s1 [(stderrWorld, .str 3 1 (ascii "x")), (stderrWorld, .setLevel 1 7),
      (stderrWorld, .setDevice (some (ascii "a name that is much too long")))] = .ok (s2, tr') ∧
    tr' = [(.unit, [.custom 6 3 1 (ascii "x\x00"), .stderr (ascii "E foo: x\n")]), (.unit, []), (.int (-7), [])] ∧
    s2.writer = .wrap false ∧ s2.writer2 = some (.custom 6) ∧ s2.replay = none ∧
    LevelIs exNames stderrWorld s2 1 7 ∧
    wstep exNames stderrWorld s2 (.buf 0x87 1 [7, 7]) = .ok (s2, .unit, [.custom 6 0x87 1 [7, 7]]) ∧
    keepsWriter stderrWorld (.setDevice (some (ascii "a name that is much too long"))) = true :=
  ⟨_, _, _, _, _, rfl, rfl, rfl, rfl, rfl, rfl, rfl, ⟨_, _, rfl⟩, rfl, by decide⟩

end Verif.Libulog
