import Verif.Libulog.PropsBuilds

/-! Examples for C121. -/
namespace Verif.Libulog
open Verif

/-- An environment that asks for a coloured copy. -/
def colourWorld : World :=
  { getenv := fun n => if n = ascii "ULOG_STDERR" ∨ n = ascii "ULOG_STDERR_COLOR" then some [] else none
    openDev := fun _ => none, strdupOk := true }

def exCalls (w : World) : List (World × WOp) :=
  [(w, .str 3 1 (ascii "broken")), (w, .str 7 1 (ascii "dropped")), (w, .buf 0x84 1 [1, 2]), (w, .setLevel 1 7),
    (w, .setDevice (some (ascii "x"))), (w, .log 7 1 (some (ascii "seen\n"))), (w, .replay 5 7000000), (w, .str 0 1 (ascii "down"))]

/-- All that the calls of a run did. -/
def allOf (p : Platform) (w : World) : Option (List PEv) :=
  (runOn p exNames Lib.start (exCalls w)).toOption.map fun x => x.2.flatMap Prod.snd

/-- Android without `ULOG_STDERR`; the hypotheses of the theorems hold. -/
example : NoDevice (fun _ => none) (exCalls bareWorld) ∧ allOf .android bareWorld = some
    [.alog 6 (ascii "foo") (ascii "broken"), .alog 3 (ascii "foo") (ascii "seen\n"), .alog 0 (ascii "foo") (ascii "down")] :=
  ⟨by
    intro x hx
    simp only [exCalls, List.mem_cons, List.not_mem_nil, or_false] at hx
    rcases hx with rfl | rfl | rfl | rfl | rfl | rfl | rfl | rfl <;> exact ⟨rfl, fun _ => rfl, by simp⟩, by decide +kernel⟩

/-- Windows: the copy only. -/
example : allOf .windows bareWorld = some
    [.ev (.stderr (ascii "E foo: broken\n")), .ev (.stderr (ascii "D foo: seen\n")), .ev (.stderr (ascii "5.007   foo: down\n"))] := by
  decide +kernel

/-- Android with a coloured copy. -/
example : allOf .android colourWorld = some
    [.alog 6 (ascii "foo") (ascii "broken"), .ev (.stderr (ascii "\x1b[1;31mE\x1b[0m foo: broken\n")),
      .alog 3 (ascii "foo") (ascii "seen\n"), .ev (.stderr (ascii "\x1b[1;36mD\x1b[0m foo: seen\n")),
      .alog 0 (ascii "foo") (ascii "down"), .ev (.stderr (ascii "5.007   foo: down\n"))] := by
  decide +kernel

/-- A buffer without end, the last hypotheses of `C121_false_buf`. -/
example : (stepOn .android exNames bareWorld Lib.start (.buf 3 1 [65])).toOption = none ∧
    LevelIs exNames bareWorld Lib.start 1 6 := by
  refine ⟨by decide +kernel, ?_⟩
  rw [levelIs_iff]; decide +kernel

end Verif.Libulog
