import Verif.Tools.PropsRemote
import Verif.Ulogcat.ExamplesSaid

/-! # Calls and requests meeting the hypotheses of C114 -/
namespace Verif.Tools.Examples.Remote
open Verif Verif.Kernel Verif.Kernel.Examples Verif.Libulog Verif.Ulogcat Verif.Ulogcat.Examples Verif.Ulogcat.Examples.Screen Verif.Tools.Remote
open Verif.Ulogcat.Examples.Said (env)

/-- Two processes with tags `net`, `ui` and `ulogctl`; the first has its `ui` from the
environment. -/
def progs : Nat → Prog := fun p =>
  { env := env (if p = 0 then [(ascii "ULOG_LEVEL_ui", ascii "E")] else [])
    nm := fun c => if c = 1 then ascii "net" else if c = 2 then ascii "ui" else if c = 9 then ascii "ulogctl" else [] }

theorem progs_plain : ∀ p, (progs p).Plain (ascii "/dev/ulog_main") := by
  intro p
  unfold progs
  split
  · exact ⟨rfl, by decide, by decide +kernel, 5, by decide⟩
  · exact ⟨rfl, by decide, by decide +kernel, 5, by decide⟩

def say (p : Nat) (c : Cid) (prio : UInt32) (x : String) : Do :=
  .say { prog := p, task := t1, tag := c, prio := prio, text := ascii x, whole := false }

/-- A client connects to the server of process 0, makes `ui` talk and `net` be quiet,
names a tag that is not there, sets all and leaves. -/
def calls : List Do :=
  [say 0 1 6 "up", say 0 2 6 "hidden", say 1 1 7 "hidden", .conn 0 t1 true, .req 0 t1 (.setTag (ascii "ui") 99), .req 0 t1 (.setTag (ascii "net") (-4)),
   say 0 2 7 "shown", say 0 1 1 "hidden", say 1 1 6 "other process", .req 0 t1 (.setTag (ascii "nett") 3), .req 0 t1 .list,
   .req 0 t1 (.setAll 7), say 0 1 7 "back", .conn 0 t1 false, .set 1 2 2, say 1 2 3 "hidden", .setTag 1 (ascii "ui") 3, say 1 2 3 "own level"]

theorem calls_plain : ∀ d ∈ calls, d.Plain progs fun _ => 9 := by
  have said : ∀ p c prio x, (c = 1 ∨ c = 2) → NoNul (ascii x) → prioBinary prio = false → (say p c prio x).Plain progs fun _ => 9 := by
    intro p c prio x hc hx hp
    refine ⟨?_, hx, hp, ?_, by show ¬ (t1.pid = _ ∧ t1.tid = _); decide⟩
    · show NoNul ((progs p).nm c)
      rcases hc with rfl | rfl
      · show NoNul (ascii "net"); decide
      · show NoNul (ascii "ui"); decide
    · show prefixLen t1 + (4 + ((progs p).nm c).length + 1) < 4076
      rcases hc with rfl | rfl
      · show prefixLen t1 + (4 + (ascii "net").length + 1) < 4076; decide
      · show prefixLen t1 + (4 + (ascii "ui").length + 1) < 4076; decide
  intro d hd
  simp only [calls, List.mem_cons, List.not_mem_nil, or_false] at hd
  rcases hd with rfl | rfl | rfl | rfl | rfl | rfl | rfl | rfl | rfl | rfl | rfl | rfl | rfl | rfl | rfl | rfl | rfl | rfl
  all_goals first
    | exact said _ _ _ _ (by decide) (by decide) (by decide)
    | trivial
    | exact ⟨rfl, by decide, by decide⟩
    | exact ⟨rfl, by decide⟩

theorem calls_lines : (letThrough progs (fun _ => 9) (fun _ => []) calls).flatMap (·.lines progs look) =
    ascii "U I net         : up\nU D ui          : shown\nU I net         : other process\n" ++
    ascii "U E ulogctl     : Failed to set the tag \"nett\" to the level (3) err=1(Operation not permitted)\n" ++
    ascii "U D net         : back\nU D ulogctl     : POMP_EVENT_DISCONNECTED ...\nU E ui          : own level\n" := by
  decide +kernel

example : ∃ ops sys tr m, doAll progs (fun _ => 9) (fun _ => 0) (fun _ => .start) calls = .ok ops ∧
    Kernel.run (Kernel.init (ascii "main") 18 (fun _ => 0)) (ops ++ [.openF 0 true false true, .getLogLen 0]) = .ok (sys, tr ++ [(.getLogLen 0, .ret m)]) ∧
    (∀ p ∈ tr, ∀ e, p.2 ≠ .err e) ∧
    Dumps look sys tr m 18 fun bs => bs = ascii "U I net         : up\nU D ui          : shown\nU I net         : other process\n" ++
      ascii "U E ulogctl     : Failed to set the tag \"nett\" to the level (3) err=1(Operation not permitted)\n" ++
      ascii "U D net         : back\nU D ulogctl     : POMP_EVENT_DISCONNECTED ...\nU E ui          : own level\n" := by
  have h := C114_screen progs_plain calls_plain (fun _ => 0) (name := ascii "main") (k := 18) (fun _ => 0) (by decide) (by decide) (by decide) (by decide)
    (by decide +kernel) (L := look) rfl
  rw [calls_lines] at h
  exact h

/-- The hypotheses of `C114_until`: the level of `ui` set by request, and a message of
another tag in between. -/
example : letThrough progs (fun _ => 9) (fun _ => [])
      ([say 0 2 6 "hidden"] ++ .req 0 t1 (.setTag (ascii "ui") 5) :: [say 0 1 6 "up", .req 1 t1 (.setAll 0)] ++
        [.say { prog := 0, task := t1, tag := 2, prio := 5, text := ascii "shown", whole := true }]) =
    letThrough progs (fun _ => 9) (fun _ => []) ([say 0 2 6 "hidden"] ++ .req 0 t1 (.setTag (ascii "ui") 5) :: [say 0 1 6 "up", .req 1 t1 (.setAll 0)]) ++
      [{ prog := 0, task := t1, tag := 2, prio := 5, text := ascii "shown", whole := true }] :=
  C114_until (l := 5) (rest := [say 0 1 6 "up", .req 1 t1 (.setAll 0)]) (m := { prog := 0, task := t1, tag := 2, prio := 5, text := ascii "shown", whole := true })
    ⟨rfl, rfl, rfl⟩ (by
      intro d hd
      simp only [List.mem_cons, List.not_mem_nil, or_false] at hd
      rcases hd with rfl | rfl
      · trivial
      · intro h; cases h)

end Verif.Tools.Examples.Remote
