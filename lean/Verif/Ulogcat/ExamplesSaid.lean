import Verif.Ulogcat.PropsSaid
import Verif.Ulogcat.ExamplesScreen

/-!
# Programs meeting the hypotheses of C106

Process 0 shows everything of tag 1; process 1 only errors.
-/
namespace Verif.Ulogcat.Examples.Said
open Verif Verif.Kernel Verif.Kernel.Examples Verif.Libulog Verif.Ulogcat Verif.Ulogcat.Examples Verif.Ulogcat.Examples.Screen

def tags : Cid → Bytes := fun c => if c = 1 then ascii "net" else if c = 2 then ascii "ui" else []

def env (l : List (Bytes × Bytes)) : Libulog.World :=
  { getenv := fun n => (l.find? fun x => x.1 = n).map (·.2)
    openDev := fun p => if p = ascii "/dev/ulog_main" then some 5 else none
    strdupOk := true }

def progs : Nat → Prog := fun p =>
  if p = 0 then { env := env [(ascii "ULOG_LEVEL_net", ascii "D")], nm := tags }
  else { env := env [(ascii "ULOG_LEVEL", ascii "E")], nm := tags }

theorem progs_plain : ∀ p, (progs p).Plain (ascii "/dev/ulog_main") := by
  intro p
  unfold progs
  split
  · exact ⟨rfl, by decide, by decide +kernel, 5, by decide⟩
  · exact ⟨rfl, by decide, by decide +kernel, 5, by decide⟩

def said : List Said :=
  [{ prog := 0, task := t1, tag := 1, prio := 7, text := ascii "link up", whole := false },
   { prog := 1, task := t1, tag := 1, prio := 6, text := ascii "not shown", whole := true },
   { prog := 0, task := t1, tag := 2, prio := 7, text := ascii "nor this", whole := true },
   { prog := 1, task := t1, tag := 2, prio := 3, text := ascii "no\nscreen", whole := true },
   { prog := 0, task := t1, tag := 0, prio := 6, text := ascii "bye", whole := false }]

theorem said_plain : ∀ m ∈ said, m.Plain progs := by
  have h : ∀ m ∈ said, NoNul (m.name progs) ∧ NoNul m.text ∧ prioBinary m.prio = false ∧ prefixLen m.task + (4 + (m.name progs).length + 1) < 4076 ∧
      ¬ (m.task.pid = 0xffffffff ∧ m.task.tid = 0xffffffff) := by decide +kernel
  exact fun m hm => ⟨(h m hm).1, (h m hm).2.1, (h m hm).2.2.1, (h m hm).2.2.2.1, (h m hm).2.2.2.2⟩

theorem said_lines : (said.filter (·.passes progs)).flatMap (·.lines progs look) =
    ascii "U D net         : link up\nU E ui          : no\nU E ui          : screen\nU I             : bye\n" := by decide +kernel

/-- `C106_programs`: three of five messages are let through, one has two lines. -/
example : ∃ ops sys tr m, sayAll progs noJunk (fun _ => .start) said = .ok ops ∧
      Kernel.run (Kernel.init dev 14 noJunk) (ops ++ [.openF 0 true false true, .getLogLen 0]) = .ok (sys, tr ++ [(.getLogLen 0, .ret m)]) ∧
      ∃ all c t, processLogs ((driverWorld 0 0 (decide (look.fmt = .csv)) (canRender look) 1).onto .file (fun _ => []) (entriesBy look all) stream) true 0 6
          (openCtx [m] 0) ⟨{ sys, tr := tr ++ [(.getLogLen 0, .ret m)], os := [], env := [] }, List.replicate 5248 170, []⟩ 0 =
            .ok (c, t, some 0) ∧ t.st.os = all ∧
        t.bytes = ascii "U D net         : link up\nU E ui          : no\nU E ui          : screen\nU I             : bye\n" := by
  obtain ⟨ops, sys, tr, m, h1, h2, h3⟩ := C106_programs progs_plain said_plain noJunk (name := dev) (k := 14) noJunk (by omega) (by decide)
    (by decide) (by decide +kernel) (L := look) rfl
  obtain ⟨all, c, t, e1, e2, e3⟩ := h3 0 0 6 (by decide) (buf0 := List.replicate 5248 170) List.length_replicate (paths := fun _ => [])
    (ans := stream) (fun _ _ => ⟨6000, rfl, by omega⟩)
  exact ⟨ops, sys, tr, m, h1, h2, all, c, t, e1, e2, by rw [e3, said_lines]⟩

/-- The room asked for is there for an entry and its notice: what `OnScreen.lossless`
says is about logs like this one. -/
example : bytesLen (((said.filter (·.passes progs)).map (·.entry progs)).drop 0) + 8200 ≤ 2 ^ 14 := by decide +kernel

/-- The same messages as CSV lines. -/
def csvLook : Look := { look with fmt := .csv }

example : ∃ ops sys tr m, sayAll progs noJunk (fun _ => .start) said = .ok ops ∧
      Kernel.run (Kernel.init dev 14 noJunk) (ops ++ [.openF 0 true false true, .getLogLen 0]) = .ok (sys, tr ++ [(.getLogLen 0, .ret m)]) ∧
      Dumps csvLook sys tr m 5 fun bs => bs = (said.filter (·.passes progs)).flatMap (·.lines progs csvLook) :=
  C106_programs progs_plain said_plain noJunk (name := dev) (k := 14) noJunk (by omega) (by decide) (by decide) (by decide +kernel) (L := csvLook) rfl

/-- Forty messages of five thousand characters, each cut at the longest entry: together
ten times the smallest buffer. -/
def much : List Said :=
  List.replicate 40 { prog := 0, task := t1, tag := 1, prio := 7, text := List.replicate 5000 65, whole := true }

theorem much_plain : ∀ m ∈ much, m.Plain progs := by
  intro m hm
  rw [(List.mem_replicate.1 hm).2]
  refine ⟨by decide, fun b hb => ?_, by decide, by decide, by decide⟩
  rw [(List.mem_replicate.1 hb).2]
  decide

/-- `C106_overflow`. -/
example : ∃ ops sys tr m, sayAll progs noJunk (fun _ => .start) much = .ok ops ∧
      Kernel.run (Kernel.init dev 14 noJunk) (ops ++ [.openF 0 true false true, .getLogLen 0]) = .ok (sys, tr ++ [(.getLogLen 0, .ret m)]) ∧
      Dumps look sys tr m 40 fun bs => Partly progs look dev (2 ^ 14) (much.filter (·.passes progs)) bs := by
  have h := C106_overflow progs_plain much_plain noJunk (name := dev) (k := 14) noJunk (by omega) (by decide) (by decide)
    (by show (40 : Nat) < _; omega) (L := look) rfl
  exact h

/-- All of them are let through, and more than the buffer holds. -/
example : ((much.filter (·.passes progs)).map (·.size progs)).sum = 40 * 4100 := by decide +kernel

end Verif.Ulogcat.Examples.Said
