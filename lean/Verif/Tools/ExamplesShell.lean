import Verif.Tools.PropsShell
import Verif.Ulogcat.ExamplesSaid

/-! # Commands meeting the hypotheses of C111 -/
namespace Verif.Tools.Examples.Shell
open Verif Verif.Kernel Verif.Kernel.Examples Verif.Libulog Verif.Ulogcat Verif.Ulogcat.Examples Verif.Ulogcat.Examples.Screen
open Verif.Ulogcat.Examples.Said (progs progs_plain said said_plain)

/-- `ulogger -p W -t boot "one" "two"` -/
def byArgs : Cmd :=
  { clock := fun i => (UInt32.ofNat (100 + i), 5), self := ascii "ulogger", pid := 77, opts := [.prio (ascii "W"), .tag (ascii "boot")]
    args := [ascii "one", ascii "two"], input := [], task := t1 }

/-- `printf 'three\nfour' | ulogger -n sh` -/
def byLines : Cmd :=
  { clock := fun i => (UInt32.ofNat (200 + i), 5), self := ascii "ulogger", pid := 78, opts := [.name (ascii "sh")]
    args := [], input := ascii "three\nfour", task := t1 }

/-- `ulogger -m 12 34 "five"` -/
def byTime : Cmd :=
  { clock := fun _ => (0, 0), self := ascii "ulogger", pid := 79, opts := [.time], args := [ascii "12", ascii "34", ascii "five"], input := []
    task := t1 }

def acts : List Act := [.cmd byArgs] ++ said.map .said ++ [.cmd byLines, .cmd byTime]

def says (c : Cmd) : List LgMsg :=
  if c.pid = 77 then [(100, 5, ascii "one"), (101, 5, ascii "two")]
  else if c.pid = 78 then [(200, 5, ascii "three\n"), (201, 5, ascii "four")]
  else [(12, 34, ascii "five")]

theorem says_args : byArgs.Says (says byArgs) := .args (by decide) (by decide)
theorem says_lines : byLines.Says (says byLines) :=
  .lines (cs := [ascii "three\n", ascii "four"]) (by decide) rfl
    ⟨by decide, by decide, by
      intro pre c d post h
      rcases pre with _ | ⟨x, _ | ⟨y, pre⟩⟩
      · simp only [List.nil_append, List.cons.injEq] at h
        rw [← h.1]
        exact .inl (by decide)
      · simp at h
      · have := congrArg List.length h
        simp at this⟩
theorem says_time : byTime.Says (says byTime) := by
  have h : ∀ s : Bytes, ∀ v : Int, s ≠ [] → (∀ b ∈ s, isDigit b = true) → v = min (parseDec s : Int) (2 ^ 63 - 1) → Numeral s v :=
    fun s v h1 h2 h3 => ⟨[], [], s, rfl, by simp, .inl rfl, h1, h2, h3⟩
  exact .timedArgs (by decide) (by decide)
    (.full (h (ascii "12") 12 (by decide) (by decide) (by decide)) (h (ascii "34") 34 (by decide) (by decide) (by decide)) .nil)

theorem acts_plain : ∀ x ∈ acts, x.Plain progs says := by
  intro x hx
  simp only [acts, List.mem_append, List.mem_cons, List.not_mem_nil, or_false, List.mem_map] at hx
  rcases hx with (rfl | ⟨m, hm, rfl⟩) | rfl | rfl
  · exact ⟨⟨⟨by decide, by decide⟩, by decide, by decide, by decide, by decide, by decide⟩, says_args⟩
  · exact said_plain m hm
  · exact ⟨⟨⟨by decide, by decide⟩, by decide, by decide, by decide, by decide, by decide⟩, says_lines⟩
  · exact ⟨⟨⟨by decide, by decide⟩, by decide, by decide, by decide, by decide, by decide⟩, says_time⟩

theorem acts_lines : acts.flatMap (·.lines progs says look) =
    ascii "U W boot        : one\nU W boot        : two\n" ++
    ascii "U D net         : link up\nU E ui          : no\nU E ui          : screen\nU I             : bye\n" ++
    ascii "U I ulogger     : three\nU I ulogger     : four\nU I ulogger     : five\n" := by decide +kernel

/-- `C111_shell`: three commands around five messages of two programs. -/
example : ∃ ops sys tr m, actAll progs noJunk (fun _ => .start) acts = .ok ops ∧
      Kernel.run (Kernel.init dev 14 noJunk) (ops ++ [.openF 0 true false true, .getLogLen 0]) = .ok (sys, tr ++ [(.getLogLen 0, .ret m)]) ∧
      (∀ p ∈ tr, ∀ e, p.2 ≠ .err e) ∧
      Dumps look sys tr m 10 fun bs => bs =
        ascii "U W boot        : one\nU W boot        : two\n" ++
        ascii "U D net         : link up\nU E ui          : no\nU E ui          : screen\nU I             : bye\n" ++
        ascii "U I ulogger     : three\nU I ulogger     : four\nU I ulogger     : five\n" := by
  obtain ⟨ops, sys, tr, m, h1, h2, h3, h4⟩ := C111_shell progs_plain acts_plain noJunk (name := dev) (k := 14) noJunk (by omega) (by decide)
    (by decide) (by decide +kernel) (L := look) rfl
  exact ⟨ops, sys, tr, m, h1, h2, h3, by rw [acts_lines] at h4; exact h4⟩

/-- `C111_says`: a command with nothing to log. -/
example : ∃ ms, ({ byLines with input := [] } : Cmd).Says ms := C111_says _

end Verif.Tools.Examples.Shell
