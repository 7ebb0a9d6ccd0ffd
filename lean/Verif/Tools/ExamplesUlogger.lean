import Verif.Tools.PropsUlogger
import Verif.Libulog.ExamplesEnd

/-! # Concrete runs of the shell command meeting the hypotheses of C86-C89 -/
namespace Verif.Tools.Examples.Ulogger
open Verif Verif.Kernel Verif.Kernel.Examples Verif.Libulog Verif.Libulog.Examples Verif.Ulogcat Verif.Tools

/-- The device opens, the clock runs, the third write fails with ENOSPC. -/
def env : LgEnv :=
  { dev := some 3, clock := fun i => some (UInt32.ofNat (100 + i), 5), write := fun i => if i = 2 then some 28 else none }

def self : Bytes := ascii "ulogger"

theorem num (n : Nat) (h : n < 2 ^ 63) : Numeral (decNat n) n :=
  ⟨[], [], decNat n, rfl, by simp, .inl rfl, decNat_ne_nil' n, decNat_digits n, by
    rw [if_neg (by simp), parseDec_decNat]; omega⟩

theorem num' {s : Bytes} (n : Nat) (h : n < 2 ^ 63) (hs : s = decNat n) : Numeral s n := hs ▸ num n h

/-- `C86_args`: `ulogger -p W -t net -i 42 -t wifi up down lost`; the third write fails. -/
example : Usual [.prio (ascii "W"), .tag (ascii "net"), .pid (ascii "42"), .tag (ascii "wifi")] ∧
    LgOpt.time ∉ [LgOpt.prio (ascii "W"), .tag (ascii "net"), .pid (ascii "42"), .tag (ascii "wifi")] ∧
    (whoOf self 7 [.prio (ascii "W"), .tag (ascii "net"), .pid (ascii "42"), .tag (ascii "wifi")]).pid = 42 ∧
    (whoOf self 7 [.prio (ascii "W"), .tag (ascii "net"), .pid (ascii "42"), .tag (ascii "wifi")]).level = 4 ∧
    (whoOf self 7 [.prio (ascii "W"), .tag (ascii "net"), .pid (ascii "42"), .tag (ascii "wifi")]).tag = ascii "wifi" ∧
    (∀ j : Nat, j < 3 → env.clock j = some (UInt32.ofNat (100 + j), 5)) ∧
    (ulogger env self 7 [.prio (ascii "W"), .tag (ascii "net"), .pid (ascii "42"), .tag (ascii "wifi")]
      [ascii "up", ascii "down", ascii "lost", ascii "never"] []).2 = 28 ∧
    (ulogger env self 7 [.prio (ascii "W"), .tag (ascii "net"), .pid (ascii "42"), .tag (ascii "wifi")]
      [ascii "up", ascii "down", ascii "lost", ascii "never"] []).1.length = 3 :=
  ⟨⟨by decide, by decide⟩, by decide, by decide +kernel, by decide +kernel, by decide +kernel, fun _ _ => rfl,
    by decide +kernel, by decide +kernel⟩

/-- `C86_refused` -/
example : (whoOf self 7 [.pid (ascii "-1")]).pid = 0xffffffff ∧
    ulogger env self 7 [.pid (ascii "-1")] [ascii "x"] [] = ([], 22) := by decide +kernel

/-- `C86_stop` -/
example : ulogger env self 7 [.tag (ascii "a"), .help, .bad] [ascii "x"] [] = ([], 0) ∧ Usual [.tag (ascii "a")] :=
  ⟨by decide +kernel, by decide, by decide⟩

def w : Who := { pid := 42, name := ascii "sh", tag := ascii "net", level := 4, copy := true }

/-- `C86_decoded`: a device with a raw writer and a reader; the entry is stored and
read back. -/
example : ∃ s s' l, Run dev 14 noJunk rawOpened s (trOf rawOpened) ∧
    step s (.write 0 t1 (userVec (vecOf w (10, 20, ascii "up"))) noJunk) = .ok (s', .ret 34) ∧
    (obs dev (trOf rawOpened)).rds 0 = some Libulog.Examples.rd ∧ Drains 0 0 5000 s' l ∧ (obs dev (trOf rawOpened)).raw 0 = true ∧
    w.pid ≠ 0xffffffff ∧ w.level < 8 ∧ NoNul w.name ∧ NoNul w.tag ∧ w.name.length + w.tag.length + 2 ≤ 4069 := by
  obtain ⟨s, s', l, h1, h2, h3, h4⟩ := Libulog.Examples.after (ops := rawOpened)
    (op := .write 0 t1 (userVec (vecOf w (10, 20, ascii "up"))) noJunk)
    (o := .ret 34) (r := Libulog.Examples.rd) (r' := Libulog.Examples.rd) (by decide) (by decide) (by decide +kernel) (by decide +kernel)
    (by decide +kernel) (by decide +kernel) (by decide +kernel) rfl
  exact ⟨s, s', l, h1, h2, h3, h4, by decide +kernel, by decide, by decide, by decide, by decide, by decide⟩

/-- `C87_args`: times for the first, seconds for the second, none for the third. -/
example : TimedArgs 0 0 [ascii "10", ascii "20", ascii "a", ascii "30", ascii "b", ascii "c"]
    [(10, 20, ascii "a"), (30, 20, ascii "b"), (30, 20, ascii "c")] := by
  have nb : ∀ w, ¬ Numeral (ascii "b") w := by
    intro w h
    have := (C86_number (ascii "b") (low32 w)).mpr ⟨w, h, rfl⟩
    exact absurd this (by rw [show parseInt32 (ascii "b") = none by decide +kernel]; simp)
  exact .full (v := 10) (w := 20) (num' 10 (by decide) (by decide +kernel)) (num' 20 (by decide) (by decide +kernel))
    (.sec (v := 30) (num' 30 (by decide) (by decide +kernel)) (.inr nb) (.plain (.inl rfl) .nil))

/-- `C88_lines`, `C87_lines`: a piece per line; the second line has no time. -/
def input : Bytes := ascii "10 20 a\n5x\n"

example : Chunks input [ascii "10 20 a\n", ascii "5x\n"] := by
  refine ⟨by decide +kernel, by decide +kernel, ?_⟩
  intro pre c d post h
  cases pre with
  | nil => simp only [List.nil_append, List.cons.injEq] at h; left; rw [← h.1]; decide +kernel
  | cons x pre =>
    have := congrArg List.length h
    simp at this
    omega

example : TimedLines 0 0 [ascii "10 20 a\n", ascii "5x\n"] [(10, 20, ascii "a\n"), (10, 20, ascii "x\n")] := by
  refine .cons ?_ (.cons ?_ .nil)
  · rw [show cstr (ascii "10 20 a\n") = ascii "10" ++ 32 :: (ascii "20" ++ ascii " a\n") by decide +kernel,
      show ((10, 20, ascii "a\n") : LgMsg) = (low32 10, low32 20, (ascii " a\n").dropWhile (· == 32)) by decide +kernel]
    exact .full (num' 10 (by decide) (by decide +kernel)) (by decide +kernel) (num' 20 (by decide) (by decide +kernel))
      (by intro b hb; have : b = 32 := by simpa [ascii] using hb.symm
          subst this; decide)
  · rw [show cstr (ascii "5x\n") = ascii "5" ++ ascii "x\n" by decide +kernel]
    exact .glued (num' 5 (by decide) (by decide +kernel)) (by decide +kernel)
      (by intro b hb; have : b = 120 := by simpa [ascii] using hb.symm
          subst this; decide)

/-- `C89_fallback`: no device. -/
example : ulogger { env with dev := none } self 7 [.stderr, .prio (ascii "3")] [ascii "x\n"] [] =
    ([.str 3 (ascii "ulogger") (ascii "x\n"), .err (ascii "E ulogger: x\n")], 0) := by decide +kernel

/-- `C40_number`: a priority, a time with something behind it, and no number. -/
example : Ulogcat.strtol (ascii " 30") = 30 ∧ Ulogcat.and7 30 = 6 ∧ Ulogcat.strtol (ascii "12345678x") = 12345678 ∧
    Ulogcat.secOf 12345678 = 12 ∧ Ulogcat.nsecOf 12345678 = 345678000 ∧ Ulogcat.strtol (ascii "x") = 0 := by decide +kernel

end Verif.Tools.Examples.Ulogger
