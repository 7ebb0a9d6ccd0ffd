import Verif.Tools.PropsPySetup
import Verif.Tools.ExamplesShm

/-! # Programs meeting the hypotheses of C123 -/
namespace Verif.Tools.Examples.PySet
open Verif Verif.Kernel Verif.Kernel.Examples Verif.Libulog Verif.Ulogcat Verif.Ulogcat.Examples Verif.Ulogcat.Examples.Screen Verif.Tools.PySet

/-- Process 0: all levels from C, and debug records of Python since the letter is given;
process 1: errors only. -/
def progs (p : Nat) : Prog :=
  { env :=
      { getenv := fun v => if v = ascii "ULOG_LEVEL" then some (if p = 0 then ascii "D" else ascii "E") else none
        openDev := fun d => if d = ascii "/dev/ulog_main" then some 3 else none, strdupOk := true }
    nm := fun c => if c = 0 then [] else if c % 2 = 0 then ascii "ulog_py" else ascii "net" }

theorem progs_plain (p : Nat) : (progs p).Plain (ascii "/dev/ulog_main") :=
  ⟨rfl, by simp [progs, ascii], by simp [progs, Prog.device, ascii], 3, by simp [progs]⟩

theorem masters : Masters progs := by
  intro p i
  show (if 2 * i + 2 = 0 then [] else if (2 * i + 2) % 2 = 0 then ascii "ulog_py" else ascii "net") = _
  rw [if_neg (by omega), if_pos (by omega)]

def W : PySet.World :=
  { P := progs, pid := fun p => UInt32.ofNat (20 + p), start := fun _ t => if t = 20 ∨ t = 21 then ascii "python3" else ascii "?", lines := splitLines none }

theorem W_lines (t : Bytes) : IsLines t (W.lines t) := by
  have := splitLines_spec _ t none rfl (by simp) (by simp)
  exact this

def a (tid : UInt32) (op : PySet.PyOp) : PySet.Act := { tid, op, euid := 0, clock := fun h i => (UInt32.ofNat (100 * h + i), 0) }
def m0 : Said := { prog := 0, task := t1, tag := 3, prio := 7, text := ascii "link up", whole := true }

/-- Nothing before `setup_logging`; a long name; a thread; an event; exceptions. -/
def ins : List PySet.In :=
  [.py 0 (a 20 (.record none 50 (ascii "cam") (ascii "lost"))), .py 0 (a 20 (.setup (ascii "camera-of-the-roof"))), .said m0,
   .py 0 (a 20 (.start 22)), .py 0 (a 22 (.record none 10 (ascii "cam.io") (ascii "one\ntwo\n"))),
   .py 1 (a 21 (.setup (ascii "gps"))), .py 1 (a 21 (.record none 30 (ascii "gps") (ascii "bad"))), .py 1 (a 21 (.record none 25 (ascii "gps") (ascii "bad"))),
   .py 1 (a 21 (.setup [])), .py 1 (a 21 (.record (some 10) 40 (ascii "gps") (ascii "worse"))),
   .py 0 (a 22 (.record none 20 (ascii "cam") (ascii "EVT:START"))), .py 0 (a 22 (.uncaught .thread false (ascii "x"))),
   .py 0 (a 20 (.uncaught .main false (ascii "ValueError")))]

theorem ins_plain : ∀ x ∈ ins, x.Plain W := by
  intro x hx
  simp only [ins, List.mem_cons, List.not_mem_nil, or_false] at hx
  rcases hx with rfl | rfl | rfl | rfl | rfl | rfl | rfl | rfl | rfl | rfl | rfl | rfl | rfl
  · exact ⟨by decide, by simp only [a, PySet.PyOp.Plain]; decide⟩
  · exact ⟨by decide, by simp only [a, PySet.PyOp.Plain]; decide⟩
  · exact ⟨by decide, by decide, by decide, by decide, by decide⟩
  · exact ⟨by decide, trivial⟩
  all_goals exact ⟨by decide, by simp only [a, PySet.PyOp.Plain]; decide⟩

def shown : Bytes :=
  ascii "U W root        : Truncating process name b'camera-of-the-roof' -> b'camera-of-the-r'\nU D net         : link up\n" ++
  ascii "U D cam.io      : one\nU D cam.io      : two\nU E gps         : worse\nU E gps         : worse\nU N cam         : EVT:START\n" ++
  ascii "U E root        : Uncaught exception\nU E root        : ValueError\n"

def results : List PySet.PyRes := [.done, .done, .done, .done, .done, .done, .keyError, .done, .done, .done, .traceback, .exit 1]

/-- `C123_screen` -/
example : ∃ ops sys tr m, PySet.inAll progs W.pid noJunk (fun _ => .start) (fun p => fresh (W.start p)) ins = .ok (ops, results) ∧
    Kernel.run (Kernel.init dev 14 noJunk) (ops ++ [.openF 0 true false true, .getLogLen 0]) = .ok (sys, tr ++ [(.getLogLen 0, .ret m)]) ∧
    (∀ p ∈ tr, ∀ e, p.2 ≠ .err e) ∧ Dumps look sys tr m 9 fun bs => bs = shown := by
  have h := C123_screen progs_plain masters W_lines ins_plain noJunk (name := dev) (k := 14) noJunk (by omega) (by decide) (by decide +kernel) (by decide +kernel)
    (L := look) rfl
  rw [show W.count [] ins = 9 by decide +kernel, show W.screen look [] ins = shown by decide +kernel, show W.results [] ins = results by decide +kernel] at h
  exact h

/-- With the names of processes and threads. -/
example : W.screen { look with fmt := .process } [] (ins.take 5) ≠ W.screen { look with fmt := .process } [] (ins.eraseIdx 3 |>.take 4) := by decide +kernel

/-- `C123_false_thread`, `C123_false_callback`, `C123_false_debug`, `C123_false_name` -/
example : PySet.act (progs 0).env.getenv 20 (fresh (W.start 0)) (a 22 (.uncaught .thread false (ascii "x"))) = (fresh (W.start 0), none, [], .traceback) :=
  C123_false_thread _ _ _ _ rfl
example : (PySet.act (progs 0).env.getenv 20 { handlers := 1, root := 10, comm := W.start 0 } (a 22 (.uncaught .unraisable false (ascii "x")))).2.2.2 = .done :=
  C123_false_callback (W := W) W_lines (p := 0) (past := [.py 0 (a 20 (.setup []))]) (i := { handlers := 1, root := 10, comm := W.start 0 })
    ⟨rfl, fun _ => by decide, by
      funext t
      show _ = if 0 = 0 ∧ (20 : UInt32) = t ∧ ([] : Bytes) ≠ [] then _ else _
      rw [if_neg (by simp)]; rfl⟩ (by decide) rfl (by decide)
example : (PySet.act (fun _ => some (ascii "7")) 20 (PySet.act (fun _ => some (ascii "7")) 20 (fresh (W.start 0)) (a 20 (.setup []))).1
    (a 20 (.record none 10 (ascii "cam") (ascii "x")))).2.2.1 = [] := (C123_false_debug rfl 20 _ _ _ rfl rfl).1
example : (PySet.act (progs 0).env.getenv 20 (fresh (W.start 0)) (a 22 (.setup (ascii "cam")))).1.comm 20 = ascii "python3" :=
  (C123_false_name _ 20 (fresh (W.start 0)) (a 22 (.setup (ascii "cam"))) rfl (by decide)).1

end Verif.Tools.Examples.PySet
