import Verif.Ulogcat.PropsSaid

/-!
# The functions for shell scripts (libulog/ulog_api.sh)

Variables and arguments of a shell are strings without NUL. `/dev/ulog_main` is the
device; each redirection to it opens it for writing. `printf` is the shell's own, so that
the shell is the task that writes; in how many writes it gives out its output, and what it
makes of a format, is the shell's. `${VAR:n:1}` is taken as in bash.
-/
namespace Verif.Tools.ShApi
open Verif Verif.Kernel Verif.Libulog Verif.Ulogcat

/-- What is left to the shell: the writes of an output of `printf`, and the output of
`printf` with a format and no arguments. -/
structure Shell where
  pieces : Bytes → List Bytes
  format : Bytes → Bytes

/-- `ULOG_STDERR`, `ULOG_NO_REDIRECT_STD`, `ulog_tag`; none is unset. -/
structure Vars where
  stderr : Option Bytes
  noRedirect : Option Bytes
  tag : Option Bytes
  deriving DecidableEq, Repr

/-- A script: its variables, and whether its standard output and error go to the device. -/
structure Scr where
  vars : Vars
  redirected : Bool
  deriving DecidableEq, Repr

inductive Call
  /-- the file is sourced -/
  | source
  | assign (v : Vars)
  /-- `ulog level message`, by task `t` -/
  | log (t : Task) (level : Nat) (message : Bytes)
  /-- a write to standard output or error, of the script or of a command it runs -/
  | print (t : Task) (bs : Bytes)

/-- What a script does. -/
inductive Eff
  /-- `exec 1> /dev/ulog_main 2>&1`; whether it went there before -/
  | exec (again : Bool)
  /-- the device is opened, written and closed -/
  | dev (t : Task) (ws : List Bytes)
  /-- a write to the standard output or error that was redirected -/
  | out (t : Task) (bs : Bytes)
  /-- one to that the script was started with -/
  | con (bs : Bytes)

def yes : Bytes := ascii "y"

/-- ulog_api.sh:14-23 -/
def source (s : Scr) : Scr × List Eff :=
  let v := if s.vars.stderr = some yes then { s.vars with noRedirect := some yes } else s.vars
  if v.noRedirect ≠ some yes then ({ vars := v, redirected := true }, [.exec s.redirected])
  else ({ s with vars := v }, [])

/-- A write to standard output or error. -/
def print (s : Scr) (t : Task) (bs : Bytes) : Eff := if s.redirected then .out t bs else .con bs

/-- ulog_api.sh:32, `${ULOG_LEVEL_LETTERS:$level:1}` -/
def letters : Bytes := ascii "  CEWNID"

def letter (level : Nat) : Bytes := (letters.drop level).take 1

/-- What precedes the message, ulog_api.sh:47: the level in digits, three NULs, the tag, a
NUL. -/
def head (level : Nat) (tag : Bytes) : Bytes := decNat level ++ [0, 0, 0] ++ tag ++ [0]

/-- `ulog`, ulog_api.sh:34-48. In the format on line 44 the newline is a backslash and an
`n`. -/
def log (sh : Shell) (s : Scr) (t : Task) (level : Nat) (message : Bytes) : Scr × List Eff :=
  let tag := s.vars.tag.getD (ascii "(shell script)")
  ({ s with vars := { s.vars with tag := some tag } },
    (if s.vars.stderr = some yes then (sh.pieces (sh.format (letter level ++ [32] ++ message ++ ascii "\\n"))).map (print s t) else []) ++
      [.dev t (sh.pieces (head level tag ++ message ++ [10]))])

def call (sh : Shell) (s : Scr) : Call → Scr × List Eff
  | .source => source s
  | .assign v => ({ s with vars := v }, [])
  | .log t level message => log sh s t level message
  | .print t bs => (s, [print s t bs])

/-- `ulogc` to `ulogd`, ulog_api.sh:50-72, 25-30. -/
inductive Fn
  | ulogc | uloge | ulogw | ulogn | ulogi | ulogd
  deriving DecidableEq, Repr

def Fn.level : Fn → Nat
  | .ulogc => 2
  | .uloge => 3
  | .ulogw => 4
  | .ulogn => 5
  | .ulogi => 6
  | .ulogd => 7

def Fn.call (f : Fn) (t : Task) (message : Bytes) : Call := .log t f.level message

/-- What it is to the driver. Script `s` has its standard output on file `s + 1`; file 0
is free while no viewer runs. (A second `exec` opens before it closes; the order does not
matter here, and the number of the file stays.) -/
def effOps (s : Nat) (junk : Nat → UInt8) : Eff → List Op
  | .exec again => (if again then [.release (s + 1)] else []) ++ [.openF (s + 1) false true false]
  | .dev t ws => .openF 0 false true false :: (ws.map (fun w => .write 0 t (userVec [w]) junk) ++ [.release 0])
  | .out t bs => [.write (s + 1) t (userVec [bs]) junk]
  | .con _ => []

/-- A program logs through libulog, or a script calls. -/
inductive Step
  | said (m : Said)
  | script (s : Nat) (c : Call)

/-- Programs and scripts, one step after the other; they have different numbers. -/
def runSteps (P : Nat → Prog) (sh : Nat → Shell) (junk : Nat → UInt8) : (Nat → Lib) → (Nat → Scr) → List Step → Except WFault (List Op)
  | _, _, [] => .ok []
  | libs, scr, .said m :: xs => do
    let (l, _, e) ← wstep (P m.prog).nm (P m.prog).env (libs m.prog) m.op
    let ops ← runSteps P sh junk (fun p => if p = m.prog then l else libs p) scr xs
    .ok (e.flatMap (driverOps (m.prog + 1) m.task junk) ++ ops)
  | libs, scr, .script s c :: xs => do
    let r := call (sh s) (scr s) c
    let ops ← runSteps P sh junk libs (fun q => if q = s then r.1 else scr q) xs
    .ok (r.2.flatMap (effOps s junk) ++ ops)

/-- What the scripts write elsewhere. -/
def consoles (sh : Nat → Shell) : (Nat → Scr) → List Step → List (Nat × Bytes)
  | _, [] => []
  | scr, .said _ :: xs => consoles sh scr xs
  | scr, .script s c :: xs =>
    ((call (sh s) (scr s) c).2.filterMap fun e => match e with | .con b => some (s, b) | _ => none) ++
      consoles sh (fun q => if q = s then (call (sh s) (scr s) c).1 else scr q) xs

end Verif.Tools.ShApi
